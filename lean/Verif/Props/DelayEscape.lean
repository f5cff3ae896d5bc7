import Verif.Props.Delay

/-! # C16: where a delay line goes when its buffer shrinks under the cursor -/

namespace Verif
open F32
variable {α : Type} {c : Cfg}

/-- A cursor at or past the end of its buffer moves on, it does not wrap. -/
theorem advance_outside {s : MemorySlice} {i : Nat} (h0 : 0 < s.length) (hi : s.length ≤ i) (hb : i + 1 < 2 ^ c.w) :
    DelayLine.advance c ⟨s, i⟩ = .ok ⟨s, i + 1⟩ := by
  have h1 : c.usub s.length 1 = .ok (s.length - 1) := by unfold Cfg.usub; exact if_pos h0
  simp only [DelayLine.advance, MemorySlice.len, h1, bind, Except.bind, pure, Except.pure, Cfg.uadd, if_pos hb]
  rw [if_neg (by omega)]

/-- What C16 becomes after a swap to a shorter buffer `ys` with the cursor `p` cells past its end: the line never returns
to its buffer. It plays the cells `post` that follow the buffer in the same allocation and overwrites them with its
input, until it runs into the end of the allocation, which is undefined behaviour. -/
theorem C16_actual : ∀ (ins : List α) {mem : Mem α} {b : Nat} {pre ys post : List α} {p : Nat},
    mem b = some (pre ++ ys ++ post) → 4 * ((pre ++ ys ++ post).length : Int) ≤ c.isizeMax → ys ≠ [] →
    (p + ins.length ≤ post.length →
      delayRun c mem ⟨⟨⟨some b, pre.length⟩, ys.length⟩, ys.length + p⟩ ins =
        .ok (fun b' => if b' = b then some (pre ++ ys ++ (post.take p ++ ins ++ post.drop (p + ins.length))) else mem b',
          ⟨⟨⟨some b, pre.length⟩, ys.length⟩, ys.length + p + ins.length⟩, (post.drop p).take ins.length)) ∧
    (post.length < p + ins.length → ins ≠ [] →
      delayRun c mem ⟨⟨⟨some b, pre.length⟩, ys.length⟩, ys.length + p⟩ ins = .error .ub) := by
  intro ins
  induction ins with
  | nil =>
    intro mem b pre ys post p hm hs hy
    refine ⟨fun hp => ?_, fun _ h => absurd rfl h⟩
    simp only [delayRun, List.length_nil, Nat.add_zero, List.take_zero, List.append_nil, List.take_append_drop]
    congr 2
    funext b'
    split
    · next h => rw [h, hm]
    · rfl
  | cons x rest ih =>
    intro mem b pre ys post p hm hs hy
    have hy0 : 0 < ys.length := List.length_pos_iff.2 hy
    have hbig : (pre ++ ys ++ post).length + 1 < 2 ^ c.w := by
      have := c.pow_pred_ge
      have h2 : 2 ^ c.w = 2 * 2 ^ (c.w - 1) := by
        have := c.w_ge
        rw [← Nat.pow_succ']; congr 1; omega
      unfold Cfg.isizeMax at hs
      zify at *
      omega
    by_cases hp : p < post.length
    · have hget : (pre ++ ys ++ post)[pre.length + (ys.length + p)]? = some post[p] := by
        rw [List.getElem?_append_right (by simp)]
        simp [show pre.length + (ys.length + p) - (pre.length + ys.length) = p by omega, hp]
      have hset : (pre ++ ys ++ post).set (pre.length + (ys.length + p)) x = pre ++ ys ++ post.set p x := by
        rw [List.set_append_right _ _ (by simp)]
        simp [show pre.length + (ys.length + p) - (pre.length + ys.length) = p by omega]
      have hlt : pre.length + (ys.length + p) < (pre ++ ys ++ post).length := by simp; omega
      have hstep : ∀ r : M (Mem α × DelayLine × List α),
          delayRun c (fun b' => if b' = b then some (pre ++ ys ++ post.set p x) else mem b')
            ⟨⟨⟨some b, pre.length⟩, ys.length⟩, ys.length + (p + 1)⟩ rest = r →
          delayRun c mem ⟨⟨⟨some b, pre.length⟩, ys.length⟩, ys.length + p⟩ (x :: rest) =
            r.map fun t => (t.1, t.2.1, post[p] :: t.2.2) := by
        intro r hr
        simp only [delayRun, DelayLine.read, MemorySlice.getUnchecked, load, hm, hget, DelayLine.writeAndAdvance,
          MemorySlice.assignUnchecked, store, if_pos hlt, hset, bind, Except.bind, pure, Except.pure]
        rw [advance_outside (s := ⟨⟨some b, pre.length⟩, ys.length⟩) hy0 (by simp) (by simp at hbig ⊢; omega)]
        simp only [Nat.add_assoc, hr]
        cases r <;> rfl
      obtain ⟨i1, i2⟩ := ih (mem := fun b' => if b' = b then some (pre ++ ys ++ post.set p x) else mem b') (b := b)
        (pre := pre) (ys := ys) (post := post.set p x) (p := p + 1) (by simp) (by simpa using hs) hy
      refine ⟨fun hle => ?_, fun hgt _ => ?_⟩
      · rw [hstep _ (i1 (by simp at hle ⊢; omega))]
        simp only [Except.map]
        congr 2
        · funext b'
          split
          · congr 2
            have ht : (post.set p x).take (p + 1) = post.take p ++ [x] := by
              rw [List.take_add_one, List.take_set_of_le (le_refl p)]
              simp [hp]
            rw [ht, List.drop_set_of_lt (by omega), List.length_cons, show p + 1 + rest.length = p + (rest.length + 1) by omega]
            simp
          · rfl
        · congr 1
          · simp; omega
          · rw [List.length_cons, List.drop_eq_getElem_cons hp, List.take_succ_cons]
            rw [List.drop_set_of_lt (by omega)]
      · have hr : rest ≠ [] := by rintro rfl; simp at hgt; omega
        rw [hstep _ (i2 (by simp at hgt ⊢; omega) hr)]
        rfl
    · refine ⟨fun hle => absurd hle (by simp; omega), fun _ _ => ?_⟩
      have hget : (pre ++ ys ++ post)[pre.length + (ys.length + p)]? = none := by
        rw [List.getElem?_eq_none_iff]; simp; omega
      simp only [delayRun, DelayLine.read, MemorySlice.getUnchecked, load, hm, hget, bind, Except.bind]

-- a one-cell buffer in front of two cells of somebody else: two samples get through, the third faults
example : delayRun Cfg.release64 (fun _ => some [20, 30, 40]) ⟨⟨⟨some 0, 0⟩, 1⟩, 1⟩ [1, 2, 3] = .error .ub ∧
    (delayRun Cfg.release64 (fun _ => some [20, 30, 40]) ⟨⟨⟨some 0, 0⟩, 1⟩, 1⟩ [1, 2]).map (fun t => (t.1 0, t.2.2)) =
      .ok (some [20, 1, 2], [30, 40]) := ⟨rfl, rfl⟩

end Verif
