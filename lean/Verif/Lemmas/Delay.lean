import Verif.Spec.Delay
import Verif.Lemmas.Slice

/-! # Helper lemmas: delay lines as queues -/

namespace Verif

variable {α : Type} {c : Cfg} {mem : Mem α} {d : DelayLine} {q xs : List α}

theorem Holds.length (h : Holds c mem d q) : q.length = d.buffer.length := by
  obtain ⟨xs, hv, hi, rfl⟩ := h
  rw [hv.length_eq]; simp; omega

theorem Holds.ne_nil (h : Holds c mem d q) : q ≠ [] := by
  obtain ⟨xs, hv, hi, rfl⟩ := h
  intro h0; have := congrArg List.length h0; simp at this; omega

theorem Holds.idx_lt (h : Holds c mem d q) : d.index < q.length := by
  rw [h.length]; obtain ⟨xs, hv, hi, -⟩ := h; rw [hv.length_eq]; exact hi

/-- A fresh delay line holds the buffer contents. -/
theorem holds_new {s : MemorySlice} (h : Views c mem s xs) (hx : xs ≠ []) : Holds c mem (DelayLine.new s) xs :=
  ⟨xs, h, List.length_pos_iff.2 hx, by simp [DelayLine.new]⟩

theorem Holds.read (h : Holds c mem d q) : d.read mem = .ok (q.head h.ne_nil) := by
  obtain ⟨xs, hv, hi, rfl⟩ := h
  unfold DelayLine.read
  rw [hv.getUnchecked hi, List.head_append_of_ne_nil (by simp; omega), List.head_drop]

theorem advance_eq (hv : Views c mem d.buffer xs) (hi : d.index < xs.length) :
    d.advance c = .ok { d with index := if d.index + 1 = xs.length then 0 else d.index + 1 } := by
  have hlt := hv.len_lt
  unfold DelayLine.advance MemorySlice.len
  rw [hv.length_eq, c.usub_eq (by omega)]
  simp only [bind, Except.bind, pure, Except.pure]
  by_cases h : d.index + 1 = xs.length
  · rw [if_pos (by omega), if_pos h]
  · rw [if_neg (by omega), if_neg h, c.uadd_eq (by omega)]

/-- Moving on without writing turns the queue round. -/
theorem Holds.advance (h : Holds c mem d q) :
    ∃ d', d.advance c = .ok d' ∧ d'.buffer = d.buffer ∧ Holds c mem d' (q.tail ++ [q.head h.ne_nil]) := by
  obtain ⟨xs, hv, hi, rfl⟩ := h
  refine ⟨_, advance_eq hv hi, rfl, xs, hv, by dsimp only; split_ifs <;> omega, ?_⟩
  dsimp only
  have hd : xs.drop d.index = xs[d.index] :: xs.drop (d.index + 1) := List.drop_eq_getElem_cons hi
  have ht : xs.take (d.index + 1) = xs.take d.index ++ [xs[d.index]] := by
    rw [List.take_add_one, List.getElem?_eq_getElem hi]; rfl
  by_cases hl : d.index + 1 = xs.length
  · rw [if_pos hl]
    have hnil : xs.drop (d.index + 1) = [] := List.drop_eq_nil_of_le (by omega)
    have hfull : xs.take (d.index + 1) = xs := List.take_of_length_le (by omega)
    rw [hfull] at ht
    simp only [hd, hnil, List.cons_append, List.nil_append, List.tail_cons, List.head_cons, List.drop_zero,
      List.take_zero, List.append_nil]
    exact ht.symm
  · rw [if_neg hl]
    simp only [hd, List.cons_append, List.tail_cons, List.head_cons, ht, List.append_assoc]

/-- Writing puts the sample at the back of the queue and drops the front. No other cell changes. -/
theorem Holds.write (h : Holds c mem d q) (v : α) :
    ∃ mem' d', d.writeAndAdvance c mem v = .ok (mem', d') ∧ d'.buffer = d.buffer ∧
      (∀ b, (mem' b).map List.length = (mem b).map List.length) ∧ Holds c mem' d' (q.tail ++ [v]) := by
  obtain ⟨xs, hv, hi, rfl⟩ := h
  obtain ⟨mem', h1, h2, -⟩ := hv.store hi v
  have hadv := advance_eq hv hi
  refine ⟨mem', { d with index := if d.index + 1 = xs.length then 0 else d.index + 1 }, ?_, rfl, store_shape h1,
    xs.set d.index v, h2, ?_, ?_⟩
  · unfold DelayLine.writeAndAdvance MemorySlice.assignUnchecked
    rw [h1, hadv]; rfl
  · dsimp only; rw [List.length_set]; split_ifs <;> omega
  dsimp only
  have hd : xs.drop d.index = xs[d.index] :: xs.drop (d.index + 1) := List.drop_eq_getElem_cons hi
  have hs : (xs.set d.index v).drop (d.index + 1) = xs.drop (d.index + 1) := List.drop_set_of_lt (by omega)
  have ht : (xs.set d.index v).take (d.index + 1) = xs.take d.index ++ [v] := by
    rw [List.take_add_one, List.take_set_of_le (le_refl _), List.getElem?_set_self hi]; rfl
  by_cases hl : d.index + 1 = xs.length
  · rw [if_pos hl]
    have hnil : xs.drop (d.index + 1) = [] := List.drop_eq_nil_of_le (by omega)
    have hfull : (xs.set d.index v).take (d.index + 1) = xs.set d.index v :=
      List.take_of_length_le (by rw [List.length_set]; omega)
    rw [hfull] at ht
    simp only [hd, hnil, List.cons_append, List.nil_append, List.tail_cons, List.drop_zero,
      List.take_zero, List.append_nil]
    exact ht.symm
  · rw [if_neg hl]
    simp only [hd, List.cons_append, List.tail_cons, ht, hs, List.append_assoc]

theorem wrapAt_rotate {i : Nat} (hi : i < xs.length) (hx : xs ≠ []) (hq : xs.drop i ++ xs.take i ≠ []) (o : Int) :
    wrapAt (xs.drop i ++ xs.take i) hq o = wrapAt xs hx (i + o) := by
  unfold wrapAt
  have hL : ((xs.drop i ++ xs.take i).length : Int) = xs.length := by simp; omega
  have hpos : (0 : Int) < xs.length := by omega
  simp only [hL]
  obtain ⟨r, hr⟩ : ∃ r : Nat, o % (xs.length : Int) = r :=
    ⟨(o % (xs.length : Int)).toNat, (Int.toNat_of_nonneg (Int.emod_nonneg _ hpos.ne')).symm⟩
  have hrl : r < xs.length := by have := Int.emod_lt_of_pos o hpos; omega
  have h2 : ((i : Int) + o) % (xs.length : Int) = (i + r : Nat) % (xs.length : Int) := by
    rw [Int.add_emod, hr]; push_cast; rw [Int.emod_add_emod]
  simp only [h2, hr, Int.toNat_natCast]
  by_cases hlt : i + r < xs.length
  · rw [List.getElem_append_left (by simp; omega), List.getElem_drop]
    congr 1
    rw [Int.emod_eq_of_lt (by omega) (by exact_mod_cast hlt)]; omega
  · rw [List.getElem_append_right (by simp; omega), List.getElem_take]
    congr 1
    have : ((i + r : Nat) : Int) % (xs.length : Int) = (i + r - xs.length : Nat) := by
      rw [← Int.sub_emod_right, Int.emod_eq_of_lt] <;> omega
    rw [this]; simp; omega

/-- Wrapped reads relative to the cursor are wrapped reads of the queue. -/
theorem Holds.readWrappedAt (h : Holds c mem d q) {o : Int} (ho : c.IsIsize (d.index + o)) :
    d.readWrappedAt c mem o = .ok (wrapAt q h.ne_nil o) := by
  have hne := h.ne_nil
  obtain ⟨xs, hv, hi, rfl⟩ := h
  have hx : xs ≠ [] := by rintro rfl; simp at hi
  have hlen := hv.len_le'
  unfold DelayLine.readWrappedAt
  rw [c.asIsize_eq (by omega), c.iadd_eq ho]
  simp only [bind, Except.bind]
  rw [hv.getWrapped hx, wrapAt_rotate hi hx]

end Verif
