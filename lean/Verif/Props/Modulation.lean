import Verif.Props.CombAllPass
import Verif.Props.Delay

/-! # C99, C100: changing the settings or the buffer of a comb or all-pass while it runs -/

namespace Verif
open F32

section generic
variable {α : Type} [Add α] [Sub α] [Mul α] [Lit α]

/-- The comb (with memory) before tick `n`, when before every tick `n` the settings are set to `fb n` and `damp n`. -/
def Comb.stateUnder (c : Cfg) (mem : Mem α) (k : Comb α) (fb damp inp : ℕ → α) : ℕ → M (Mem α × Comb α)
  | 0 => .ok (mem, k)
  | n + 1 => do
    let (m, k') ← Comb.stateUnder c mem k fb damp inp n
    let (m', k'', _) ← ((k'.setFeedback (fb n)).setDampening (damp n)).tick c m (inp n)
    return (m', k'')

/-- The value returned by tick `n` then. -/
def Comb.outUnder (c : Cfg) (mem : Mem α) (k : Comb α) (fb damp inp : ℕ → α) (n : ℕ) : M α := do
  let (m, k') ← Comb.stateUnder c mem k fb damp inp n
  let (_, _, o) ← ((k'.setFeedback (fb n)).setDampening (damp n)).tick c m (inp n)
  return o

variable {c : Cfg} {mem : Mem α} {q : List α}

theorem Comb.runUnder_spec {k : Comb α} (h : Holds c mem k.delayLine q) (fb damp inp : ℕ → α) :
    ∃ (Q : ℕ → List α) (f v : ℕ → α) (hne : ∀ n, Q n ≠ []), Q 0 = q ∧ f 0 = k.filterState ∧
      (∀ n, Q (n + 1) = (Q n).tail ++ [v n]) ∧
      (∀ n, f (n + 1) = (Q n).head (hne n) * (lit 1 - damp n) + f n * damp n) ∧
      (∀ n, v n = inp n + f (n + 1) * fb n) ∧
      ∀ n, Comb.outUnder c mem k fb damp inp n = .ok ((Q n).head (hne n)) := by
  -- pure trajectory
  let step : ℕ → {l : List α // l ≠ []} × α → {l : List α // l ≠ []} × α := fun n s =>
    let g := s.1.1.head s.1.2 * (lit 1 - damp n) + s.2 * damp n
    (⟨s.1.1.tail ++ [inp n + g * fb n], by simp⟩, g)
  let S : ℕ → {l : List α // l ≠ []} × α := fun n => Nat.rec (⟨q, h.ne_nil⟩, k.filterState) step n
  have hS : ∀ n, S (n + 1) = step n (S n) := fun n => rfl
  have hrun : ∀ n, ∃ m k', Comb.stateUnder c mem k fb damp inp n = .ok (m, k') ∧ k'.filterState = (S n).2 ∧
      Holds c m k'.delayLine (S n).1.1 := by
    intro n
    induction n with
    | zero => exact ⟨mem, k, rfl, rfl, h⟩
    | succ n ih =>
      obtain ⟨m, k', h1, h2, h3⟩ := ih
      obtain ⟨m', dl', t1, t2⟩ := Comb.tick_spec (k := (k'.setFeedback (fb n)).setDampening (damp n))
        (q := (S n).1.1) h3 (inp n)
      obtain ⟨k'', u1, u2, u3⟩ : ∃ k'', ((k'.setFeedback (fb n)).setDampening (damp n)).tick c m (inp n) =
          .ok (m', k'', (S n).1.1.head (S n).1.2) ∧ k''.filterState = (S (n + 1)).2 ∧
          Holds c m' k''.delayLine (S (n + 1)).1.1 :=
        ⟨_, t1, by rw [hS]; simp only [step, ← h2]; rfl, by rw [hS]; simp only [step, ← h2]; exact t2⟩
      refine ⟨m', k'', ?_, u2, u3⟩
      show (do let (m, k') ← Comb.stateUnder c mem k fb damp inp n
               let (m', k'', _) ← ((k'.setFeedback (fb n)).setDampening (damp n)).tick c m (inp n)
               return (m', k'')) = _
      rw [h1]
      show (do let (m', k'', _) ← ((k'.setFeedback (fb n)).setDampening (damp n)).tick c m (inp n)
               return (m', k'')) = _
      rw [u1]; rfl
  refine ⟨fun n => (S n).1.1, fun n => (S n).2, fun n => inp n + (S (n + 1)).2 * fb n, fun n => (S n).1.2, rfl, rfl,
    fun n => ?_, fun n => rfl, fun n => rfl, fun n => ?_⟩
  · rfl
  · obtain ⟨m, k', h1, h2, h3⟩ := hrun n
    obtain ⟨m', dl', t1, t2⟩ := Comb.tick_spec (k := (k'.setFeedback (fb n)).setDampening (damp n))
        (q := (S n).1.1) h3 (inp n)
    unfold Comb.outUnder
    rw [h1]
    show (do let (_, _, o) ← ((k'.setFeedback (fb n)).setDampening (damp n)).tick c m (inp n); return o) = _
    rw [t1]; rfl

/-! ## C99 -/

/-- C99, for any arithmetic: with feedback and dampening set anew before every tick, each tick uses the values in force at
that tick, and nothing else changes: the buffer contents and the filter state carry over. -/
theorem C99_modulated {k : Comb α} (h : Holds c mem k.delayLine q) (fb damp inp : ℕ → α) :
    ∃ w f : ℕ → α, (∀ n (hn : n < q.length), w n = q[n]) ∧ f 0 = k.filterState ∧
      (∀ n, f (n + 1) = w n * (lit 1 - damp n) + f n * damp n) ∧
      (∀ n, w (n + q.length) = inp n + f (n + 1) * fb n) ∧
      ∀ n, Comb.outUnder c mem k fb damp inp n = .ok (w n) := by
  obtain ⟨Q, f, v, hne, hQ0, hf0, hQ, hf, hv, hout⟩ := Comb.runUnder_spec h fb damp inp
  obtain ⟨w, hw1, hw2, hw3⟩ := queue_seq Q v (hne 0) hQ
  rw [hQ0] at hw2
  refine ⟨w, f, fun n hn => ?_, hf0, fun n => ?_, fun n => (hw2 n).trans (hv n), fun n => ?_⟩
  · subst hQ0; exact hw1 n hn
  · rw [hf n, queue_head (hne n) (hw3 n)]
  · rw [hout n, queue_head (hne n) (hw3 n)]

end generic

section exact
variable {K : Type} [Field K] [LinearOrder K] [IsStrictOrderedRing K]

/-- C99 in exact arithmetic: however the settings move inside `damp ∈ [0,1]`, `|fb| ≤ F < 1`, inputs up to `b` give outputs
up to `b / (1 - F)`, forever. -/
theorem C99_stable {c : Cfg} {mem : Mem K} {s : MemorySlice} {L : ℕ} (hL : 0 < L)
    (h : Views c mem s (List.replicate L 0)) {fb damp inp : ℕ → K} {b F : K} (hd0 : ∀ n, 0 ≤ damp n)
    (hd1 : ∀ n, damp n ≤ 1) (hfb : ∀ n, |fb n| ≤ F) (hF : F < 1) (hin : ∀ n, |inp n| ≤ b) (n : ℕ) :
    ∃ y, Comb.outUnder c mem (Comb.new s) fb damp inp n = .ok y ∧ |y| ≤ b / (1 - F) := by
  have hne : List.replicate L (0 : K) ≠ [] := by
    intro h0; have := congrArg List.length h0; simp at this; omega
  obtain ⟨w, f, hw0, hf0, hf, hw, hout⟩ := C99_modulated (k := Comb.new s) (holds_new h hne) fb damp inp
  simp only [Comb.new, List.length_replicate, lit_exact, Rat.cast_zero, Rat.cast_one] at hf0 hf hw hw0
  have hb0 : 0 ≤ b := (abs_nonneg _).trans (hin 0)
  have h1 : 0 < 1 - F := by linarith
  set B := b / (1 - F) with hB
  have hB0 : 0 ≤ B := div_nonneg hb0 h1.le
  have hBe : b + B * F = B := by rw [hB]; field_simp; ring
  have key : ∀ n, |f n| ≤ B ∧ ∀ m < n + L, |w m| ≤ B := by
    intro n
    induction n with
    | zero =>
      refine ⟨by rw [hf0, abs_zero]; exact hB0, fun m hm => ?_⟩
      rw [hw0 m (by omega), List.getElem_replicate, abs_zero]; exact hB0
    | succ n ih =>
      obtain ⟨f1, hwm⟩ := ih
      have w1 := hwm n (by omega)
      have hd1' : 0 ≤ 1 - damp n := by linarith [hd1 n]
      have hf' : |f (n + 1)| ≤ B := by
        rw [hf n]
        refine (abs_add_le _ _).trans ?_
        rw [abs_mul, abs_mul, abs_of_nonneg (hd0 n), abs_of_nonneg hd1']
        nlinarith [mul_le_mul_of_nonneg_right w1 hd1', mul_le_mul_of_nonneg_right f1 (hd0 n)]
      refine ⟨hf', fun m hm => ?_⟩
      by_cases hlt : m < n + L
      · exact hwm m hlt
      · have : m = n + L := by omega
        subst this
        rw [hw n]
        refine (abs_add_le _ _).trans ?_
        rw [abs_mul]
        have := mul_le_mul hf' (hfb n) (abs_nonneg _) hB0
        linarith [hin n]
  exact ⟨w n, hout n, (key n).2 n (by omega)⟩
end exact

-- feedback and dampening moving at every tick, two silent cells
example : Views Cfg.release32 quietMem quietSlice (List.replicate 2 (lit 0)) ∧
    Comb.outUnder Cfg.release32 quietMem (Comb.new quietSlice) (fun n => if n = 2 then lit (1/4) else lit (1/2))
      (fun n => if n = 2 then lit 0 else lit (1/2)) (fun n => if n = 0 then lit 1 else lit 0) 4 = .ok (lit (1/4)) :=
  ⟨quiet_views, by decide +kernel⟩

/-! ## C100 -/

section swap
variable {α : Type} {c : Cfg} {mem : Mem α} {ys : List α}

/-- After `change_buffer` the delay line holds the new buffer, seen from the old cursor. -/
theorem holds_change {d : DelayLine} {s : MemorySlice} (h : Views c mem s ys) (hi : d.index < ys.length) :
    Holds c mem (d.changeBuffer s) (ys.drop d.index ++ ys.take d.index) := ⟨ys, h, hi, rfl⟩

theorem rotated_get {i n : ℕ} (hi : i < ys.length) (hn : n < ys.length) :
    (ys.drop i ++ ys.take i)[n]? = ys[(i + n) % ys.length]? := by
  by_cases h : i + n < ys.length
  · rw [List.getElem?_append_left (by simp; omega), List.getElem?_drop, Nat.mod_eq_of_lt h]
  · rw [List.getElem?_append_right (by simp; omega), List.length_drop, List.getElem?_take_of_lt (by omega),
      Nat.mod_eq_sub_mod (by omega), Nat.mod_eq_of_lt (by omega)]
    congr 1; omega

/-- C100: a delay line given a new live buffer that contains the cursor replays the new buffer from the cursor on, turning
round at its end, then the samples written since, one (new) buffer length late. -/
theorem C100_delay {d : DelayLine} {s : MemorySlice} (h : Views c mem s ys) (hi : d.index < ys.length) (ins : List α) :
    ∃ mem' d', delayRun c mem (d.changeBuffer s) ins =
      .ok (mem', d', (ys.drop d.index ++ ys.take d.index ++ ins).take ins.length) := by
  obtain ⟨mem', d', h1, -⟩ := delayRun_spec ins (holds_change h hi)
  exact ⟨mem', d', h1⟩

variable [Add α] [Sub α] [Mul α] [Neg α] [Lit α]

omit [Sub α] [Neg α] in
/-- C100: so does a comb; its feedback, dampening and filter state carry over. -/
theorem C100_comb {k : Comb α} {s : MemorySlice} (h : Views c mem s ys) (hi : k.delayLine.index < ys.length) (inp : ℕ → α) :
    ∃ w f : ℕ → α, (∀ n, n < ys.length → some (w n) = ys[(k.delayLine.index + n) % ys.length]?) ∧ f 0 = k.filterState ∧
      (∀ n, f (n + 1) = w n * k.dampeningInverse + f n * k.dampening) ∧
      (∀ n, w (n + ys.length) = inp n + f (n + 1) * k.feedback) ∧
      ∀ n, Comb.outAt c mem (k.changeBuffer s) inp n = .ok (w n) := by
  obtain ⟨w, f, h1, h2, h3, h4, h5⟩ := C20_comb (k := k.changeBuffer s) (holds_change h hi) inp
  have hl : (ys.drop k.delayLine.index ++ ys.take k.delayLine.index).length = ys.length := by simp; omega
  rw [hl] at h4
  refine ⟨w, f, fun n hn => ?_, h2, h3, h4, h5⟩
  rw [h1 n (by rw [hl]; exact hn), ← List.getElem?_eq_getElem, rotated_get hi hn]

omit [Sub α] in
/-- C100: and so does an all-pass. -/
theorem C100_all_pass {k : AllPass} {s : MemorySlice} (h : Views c mem s ys) (hi : k.delayLine.index < ys.length)
    (inp : ℕ → α) :
    ∃ w : ℕ → α, (∀ n, n < ys.length → some (w n) = ys[(k.delayLine.index + n) % ys.length]?) ∧
      (∀ n, w (n + ys.length) = inp n + w n * lit (1/2)) ∧
      ∀ n, AllPass.outAt c mem (k.changeBuffer s) inp n = .ok (-inp n + w n) := by
  obtain ⟨w, h1, h2, h3⟩ := C24_all_pass (k := k.changeBuffer s) (holds_change h hi) inp
  have hl : (ys.drop k.delayLine.index ++ ys.take k.delayLine.index).length = ys.length := by simp; omega
  rw [hl] at h2
  refine ⟨w, fun n hn => ?_, h2, h3⟩
  rw [h1 n (by rw [hl]; exact hn), ← List.getElem?_eq_getElem, rotated_get hi hn]

end swap

-- a comb in mid flight (cursor 1) put on the two-cell buffer
example : Views Cfg.release32 quietMem quietSlice (List.replicate 2 (lit 0)) ∧
    ((Comb.new (α := F32) quietSlice).delayLine.index < (List.replicate 2 (lit 0 : F32)).length) ∧
    Comb.outAt Cfg.release32 quietMem
      (Comb.changeBuffer ⟨⟨MemorySlice.fromSlice 0 0 4, 1⟩, lit (1/2), lit 1, lit (1/2), lit (1/2)⟩ quietSlice)
      (fun _ => lit 0) 2 = .ok (lit (1/4)) :=
  ⟨quiet_views, by decide, by decide +kernel⟩

end Verif
