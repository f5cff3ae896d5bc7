import Verif.Props.Modulation

/-! # C101, C102: one NaN sample in a comb and in an all-pass -/

namespace Verif
open F32

variable {c : Cfg} {mem : Mem F32} {q : List F32}

theorem nan_add_left {x : F32} (h : x.isNaN = true) (y : F32) : (x + y).isNaN = true := by rw [add_nan_left h]; exact isNaN_nan
theorem nan_add_right {y : F32} (h : y.isNaN = true) (x : F32) : (x + y).isNaN = true := by
  rw [add_nan_right h]; exact isNaN_nan
theorem nan_mul_left {x : F32} (h : x.isNaN = true) (y : F32) : (x * y).isNaN = true := by rw [mul_nan_left h]; exact isNaN_nan

/-! ## C101 -/

/-- C101 in full: some time after a NaN input the comb is back in order. -/
def C101_Full : Prop := ∀ (c : Cfg) (mem : Mem F32) (q : List F32) (k : Comb F32) (inp : ℕ → F32) (m : ℕ),
  Holds c mem k.delayLine q → (∀ x ∈ q, x.isNaN = false) → (∀ n, n ≠ m → (inp n).isNaN = false) →
  ∃ N, ∀ n, N ≤ n → ∃ y, Comb.outAt c mem k inp n = .ok y ∧ y.isNaN = false

/-- C101, what the code does: after a NaN input at tick `m`, whatever the settings and the later inputs, the output is NaN
at tick `m + L`, and at every tick from `m + 2L` on. -/
theorem C101_actual {k : Comb F32} (h : Holds c mem k.delayLine q) {inp : ℕ → F32} {m : ℕ} (hm : (inp m).isNaN = true) :
    (∃ y, Comb.outAt c mem k inp (m + q.length) = .ok y ∧ y.isNaN = true) ∧
    ∀ n, m + 2 * q.length ≤ n → ∃ y, Comb.outAt c mem k inp n = .ok y ∧ y.isNaN = true := by
  obtain ⟨w, f, -, -, hf, hw, hout⟩ := C20_comb h inp
  have hL : 0 < q.length := List.length_pos_iff.2 h.ne_nil
  have hw1 : (w (m + q.length)).isNaN = true := by rw [hw]; exact nan_add_left hm _
  have hfs : ∀ j, (f (m + q.length + 1 + j)).isNaN = true := by
    intro j
    induction j with
    | zero => rw [Nat.add_zero, hf]; exact nan_add_left (nan_mul_left hw1 _) _
    | succ j ih => rw [← Nat.add_assoc, hf]; exact nan_add_right (nan_mul_left ih _) _
  refine ⟨⟨_, hout _, hw1⟩, fun n hn => ⟨_, hout n, ?_⟩⟩
  obtain ⟨j, rfl⟩ : ∃ j, n = m + q.length + j + q.length := ⟨n - m - 2 * q.length, by omega⟩
  rw [hw, show m + q.length + j + 1 = m + q.length + 1 + j by ring]
  exact nan_add_right (nan_mul_left (hfs j) _) _

/-- C101, what holds: until tick `m + L` a NaN input at tick `m` has no influence at all. Missing: recovery, which does not
happen (`C101_actual`). -/
theorem C101_partial {k : Comb F32} (h : Holds c mem k.delayLine q) {inp inp' : ℕ → F32} {m : ℕ}
    (hm : ∀ n, n < m → inp n = inp' n) {n : ℕ} (hn : n < m + q.length) :
    Comb.outAt c mem k inp n = Comb.outAt c mem k inp' n := by
  obtain ⟨w, f, hw0, hf0, hf, hw, hout⟩ := C20_comb h inp
  obtain ⟨w', f', hw0', hf0', hf', hw', hout'⟩ := C20_comb h inp'
  have key : ∀ j, (j ≤ m → f j = f' j) ∧ (j ≤ m → ∀ i < j + q.length, w i = w' i) := by
    intro j
    induction j with
    | zero =>
      refine ⟨fun _ => by rw [hf0, hf0'], fun _ i hi => ?_⟩
      rw [hw0 i (by omega), hw0' i (by omega)]
    | succ j ih =>
      have hL : 0 < q.length := List.length_pos_iff.2 h.ne_nil
      have hfj : j + 1 ≤ m → f (j + 1) = f' (j + 1) := fun hj => by
        rw [hf, hf', ih.1 (by omega), ih.2 (by omega) j (by omega)]
      refine ⟨hfj, fun hj i hi => ?_⟩
      by_cases hlt : i < j + q.length
      · exact ih.2 (by omega) i hlt
      · obtain rfl : i = j + q.length := by omega
        rw [hw, hw', hm j (by omega), hfj hj]
  rw [hout, hout', (key m).2 le_rfl n hn]

theorem C101_refuted : ¬ C101_Full := by
  intro hall
  have hq : Holds Cfg.release32 quietMem (Comb.new (α := F32) quietSlice).delayLine (List.replicate 2 (lit 0)) :=
    holds_new quiet_views (by simp)
  obtain ⟨N, hN⟩ := hall Cfg.release32 quietMem _ (Comb.new quietSlice) (fun n => if n = 0 then nan else lit 0) 0 hq
    (by intro x hx; rw [List.eq_of_mem_replicate hx]; exact lit_not_nan _)
    (by intro n hn; simp only [if_neg hn]; exact lit_not_nan _)
  obtain ⟨y, h1, h2⟩ := hN (N + 4) (by omega)
  obtain ⟨y', h3, h4⟩ := (C101_actual (inp := fun n => if n = 0 then nan else lit 0) (m := 0) hq isNaN_nan).2 (N + 4)
    (by simp)
  rw [h1] at h3; cases h3
  rw [h2] at h4; cases h4

/-! ## C102 -/

/-- C102: in an all-pass a NaN input at tick `m` spoils the output of that tick and then of every tick a multiple of the
buffer length later, forever, -/
theorem C102_stays {k : AllPass} (h : Holds c mem k.delayLine q) {inp : ℕ → F32} {m : ℕ} (hm : (inp m).isNaN = true)
    (j : ℕ) : ∃ y, AllPass.outAt c mem k inp (m + j * q.length) = .ok y ∧ y.isNaN = true := by
  obtain ⟨w, -, hw, hout⟩ := C24_all_pass h inp
  refine ⟨_, hout _, ?_⟩
  cases j with
  | zero => rw [Nat.zero_mul, Nat.add_zero]; exact nan_add_left (by simpa using hm) _
  | succ j =>
    refine nan_add_right ?_ _
    induction j with
    | zero => rw [Nat.zero_add, Nat.one_mul, hw]; exact nan_add_left hm _
    | succ j ih =>
      rw [show m + (j + 1 + 1) * q.length = m + (j + 1) * q.length + q.length by ring, hw]
      exact nan_add_right (nan_mul_left ih _) _

/-- C102: ... and no other: the outputs of all other ticks are those of any input that differs at tick `m` only. -/
theorem C102_confined {k : AllPass} (h : Holds c mem k.delayLine q) {inp inp' : ℕ → F32} {m : ℕ}
    (hi : ∀ n, n ≠ m → inp n = inp' n) {n : ℕ} (hn : ∀ j, n ≠ m + j * q.length) :
    AllPass.outAt c mem k inp n = AllPass.outAt c mem k inp' n := by
  obtain ⟨w, hw0, hw, hout⟩ := C24_all_pass h inp
  obtain ⟨w', hw0', hw', hout'⟩ := C24_all_pass h inp'
  have hL : 0 < q.length := List.length_pos_iff.2 h.ne_nil
  have key : ∀ n, (∀ j, n ≠ m + (j + 1) * q.length) → w n = w' n := by
    refine stride_induction (P := fun n => (∀ j, n ≠ m + (j + 1) * q.length) → w n = w' n) hL ?_ ?_
    · intro n hn _; rw [hw0 n hn, hw0' n hn]
    · intro n ih hn
      have hnm : n ≠ m := fun h => hn 0 (by rw [h]; ring)
      rw [hw, hw', hi n hnm, ih (fun j hj => hn (j + 1) (by rw [hj]; ring))]
  rw [hout, hout', hi n (by simpa using hn 0), key n (fun j => hn (j + 1))]

-- a NaN at tick 0, two silent cells: spoilt at 0, 2, 4, ..., clean at 1, 3, ...
example : Holds Cfg.release32 quietMem (AllPass.new quietSlice).delayLine (List.replicate 2 (lit 0)) ∧
    Holds Cfg.release32 quietMem (Comb.new (α := F32) quietSlice).delayLine (List.replicate 2 (lit 0)) ∧
    AllPass.outAt Cfg.release32 quietMem (AllPass.new quietSlice) (fun n => if n = 0 then nan else lit 1) 4 = .ok nan ∧
    AllPass.outAt Cfg.release32 quietMem (AllPass.new quietSlice) (fun n => if n = 0 then nan else lit 1) 3 = .ok (lit 0) ∧
    Comb.outAt Cfg.release32 quietMem (Comb.new quietSlice) (fun n => if n = 0 then nan else lit 1) 3 = .ok (lit 1) ∧
    Comb.outAt Cfg.release32 quietMem (Comb.new quietSlice) (fun n => if n = 0 then nan else lit 1) 5 = .ok nan :=
  ⟨holds_new quiet_views (by simp), holds_new quiet_views (by simp), by decide +kernel, by decide +kernel,
    by decide +kernel, by decide +kernel⟩

end Verif
