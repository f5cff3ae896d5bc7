import Verif.Model.Level
import Verif.F32.Extra
import Verif.Props.Oscillators
import Mathlib.Analysis.SpecialFunctions.Log.Base
import Mathlib.Analysis.SpecialFunctions.Pow.Real

/-! # C74 – C81: panning, clipping, decibels -/

namespace Verif
open F32 Stereo Clipping Decibels

/-! ## C74 -/

theorem checkPan_cases (a : F32) :
    (checkPanError a = .error .tooLeft ↔ a.isNaN = false ∧ a.val < -1) ∧
    (checkPanError a = .error .tooRight ↔ a.isNaN = false ∧ 1 < a.val) ∧
    ((a.isNaN = true ∨ -1 ≤ a.val ∧ a.val ≤ 1) → checkPanError a = .ok a) := by
  unfold checkPanError
  have e1 := lt_iff (x := a) (y := lit (-1))
  have e2 := lt_iff (x := lit 1) (y := a)
  rw [litm1_val] at e1; rw [lit1_val] at e2
  have n1 : (lit (-1) : F32).isNaN = false := by decide +kernel
  have n2 : (lit 1 : F32).isNaN = false := by decide +kernel
  cases hn : a.isNaN with
  | true =>
    have h1 : lt a (lit (-1)) = false := by rw [Bool.eq_false_iff]; intro h; simp [e1, hn] at h
    have h2 : lt (lit 1) a = false := by rw [Bool.eq_false_iff]; intro h; simp [e2, hn] at h
    simp [h1, h2]
  | false =>
    simp only [hn, n1, n2, true_and] at e1 e2
    by_cases h1 : a.val < -1
    · have := e1.2 h1
      have h2 : ¬ 1 < a.val := by linarith
      have h3 : ¬ -1 ≤ a.val := by linarith
      simp [this, h1, h2, h3]
    · have h1' : lt a (lit (-1)) = false := by rw [Bool.eq_false_iff]; intro h; exact h1 (e1.1 h)
      by_cases h2 : 1 < a.val
      · have := e2.2 h2
        have h3 : ¬ a.val ≤ 1 := by linarith
        simp [h1', this, h1, h2, h3]
      · have h2' : lt (lit 1) a = false := by rw [Bool.eq_false_iff]; intro h; exact h2 (e2.1 h)
        simp [h1', h2', h1, h2]

/-- C74: the panning errors, and otherwise the unchecked result. NaN passes the check. -/
theorem C74_pan (sqrt : F32 → F32) (a x : F32) (xy : F32 × F32) :
    (monoPan a x = .error .tooLeft ↔ a.isNaN = false ∧ a.val < -1) ∧
    (monoPan a x = .error .tooRight ↔ a.isNaN = false ∧ 1 < a.val) ∧
    ((a.isNaN = true ∨ -1 ≤ a.val ∧ a.val ≤ 1) → monoPan a x = .ok (monoPanUnchecked a x)) ∧
    (stereoPan sqrt a xy = .error .tooLeft ↔ a.isNaN = false ∧ a.val < -1) ∧
    (stereoPan sqrt a xy = .error .tooRight ↔ a.isNaN = false ∧ 1 < a.val) ∧
    ((a.isNaN = true ∨ -1 ≤ a.val ∧ a.val ≤ 1) → stereoPan sqrt a xy = .ok (stereoPanUnchecked sqrt a xy)) := by
  obtain ⟨h1, h2, h3⟩ := checkPan_cases a
  unfold monoPan stereoPan
  rw [← h1, ← h2]
  refine ⟨?_, ?_, fun h => ?_, ?_, ?_, fun h => ?_⟩
  · cases checkPanError a <;> simp [bind, Except.bind, pure, Except.pure]
  · cases checkPanError a <;> simp [bind, Except.bind, pure, Except.pure]
  · rw [h3 h]; rfl
  · cases checkPanError a <;> simp [bind, Except.bind, pure, Except.pure]
  · cases checkPanError a <;> simp [bind, Except.bind, pure, Except.pure]
  · rw [h3 h]; rfl

example : monoPan (lit (-5)) (lit 1) = .error .tooLeft ∧ monoPan (lit 5) (lit 1) = .error .tooRight ∧
    monoPan (lit (1 / 2)) (lit 1) = .ok (lit (1 / 4), lit (3 / 4)) := by decide +kernel

/-! ## C75 -/

theorem rep_of_pos_pow {k : Nat} (hk : k ≤ 149) : Rep (1 / 2 ^ k : ℚ) := by
  refine rep_of_zpow (m := 1) (e := -(k : Int)) (by norm_num) (by omega) (by simp) ?_
  rw [abs_of_pos (by positivity)]
  exact lt_of_le_of_lt (div_le_self (by norm_num) (one_le_pow₀ (by norm_num))) (by norm_num)

/-- Halving is exact away from the bottom of the range. -/
theorem mul_half_val {x : F32} (hx : x.isFin = true) (h : x.val = 0 ∨ 1 / 2 ^ 100 ≤ |x.val|) :
    (x * lit (1 / 2)).isFin = true ∧ (x * lit (1 / 2)).val = x.val / 2 := by
  have hr : Rep (x.val * (lit (1 / 2) : F32).val) := by
    rw [lithalf_val]
    rcases h with h | h
    · rw [h, zero_mul]; exact rep_zero
    · obtain ⟨m, k, hm, hk, he⟩ := fin_decomp hx
      have hk1 : 1 ≤ k := by
        by_contra hc
        have hk0 : k = 0 := by omega
        subst hk0
        have hm' : |(m : ℚ)| < 2 ^ 24 := by exact_mod_cast hm
        have h1 : |x.val| * unit < 2 ^ 24 := by
          have : |x.val * unit| < 2 ^ 24 := by rw [he]; simpa using hm'
          rwa [abs_mul, abs_of_pos (a := unit) (by unfold unit; positivity)] at this
        have h2 : 1 / 2 ^ 100 * unit ≤ |x.val| * unit := mul_le_mul_of_nonneg_right h (by unfold unit; positivity)
        have h3 : (2:ℚ) ^ 24 < 1 / 2 ^ 100 * unit := by unfold unit; norm_num
        linarith
      refine rep_of_int_pow (m := m) (k := k - 1) hm.le ?_ ?_
      · have : (m : ℚ) * 2 ^ k = m * 2 ^ (k - 1) * 2 := by
          rw [mul_assoc, ← pow_succ, Nat.sub_add_cancel hk1]
        linarith
      · have := fin_le_max hx
        rw [abs_mul, abs_of_pos (a := (1:ℚ) / 2) (by norm_num)]
        have h3 : ((2:ℚ) ^ 24 - 1) * 2 ^ 104 < 2 ^ 128 := by norm_num
        nlinarith [abs_nonneg x.val]
  have := mul_exact hx lithalf_fin hr
  rw [lithalf_val] at this
  exact ⟨this.1, by rw [this.2]; ring⟩

theorem pan_gap {a : F32} (h0 : -1 ≤ a.val) (h1 : a.val ≤ 1) :
    (1 - a.val = 0 ∨ 1 / 2 ^ 24 ≤ 1 - a.val) ∧ (1 + a.val = 0 ∨ 1 / 2 ^ 24 ≤ 1 + a.val) := by
  constructor
  · rcases lt_or_ge a.val 0 with h | h
    · right; linarith [show (1:ℚ) / 2 ^ 24 ≤ 1 by norm_num]
    · rcases h1.eq_or_lt with h' | h'
      · left; linarith
      · right; linarith [below_one h h']
  · rcases lt_or_ge 0 a.val with h | h
    · right; linarith [show (1:ℚ) / 2 ^ 24 ≤ 1 by norm_num]
    · rcases h0.eq_or_lt with h' | h'
      · left; linarith
      · right
        have := below_one (z := -a) (by rw [val_neg']; linarith) (by rw [val_neg']; linarith)
        rw [val_neg'] at this; linarith

/-- The two gains, as halves of rounded sums. -/
theorem pan_val {a : F32} (h0 : -1 ≤ a.val) (h1 : a.val ≤ 1) :
    (equalAmplitudePan a).1.isFin = true ∧ (equalAmplitudePan a).2.isFin = true ∧
    (equalAmplitudePan a).1.val = (rnd false (1 - a.val)).val / 2 ∧
    (equalAmplitudePan a).2.val = (rnd false (1 + a.val)).val / 2 := by
  have hf : a.isFin = true := fin_of_val (by
    rw [abs_lt]; constructor <;> linarith [show (1:ℚ) < 2 ^ 128 by norm_num])
  have main : ∀ (s : Bool) (q : ℚ), (q = 0 ∨ 1 / 2 ^ 24 ≤ q) → q ≤ 2 →
      (rnd s q * lit (1 / 2)).isFin = true ∧ (rnd s q * lit (1 / 2)).val = (rnd false q).val / 2 := by
    intro s q hq h2
    have hb := rnd_pow_bound (s := s) (k := 1) (q := q) (by norm_num)
      (by rw [abs_le]; constructor <;> rcases hq with h | h <;> linarith [show (0:ℚ) < 1 / 2 ^ 24 by norm_num])
    have := mul_half_val hb.1 (by
      rcases hq with rfl | h
      · left; exact rnd_val_zero _
      · right
        refine le_trans ?_ (le_abs_self _)
        exact le_trans (by norm_num) (rep_le_rnd (rep_of_pos_pow (k := 24) (by norm_num)) h))
    exact ⟨this.1, by rw [this.2, le_antisymm (rnd_mono (s := s) (t := false) (le_refl q)) (rnd_mono le_rfl)]⟩
  obtain ⟨hA, hB⟩ := pan_gap h0 h1
  have e1 : (equalAmplitudePan a).1 = rnd ((lit 1 : F32).neg && !a.neg) (1 - a.val) * lit (1 / 2) := by
    show (lit 1 - a) * lit (1 / 2) = _
    rw [sub_fin lit1_fin hf, lit1_val]
  have e2 : (equalAmplitudePan a).2 = rnd ((lit 1 : F32).neg && a.neg) (1 + a.val) * lit (1 / 2) := by
    show (lit 1 + a) * lit (1 / 2) = _
    rw [add_fin lit1_fin hf, lit1_val]
  rw [e1, e2]
  obtain ⟨m1, m2⟩ := main ((lit 1 : F32).neg && !a.neg) (1 - a.val) hA (by linarith)
  obtain ⟨m3, m4⟩ := main ((lit 1 : F32).neg && a.neg) (1 + a.val) hB (by linarith)
  exact ⟨m1, m3, m2, m4⟩

/-- C75: both gains are numbers in [0,1] and their sum is within `2^-24` of 1. The gains are what `mono_pan` multiplies the
sample by. -/
theorem C75_gains {a : F32} (h0 : -1 ≤ a.val) (h1 : a.val ≤ 1) :
    0 ≤ (equalAmplitudePan a).1.val ∧ (equalAmplitudePan a).1.val ≤ 1 ∧
    0 ≤ (equalAmplitudePan a).2.val ∧ (equalAmplitudePan a).2.val ≤ 1 ∧
    |(equalAmplitudePan a).1.val + (equalAmplitudePan a).2.val - 1| ≤ 1 / 2 ^ 24 ∧
    ∀ x, monoPanUnchecked a x = (x * (equalAmplitudePan a).1, x * (equalAmplitudePan a).2) := by
  obtain ⟨-, -, v1, v2⟩ := pan_val h0 h1
  rw [v1, v2]
  have b1 := rnd_val_nonneg (s := false) (q := 1 - a.val) (by linarith)
  have b2 := rnd_val_nonneg (s := false) (q := 1 + a.val) (by linarith)
  have b3 := rnd_le_rep (s := false) rep_two (q := 1 - a.val) (by linarith)
  have b4 := rnd_le_rep (s := false) rep_two (q := 1 + a.val) (by linarith)
  have err : ∀ q : ℚ, (q = 0 ∨ 1 / 2 ^ 24 ≤ q) → q ≤ 2 → |(rnd false q).val - q| ≤ q / 2 ^ 24 := by
    intro q hq hq2
    rcases hq with rfl | hq
    · rw [rnd_val_zero]; norm_num
    · have hq0 : 0 ≤ q := le_trans (by norm_num) hq
      have := rnd_rel_error (s := false) (q := q) (rnd_fin_of_lt (by
        rw [abs_of_nonneg hq0]; exact lt_of_le_of_lt hq2 (by norm_num)))
        (by rw [abs_of_nonneg hq0]; exact le_trans (by norm_num) hq)
      rwa [abs_of_nonneg hq0] at this
  refine ⟨by linarith, by linarith, by linarith, by linarith, ?_, fun x => rfl⟩
  have e1 := abs_le.1 (err _ (pan_gap h0 h1).1 (by linarith))
  have e2 := abs_le.1 (err _ (pan_gap h0 h1).2 (by linarith))
  rw [abs_le]
  constructor <;> linarith [e1.1, e1.2, e2.1, e2.2]

/-- C75: turning right never raises the left gain and never lowers the right one. -/
theorem C75_monotone {a b : F32} (h0 : -1 ≤ a.val) (h : a.val ≤ b.val) (h1 : b.val ≤ 1) :
    (equalAmplitudePan b).1.val ≤ (equalAmplitudePan a).1.val ∧ (equalAmplitudePan a).2.val ≤ (equalAmplitudePan b).2.val := by
  obtain ⟨-, -, v1, v2⟩ := pan_val h0 (h.trans h1)
  obtain ⟨-, -, w1, w2⟩ := pan_val (h0.trans h) h1
  rw [v1, v2, w1, w2]
  have := rnd_mono (s := false) (t := false) (show 1 - b.val ≤ 1 - a.val by linarith)
  have := rnd_mono (s := false) (t := false) (show 1 + a.val ≤ 1 + b.val by linarith)
  constructor <;> linarith

/-- C75: in exact arithmetic the gains sum to 1 and lie in [0,1]. -/
theorem C75_exact {α : Type} [Field α] [LinearOrder α] [IsStrictOrderedRing α] {a : α} (h0 : -1 ≤ a) (h1 : a ≤ 1) :
    (equalAmplitudePan a).1 + (equalAmplitudePan a).2 = 1 ∧ 0 ≤ (equalAmplitudePan a).1 ∧ 0 ≤ (equalAmplitudePan a).2 := by
  have h2 : (2:α) ≠ 0 := by norm_num
  simp only [equalAmplitudePan, Lit.lit]
  push_cast
  refine ⟨by field_simp; ring, ?_, ?_⟩
  · exact mul_nonneg (by linarith) (by norm_num)
  · exact mul_nonneg (by linarith) (by norm_num)

/-- a third of the way to the right: the float gains do not quite sum to 1 in general, but within the bound -/
example : -1 ≤ (lit (1 / 3) : F32).val ∧ (lit (1 / 3) : F32).val ≤ 1 ∧
    (equalAmplitudePan (lit (1 / 3) : F32)).1.val < (equalAmplitudePan (lit (1 / 3) : F32)).2.val := by decide +kernel

/-! ## C76 -/

theorem sub_neg_bits (x y : F32) : x - (-y) = x + y := by
  show F32.sub x (negate y) = F32.add x y
  unfold F32.sub
  rw [negate_negate]
  by_cases h : x.isNaN = true ∨ y.isNaN = true
  · have h' : (x.isNaN || (negate y).isNaN) = true := by simpa using h
    rw [if_pos h']
    rcases h with h | h
    · exact (add_nan_left h _).symm
    · exact (add_nan_right h _).symm
  · have h' : ¬ (x.isNaN || (negate y).isNaN) = true := by simpa using h
    rw [if_neg h']

theorem add_neg_bits (x y : F32) : x + (-y) = x - y := by
  have := sub_neg_bits x (-y)
  rw [neg_neg_eq] at this
  exact this.symm

/-- C76: opposite amounts give swapped gains, bit for bit, whatever `sqrt` is. -/
theorem C76_swap (sqrt : F32 → F32) (a x : F32) (xy : F32 × F32) :
    equalAmplitudePan (-a) = (equalAmplitudePan a).swap ∧ equalPowerPan sqrt (-a) = (equalPowerPan sqrt a).swap ∧
    monoPanUnchecked (-a) x = (monoPanUnchecked a x).swap ∧
    stereoPanUnchecked sqrt (-a) xy = (stereoPanUnchecked sqrt a xy.swap).swap := by
  have h : equalAmplitudePan (-a) = (equalAmplitudePan a).swap := by
    unfold equalAmplitudePan; rw [sub_neg_bits, add_neg_bits]; rfl
  have h2 : equalPowerPan sqrt (-a) = (equalPowerPan sqrt a).swap := by
    unfold equalPowerPan; rw [h]; rfl
  refine ⟨h, h2, ?_, ?_⟩
  · unfold monoPanUnchecked; rw [h]; rfl
  · unfold stereoPanUnchecked; rw [h2]; rfl

/-- C76 at the extremes, in full: the far side is silent and the near side is the unchanged sample, for every sample that is
a number. -/
def C76_Extremes_Full : Prop := ∀ x : F32, x.isNaN = false →
  (monoPanUnchecked (lit (-1)) x).1 = x ∧ (monoPanUnchecked (lit (-1)) x).2.val = 0 ∧
  (monoPanUnchecked (lit (-1)) x).2.isNaN = false

theorem pan_left : equalAmplitudePan (lit (-1) : F32) = (lit 1, lit 0) := by decide +kernel
theorem pan_right : equalAmplitudePan (lit 1 : F32) = (lit 0, lit 1) := by decide +kernel

/-- C76 at the extremes fails for an infinite sample: the silent side is `inf * 0`, NaN. -/
theorem C76_extremes_refuted : ¬ C76_Extremes_Full := by
  intro h
  have := (h (pack false infMag) (by decide +kernel)).2.2
  revert this; decide +kernel

theorem mul_one_bits {x : F32} (hf : x.isFin = true) : x * lit 1 = x := by
  have h := isFin.not_nan hf
  rw [mul_fin hf lit1_fin, lit1_val, mul_one]
  have hs : (x.neg != (lit 1 : F32).neg) = x.neg := by
    rw [show (lit 1 : F32).neg = false by decide +kernel]; simp
  rw [hs]
  by_cases h0 : x.val = 0
  · rw [h0, rnd_zero]
    refine ext_neg_mag (by rw [neg_pack]) ?_
    rw [mag_pack_of_lt (by norm_num), val_eq_zero.1 h0]
  · exact eq_of_val_eq (rnd_val_self h) (by rw [rnd_val_self h]; exact h0)

/-- C76 at the extremes, for every finite sample: the unchanged sample (same bits) on one side, a zero on the other. Missing:
infinite samples. For stereo, `sqrt` must map 0 to a zero and 1 to 1. -/
theorem C76_extremes_partial {sqrt : F32 → F32} (hs0 : (sqrt (lit 0)).isFin = true ∧ (sqrt (lit 0)).val = 0)
    (hs1 : sqrt (lit 1) = lit 1) {x y : F32} (hx : x.isFin = true) (hy : y.isFin = true) :
    (monoPanUnchecked (lit (-1)) x).1 = x ∧ (monoPanUnchecked (lit (-1)) x).2.isFin = true ∧
    (monoPanUnchecked (lit (-1)) x).2.val = 0 ∧
    (monoPanUnchecked (lit 1) x).2 = x ∧ (monoPanUnchecked (lit 1) x).1.isFin = true ∧ (monoPanUnchecked (lit 1) x).1.val = 0 ∧
    (stereoPanUnchecked sqrt (lit (-1)) (x, y)).1 = x ∧ (stereoPanUnchecked sqrt (lit (-1)) (x, y)).2.isFin = true ∧
    (stereoPanUnchecked sqrt (lit (-1)) (x, y)).2.val = 0 ∧
    (stereoPanUnchecked sqrt (lit 1) (x, y)).2 = y ∧ (stereoPanUnchecked sqrt (lit 1) (x, y)).1.isFin = true ∧
    (stereoPanUnchecked sqrt (lit 1) (x, y)).1.val = 0 := by
  have z : ∀ {x w : F32}, x.isFin = true → w.isFin = true → w.val = 0 → (x * w).isFin = true ∧ (x * w).val = 0 := by
    intro x w hx hw hv
    have := mul_exact hx hw (by rw [hv, mul_zero]; exact rep_zero)
    rw [hv, mul_zero] at this; exact this
  unfold monoPanUnchecked stereoPanUnchecked equalPowerPan
  simp only [pan_left, pan_right, hs1, mul_one_bits hx, mul_one_bits hy, true_and]
  exact ⟨(z hx lit0_fin lit0_val).1, (z hx lit0_fin lit0_val).2, (z hx lit0_fin lit0_val).1, (z hx lit0_fin lit0_val).2,
    (z hy hs0.1 hs0.2).1, (z hy hs0.1 hs0.2).2, (z hx hs0.1 hs0.2).1, (z hx hs0.1 hs0.2).2⟩

example : monoPanUnchecked (lit (-1) : F32) (lit 3) = (lit 3, lit 0) ∧
    equalAmplitudePan (-(lit (1 / 3)) : F32) = (equalAmplitudePan (lit (1 / 3) : F32)).swap ∧
    (∃ sqrt : F32 → F32, ((sqrt (lit 0)).isFin = true ∧ (sqrt (lit 0)).val = 0) ∧ sqrt (lit 1) = lit 1) :=
  ⟨by decide +kernel, by decide +kernel, id, ⟨by decide +kernel, by decide +kernel⟩, rfl⟩

/-! ## C77 -/

/-- C77: with the real square root the stereo gains are power preserving. -/
theorem C77_power {a : ℝ} (h0 : -1 ≤ a) (h1 : a ≤ 1) :
    (equalPowerPan Real.sqrt a).1 ^ 2 + (equalPowerPan Real.sqrt a).2 ^ 2 = 1 := by
  obtain ⟨hs, hl, hr⟩ := C75_exact h0 h1
  unfold equalPowerPan
  simp only
  rw [Real.sq_sqrt hl, Real.sq_sqrt hr, hs]

/-- C77, as energy: a signal on both inputs leaves with the energy it came with, and with two different inputs each
output is its own input alone, the squared shares adding up to 1. -/
theorem C77_energy {a : ℝ} (h0 : -1 ≤ a) (h1 : a ≤ 1) (x y : ℝ) :
    (stereoPanUnchecked Real.sqrt a (x, x)).1 ^ 2 + (stereoPanUnchecked Real.sqrt a (x, x)).2 ^ 2 = x ^ 2 ∧
    ((stereoPanUnchecked Real.sqrt a (x, y)).1 * y) ^ 2 + ((stereoPanUnchecked Real.sqrt a (x, y)).2 * x) ^ 2 = (x * y) ^ 2 := by
  have h := C77_power h0 h1
  unfold stereoPanUnchecked
  simp only
  exact ⟨by linear_combination x ^ 2 * h, by linear_combination (x * y) ^ 2 * h⟩

example : (-1:ℝ) ≤ 1 / 2 ∧ (equalPowerPan Real.sqrt (1:ℝ)).1 = 0 := by
  constructor
  · norm_num
  · simp [equalPowerPan, equalAmplitudePan, Lit.lit]

/-! ## C78 -/

/-- Specification of clipping as a function on numbers. -/
def clip1 (q : ℚ) : ℚ := max (-1) (min 1 q)

/-- `clamp` with proper bounds: the bound that is exceeded, else the argument itself; NaN stays. -/
theorem clamp_cases {x lo hi : F32} (hl : lo.isNaN = false) (hh : hi.isNaN = false) (h : lo.val ≤ hi.val) :
    ∃ r, F32.clamp x lo hi = .ok r ∧ (x.isNaN = true → r = x) ∧
      (x.isNaN = false → x.val < lo.val → r = lo) ∧ (x.isNaN = false → hi.val < x.val → r = hi) ∧
      (x.isNaN = false → lo.val ≤ x.val → x.val ≤ hi.val → r = x) := by
  have h0 : F32.le lo hi = true := le_iff.2 ⟨hl, hh, h⟩
  unfold F32.clamp
  rw [if_pos h0]
  refine ⟨_, rfl, fun hn => ?_, fun hn h1 => ?_, fun hn h1 => ?_, fun hn h1 h2 => ?_⟩
  · have e1 : F32.lt x lo = false := by rw [Bool.eq_false_iff]; intro h'; simp [lt_iff, hn] at h'
    have e2 : F32.lt hi x = false := by rw [Bool.eq_false_iff]; intro h'; simp [lt_iff, hn] at h'
    simp [e1, e2]
  · have e1 : F32.lt x lo = true := lt_iff.2 ⟨hn, hl, h1⟩
    have e2 : F32.lt hi lo = false := by rw [Bool.eq_false_iff]; intro h'; exact absurd (lt_iff.1 h').2.2 (not_lt.2 h)
    simp [e1, e2]
  · have e1 : F32.lt x lo = false := by
      rw [Bool.eq_false_iff]; intro h'; exact absurd (lt_iff.1 h').2.2 (not_lt.2 (h.trans h1.le))
    have e2 : F32.lt hi x = true := lt_iff.2 ⟨hh, hn, h1⟩
    simp [e1, e2]
  · have e1 : F32.lt x lo = false := by rw [Bool.eq_false_iff]; intro h'; exact absurd (lt_iff.1 h').2.2 (not_lt.2 h1)
    have e2 : F32.lt hi x = false := by rw [Bool.eq_false_iff]; intro h'; exact absurd (lt_iff.1 h').2.2 (not_lt.2 h2)
    simp [e1, e2]

theorem litm1_nn : (lit (-1) : F32).isNaN = false := by decide +kernel
theorem lit1_nn : (lit 1 : F32).isNaN = false := by decide +kernel
theorem litm1_le_lit1 : (lit (-1) : F32).val ≤ (lit 1 : F32).val := by decide +kernel

theorem clip_inside {x : F32} (hn : x.isNaN = false) (h0 : -1 ≤ x.val) (h1 : x.val ≤ 1) : digitalClip x = .ok x := by
  obtain ⟨r, hr, -, -, -, h⟩ := clamp_cases (x := x) litm1_nn lit1_nn litm1_le_lit1
  rw [litm1_val, lit1_val] at h
  unfold digitalClip
  rw [hr, h hn h0 h1]

/-- C78: clipping never panics; on numbers it is `clip1`, and inside [-1,1] it returns its argument bit for bit; it is
idempotent; NaN passes. -/
theorem C78_clip (x : F32) : ∃ r, digitalClip x = .ok r ∧ (x.isNaN = true → r = x) ∧
    (x.isNaN = false → r.isFin = true ∧ r.val = clip1 x.val ∧ -1 ≤ r.val ∧ r.val ≤ 1 ∧
      (-1 ≤ x.val → x.val ≤ 1 → r = x)) ∧ digitalClip r = .ok r := by
  obtain ⟨r, hr, h1, h2, h3, h4⟩ := clamp_cases (x := x) litm1_nn lit1_nn litm1_le_lit1
  rw [litm1_val] at h2 h4; rw [lit1_val] at h3 h4
  have hnum : x.isNaN = false → r.isFin = true ∧ r.val = clip1 x.val ∧ -1 ≤ r.val ∧ r.val ≤ 1 ∧
      (-1 ≤ x.val → x.val ≤ 1 → r = x) := by
    intro hn
    unfold clip1
    rcases lt_or_ge x.val (-1) with h | h
    · rw [h2 hn h, litm1_val]
      refine ⟨by decide +kernel, ?_, le_refl _, by norm_num, fun h' => absurd h (not_lt.2 h')⟩
      rw [min_eq_right (by linarith), max_eq_left h.le]
    · rcases lt_or_ge 1 x.val with h' | h'
      · rw [h3 hn h', lit1_val]
        refine ⟨lit1_fin, ?_, by norm_num, le_refl _, fun _ h'' => absurd h' (not_lt.2 h'')⟩
        rw [min_eq_left h'.le, max_eq_right (by norm_num)]
      · rw [h4 hn h h']
        refine ⟨fin_of_val ?_, ?_, h, h', fun _ _ => rfl⟩
        · rw [abs_lt]; constructor <;> linarith [show (1:ℚ) < 2 ^ 128 by norm_num]
        · rw [min_eq_right h', max_eq_right h]
  refine ⟨r, hr, h1, hnum, ?_⟩
  cases hn : x.isNaN with
  | true => have := h1 hn; subst this; exact hr
  | false =>
    obtain ⟨a, -, b, d, -⟩ := hnum hn
    exact clip_inside (isFin.not_nan a) b d

/-- C78: clipping is monotone. -/
theorem C78_monotone {x y : F32} (hx : x.isNaN = false) (hy : y.isNaN = false) (h : x.val ≤ y.val) :
    ∃ r s, digitalClip x = .ok r ∧ digitalClip y = .ok s ∧ r.val ≤ s.val := by
  obtain ⟨r, hr, -, h1, -⟩ := C78_clip x
  obtain ⟨s, hs, -, h2, -⟩ := C78_clip y
  refine ⟨r, s, hr, hs, ?_⟩
  rw [(h1 hx).2.1, (h2 hy).2.1]
  exact max_le_max le_rfl (min_le_min le_rfl h)

example : digitalClip (lit 3) = .ok (lit 1) ∧ digitalClip (lit (-7)) = .ok (lit (-1)) ∧ digitalClip (lit (1 / 3)) = .ok (lit (1 / 3)) ∧
    digitalClip (pack true infMag) = .ok (lit (-1)) ∧ digitalClip nan = .ok nan := by decide +kernel

/-! ## C79 -/

/-- C79 in full: the three soft clippers return a number in [-1,1]. -/
def C79_Full : Prop := ∀ x y : F32, x.isNaN = false →
  (∃ r, tanhClip x = .ok r ∧ -1 ≤ r.val ∧ r.val ≤ 1) ∧ (∃ r, polyClip x y = .ok r ∧ -1 ≤ r.val ∧ r.val ≤ 1) ∧
  (∃ r, sigmoidClip x y = .ok r ∧ -1 ≤ r.val ∧ r.val ≤ 1)

/-- C79 fails already for silence: the branch is `todo!()`. -/
theorem C79_refuted : ¬ C79_Full := by
  intro h
  obtain ⟨r, hr, -⟩ := (h (lit 0) (lit 0) (by decide +kernel)).1
  have : tanhClip (lit 0) = .error .panic := by decide +kernel
  rw [this] at hr; cases hr

theorem soft_cases (x : F32) :
    (if F32.lt (lit 1) x then Except.ok (lit 1) else if F32.lt x (lit (-1)) then .ok (lit (-1)) else .error .panic : M F32) =
      if x.isNaN = true then .error .panic else if 1 < x.val then .ok (lit 1) else if x.val < -1 then .ok (lit (-1))
        else .error .panic := by
  have e1 := lt_iff (x := lit 1) (y := x)
  have e2 := lt_iff (x := x) (y := lit (-1))
  rw [lit1_val] at e1; rw [litm1_val] at e2
  simp only [e1, e2, lit1_nn, litm1_nn, true_and]
  cases x.isNaN <;> simp

/-- C79, what holds: outside [-1,1] the result is the sign of the input. Missing: the inputs inside [-1,1], where the three
functions panic (`C79_actual`). -/
theorem C79_partial (x y : F32) (hn : x.isNaN = false) :
    (1 < x.val → tanhClip x = .ok (lit 1) ∧ polyClip x y = .ok (lit 1) ∧ sigmoidClip x y = .ok (lit 1)) ∧
    (x.val < -1 → tanhClip x = .ok (lit (-1)) ∧ polyClip x y = .ok (lit (-1)) ∧ sigmoidClip x y = .ok (lit (-1))) := by
  unfold tanhClip polyClip sigmoidClip
  simp only [soft_cases, hn, Bool.false_eq_true, if_false]
  constructor
  · intro h; simp [h]
  · intro h; simp [h, show ¬ 1 < x.val by linarith]

/-- C79, what the code does: the three functions panic exactly on NaN and on [-1,1]. -/
theorem C79_actual (x y : F32) :
    (tanhClip x = .error .panic ↔ x.isNaN = true ∨ -1 ≤ x.val ∧ x.val ≤ 1) ∧ polyClip x y = tanhClip x ∧
    sigmoidClip x y = tanhClip x := by
  refine ⟨?_, rfl, rfl⟩
  unfold tanhClip
  rw [soft_cases]
  cases hn : x.isNaN with
  | true => simp
  | false =>
    simp only [Bool.false_eq_true, if_false, false_or]
    by_cases h1 : 1 < x.val
    · simp [h1]
    · by_cases h2 : x.val < -1
      · simp [h1, h2]
      · simp [h1, h2, not_lt.1 h1, not_lt.1 h2]

example : tanhClip (lit 2) = .ok (lit 1) ∧ polyClip (lit (-2)) (lit 3) = .ok (lit (-1)) ∧
    sigmoidClip (lit (1 / 2)) (lit 1) = .error .panic := by decide +kernel

/-! ## C80 -/

/-- What a `log10` must do: NaN in, NaN out, and a non-NaN result (infinities allowed) for every non-negative number. -/
def Log10Contract (log10 : F32 → F32) : Prop :=
  (∀ x, x.isNaN = true → (log10 x).isNaN = true) ∧ (∀ x, x.isNaN = false → 0 ≤ x.val → (log10 x).isNaN = false)

/-- C80 in full: when each function reports an error, and that a reported `Ok` is never NaN. -/
def C80_Full (log10 : F32 → F32) : Prop := ∀ x : F32,
  ((∃ e, toDecibels log10 x = .error e) ↔ x.isNaN = false ∧ x.val < 0) ∧
  (toDecibelsChecked log10 x = .error .nan ↔ x.isNaN = false ∧ x.val < 0) ∧
  (toDecibelsChecked log10 x = .error .infinite ↔ x.isNaN = false ∧ x.val = 0) ∧
  (∀ r, toDecibels log10 x = .ok r → r = lit 20 * log10 x ∧ r.isNaN = false) ∧
  (∀ r, toDecibelsChecked log10 x = .ok r → r = lit 20 * log10 x ∧ r.isNaN = false)

theorem decibel_cases (log10 : F32 → F32) (x : F32) :
    toDecibels log10 x = (if x.isNaN = false ∧ x.val < 0 then .error .nan else .ok (lit 20 * log10 x)) ∧
    toDecibelsChecked log10 x = (if x.isNaN = false ∧ x.val < 0 then .error .nan
      else if x.isNaN = false ∧ x.val = 0 then .error .infinite else .ok (lit 20 * log10 x)) := by
  have e1 := lt_iff (x := x) (y := lit 0)
  have e2 := feq_iff (x := x) (y := lit 0)
  have hl : (lit 0 : F32).isNaN = false := by decide +kernel
  rw [lit0_val] at e1 e2
  unfold toDecibels toDecibelsChecked toDecibelsUnchecked
  simp only [e1, e2, hl, true_and]

/-- C80 fails for every `log10`: NaN is not rejected and comes out as `Ok(NaN)`. -/
theorem C80_refuted {log10 : F32 → F32} (h : Log10Contract log10) : ¬ C80_Full log10 := by
  intro hf
  have hn : nan.isNaN = true := isNaN_nan
  have := ((hf nan).2.2.2.1 (lit 20 * log10 nan) (by rw [(decibel_cases log10 nan).1, hn]; rfl)).2
  rw [mul_nan_right (h.1 _ hn), hn] at this
  cases this

theorem twenty_mul_nn {y : F32} (h : y.isNaN = false) : (lit 20 * y).isNaN = false := by
  have h20 : (lit 20 : F32).isFin = true := by decide +kernel
  have hm : (lit 20 : F32).mag ≠ 0 := by decide +kernel
  by_cases hf : y.isFin = true
  · rw [mul_fin h20 hf]; exact rnd_not_nan _ _
  · have hi : y.isInf = true := by
      by_contra hc
      exact hf (isFin_of_not h (by simpa using hc))
    have hy : y.mag ≠ 0 := by
      have : y.mag = infMag := by simpa [isInf] using hi
      rw [this]; decide
    rw [mul_def, F32.mul, if_neg (by simp [isFin.not_nan h20, h]), if_pos (by simp [hi]), if_neg (by simp [hm, hy])]
    simp [F32.isNaN, mag_pack_of_lt (show infMag < 2 ^ 31 by decide)]

/-- C80, what holds: the error conditions for every input, the value for every accepted input, and no NaN for every input
that is a number. Missing: `Ok(NaN)` does occur, exactly for a NaN input. -/
theorem C80_partial {log10 : F32 → F32} (h : Log10Contract log10) (x : F32) :
    ((∃ e, toDecibels log10 x = .error e) ↔ x.isNaN = false ∧ x.val < 0) ∧
    (toDecibelsChecked log10 x = .error .nan ↔ x.isNaN = false ∧ x.val < 0) ∧
    (toDecibelsChecked log10 x = .error .infinite ↔ x.isNaN = false ∧ x.val = 0) ∧
    (∀ r, toDecibels log10 x = .ok r → r = lit 20 * log10 x ∧ (r.isNaN = true ↔ x.isNaN = true)) ∧
    (∀ r, toDecibelsChecked log10 x = .ok r → r = lit 20 * log10 x ∧ (r.isNaN = true ↔ x.isNaN = true)) := by
  rw [(decibel_cases log10 x).1, (decibel_cases log10 x).2]
  have hnan : ¬ (x.isNaN = false ∧ x.val < 0) → ((lit 20 * log10 x).isNaN = true ↔ x.isNaN = true) := by
    intro hc
    cases hn : x.isNaN with
    | true => simp [mul_nan_right (h.1 _ hn), isNaN_nan]
    | false => simp [twenty_mul_nn (h.2 _ hn (not_lt.1 fun h' => hc ⟨hn, h'⟩))]
  by_cases h1 : x.isNaN = false ∧ x.val < 0
  · simp [h1]
    exact h1.2.ne
  · rw [if_neg h1, if_neg h1]
    by_cases h2 : x.isNaN = false ∧ x.val = 0
    · rw [if_pos h2]
      simp only [h2]
      refine ⟨by simp, by simp, by simp, fun r hr => ?_, by simp⟩
      cases hr
      refine ⟨rfl, ?_⟩
      rw [hnan h1, h2.1]
    · rw [if_neg h2]
      refine ⟨by simp [h1], by simp [h1], by simp [h2], fun r hr => ?_, fun r hr => ?_⟩ <;>
      · cases hr; exact ⟨rfl, hnan h1⟩

example : Log10Contract (fun x => if x.isNaN then nan else lit 0) ∧
    toDecibels (fun _ => lit 0) (lit (-1)) = .error .nan ∧ toDecibelsChecked (fun _ => lit 0) (pack true 0) = .error .infinite ∧
    toDecibelsChecked (fun _ => lit 2) (lit 100) = .ok (lit 40) := by
  refine ⟨⟨fun x h => by simp [h, isNaN_nan], fun x h _ => ?_⟩, by decide +kernel, by decide +kernel, by decide +kernel⟩
  simp [h, show (lit 0 : F32).isNaN = false by decide +kernel]

/-! ## C81 -/

/-- C81: with the real logarithm and power the two conversions are inverse to each other. -/
theorem C81_inverse :
    (∀ x : ℝ, 0 < x → toVoltRatio (fun a b : ℝ => a ^ b) (toDecibelsUnchecked (Real.logb 10) x) = x) ∧
    (∀ d : ℝ, toDecibelsUnchecked (Real.logb 10) (toVoltRatio (fun a b : ℝ => a ^ b) d) = d) := by
  constructor
  · intro x hx
    simp only [toVoltRatio, toDecibelsUnchecked, Lit.lit]
    push_cast
    rw [mul_div_cancel_left₀ _ (by norm_num : (20:ℝ) ≠ 0)]
    exact Real.rpow_logb (by norm_num) (by norm_num) hx
  · intro d
    simp only [toVoltRatio, toDecibelsUnchecked, Lit.lit]
    push_cast
    rw [Real.logb_rpow (by norm_num) (by norm_num)]
    ring

/-- C81: both conversions are strictly increasing. -/
theorem C81_increasing :
    (∀ x y : ℝ, 0 < x → x < y → toDecibelsUnchecked (Real.logb 10) x < toDecibelsUnchecked (Real.logb 10) y) ∧
    (∀ d e : ℝ, d < e → toVoltRatio (fun a b : ℝ => a ^ b) d < toVoltRatio (fun a b : ℝ => a ^ b) e) := by
  constructor
  · intro x y hx h
    simp only [toDecibelsUnchecked, Lit.lit]
    push_cast
    have := Real.logb_lt_logb (b := 10) (by norm_num) hx h
    linarith
  · intro d e h
    simp only [toVoltRatio, Lit.lit]
    push_cast
    exact Real.rpow_lt_rpow_of_exponent_lt (by norm_num) (by linarith)

/-- 0 dB is a ratio of 1, 20 dB a ratio of 10. -/
example : toVoltRatio (fun a b : ℝ => a ^ b) 0 = 1 ∧ toVoltRatio (fun a b : ℝ => a ^ b) 20 = 10 := by
  simp only [toVoltRatio, Lit.lit]
  push_cast
  norm_num

end Verif
