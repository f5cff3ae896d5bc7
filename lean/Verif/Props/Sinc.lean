import Mathlib.Analysis.SpecialFunctions.Trigonometric.Sinc
import Verif.Props.SinAccuracy

/-! # C110: `sinc` against the real sin(x)/x -/

namespace Verif
open F32 FMath FixedPoint

/-- C110 in full: `sinc` is within a hundredth of `sin x / x`, which is 1 at 0. -/
def SincFull : Prop :=
  ∀ (checks : Bool) (rem : F32 → F32 → F32), RemContract rem → ∀ x : F32, x.isFin = true →
    ∃ r, sinc checks rem x = .ok r ∧ |(r.val : ℝ) - Real.sinc (x.val : ℝ)| ≤ 1 / 100

theorem sinc_zero_arg {checks : Bool} {rem : F32 → F32 → F32} {x : F32} (hx : x.isFin = true) (h0 : x.val = 0) :
    sinc checks rem x = .ok (lit 1) := by
  unfold sinc
  rw [if_pos]
  rw [feq_iff]
  exact ⟨isFin.not_nan hx, lit_not_nan _, by rw [h0, lit0_val]⟩

theorem sinc_nonzero {checks : Bool} {rem : F32 → F32 → F32} {x r : F32} (h0 : x.val ≠ 0)
    (h : fixedPointSin checks rem x = .ok r) : sinc checks rem x = .ok (r / x) := by
  unfold sinc
  rw [if_neg, h]
  · rfl
  · rw [feq_iff]
    rintro ⟨-, -, h⟩
    rw [lit0_val] at h
    exact h0 h

/-- For an angle this small the `i16` phase is 0. -/
theorem fixedSin_small {rem : F32 → F32 → F32} (hrem : RemContract rem) (checks : Bool) {x : F32} (hx : x.isFin = true)
    (h1 : |x.val| ≤ 1 / 2 ^ 16) : fixedPointSin checks rem x = .ok (lit 0) := by
  obtain ⟨nf, nb⟩ := normalizedRads_bounds hrem hx
  obtain ⟨k, hk⟩ := normalizedRads_near hrem hx
  have hn : |(|(normalizedRads rem x).val|) - 1| ≤ 2 / 10 ^ 5 := by
    generalize (normalizedRads rem x).val = n at *
    have a := abs_le.1 h1
    have b := abs_le.1 hk
    have c := abs_le.1 nb
    have hd : |2 * x.val / (13176795 / 2 ^ 22)| ≤ 1 / 10 ^ 5 := by
      rw [abs_div, abs_mul, abs_of_pos (a := (2:ℚ)) (by norm_num), abs_of_pos (a := (13176795 / 2 ^ 22 : ℚ)) (by norm_num),
        div_le_iff₀ (by norm_num)]
      norm_num at h1 ⊢; linarith
    have d := abs_le.1 hd
    generalize 2 * x.val / (13176795 / 2 ^ 22) = u at *
    norm_num at h1 d b
    have k1 : k = -1 := by
      have e1 : (-2 : ℚ) < k := by linarith
      have e2 : (k : ℚ) < 0 := by linarith
      have e1' : (-2 : Int) < k := by exact_mod_cast e1
      have e2' : k < 0 := by exact_mod_cast e2
      omega
    rw [k1] at b
    norm_num at b
    rw [abs_of_pos (a := n) (by linarith), abs_le]
    constructor <;> norm_num <;> linarith
  have hz : F32.toIntSat (-32768) 32767 (i16MaxF * ((normalizedRads rem x).abs - lit 1)) = 0 := by
    generalize normalizedRads rem x = n at *
    have af : n.abs.isFin = true := by rw [isFin_abs]; exact nf
    have av : n.abs.val = |n.val| := by rw [val_abs]
    have hq : |n.abs.val - (lit 1 : F32).val| ≤ 1 := by
      rw [av, lit1_val]; exact hn.trans (by norm_num)
    obtain ⟨qf, -⟩ : (n.abs - lit 1).isFin = true ∧ |(n.abs - lit 1).val| ≤ 1 := by
      rw [sub_fin af lit1_fin]; exact rnd_unit hq
    have hs : |(lit (2 / 10 ^ 5 + 1 / 10 ^ 6) : F32).val| ≤ 22 / 10 ^ 6 ∧ 2 / 10 ^ 5 ≤ |(lit (2 / 10 ^ 5 + 1 / 10 ^ 6) : F32).val| := by
      decide +kernel
    have qb : |(n.abs - lit 1).val| ≤ 22 / 10 ^ 6 := by
      rw [sub_fin af lit1_fin]
      refine (rnd_abs_le (y := lit (2 / 10 ^ 5 + 1 / 10 ^ 6)) ?_).trans hs.1
      rw [av, lit1_val]; exact hn.trans hs.2
    generalize n.abs - lit 1 = q at *
    have h34 : |(lit (3 / 4) : F32).val| = 3 / 4 := by decide +kernel
    have mb' : |i16MaxF.val * q.val| ≤ |(lit (3 / 4) : F32).val| := by
      rw [abs_mul, i16MaxF_val, abs_of_pos (a := (32767:ℚ)) (by norm_num), h34]
      norm_num at qb ⊢; linarith
    have mf : (i16MaxF * q).isFin = true := by
      rw [mul_fin i16MaxF_fin qf]; exact rnd_fin (by decide +kernel) mb'
    have mb : |(i16MaxF * q).val| ≤ 3 / 4 := by
      rw [mul_fin i16MaxF_fin qf, ← h34]; exact rnd_abs_le mb'
    generalize i16MaxF * q = m at *
    have ht : m.truncInt = 0 := by
      obtain ⟨m1, m2⟩ := abs_le.1 mb
      rcases lt_or_ge m.val 0 with h | h
      · rw [truncInt_neg h, Int.ceil_eq_iff]; constructor <;> push_cast <;> linarith
      · rw [truncInt_nonneg h, Int.floor_eq_iff]; constructor <;> push_cast <;> linarith
    unfold toIntSat
    rw [isFin.not_nan mf, ht]
    decide
  unfold fixedPointSin
  simp only [hz]
  cases checks <;> decide +kernel

/-- C110: between the zeros and 2^-16 the value is zero, not one. -/
theorem C110_actual {rem : F32 → F32 → F32} (hrem : RemContract rem) (checks : Bool) {x : F32} (hx : x.isFin = true)
    (h0 : x.val ≠ 0) (h1 : |x.val| ≤ 1 / 2 ^ 16) :
    ∃ r, sinc checks rem x = .ok r ∧ r.isFin = true ∧ r.val = 0 := by
  refine ⟨_, sinc_nonzero h0 (fixedSin_small hrem checks hx h1), ?_⟩
  rw [div_fin lit0_fin hx h0, lit0_val, zero_div]
  have := rnd_abs_le (s := (lit 0 : F32).neg != x.neg) (q := 0) (y := lit 0) (by rw [lit0_val])
  rw [lit0_val, abs_zero] at this
  exact ⟨rnd_fin lit0_fin (by rw [lit0_val]), abs_eq_zero.1 (le_antisymm this (abs_nonneg _))⟩

/-- C110: at both zeros the value is exactly 1; elsewhere the error is at most that of the sine, divided by `x`. -/
theorem C110_partial {rem : F32 → F32 → F32} (hrem : RemContract rem) (checks : Bool) {x : F32} (hx : x.isFin = true) :
    ∃ r, sinc checks rem x = .ok r ∧ r.isFin = true ∧ (x.val = 0 → r = lit 1) ∧
      (x.val ≠ 0 → |(r.val : ℝ) - Real.sinc (x.val : ℝ)| ≤ 301 / 10 ^ 6 / |(x.val : ℝ)| + 1 / 10 ^ 6) := by
  by_cases h0 : x.val = 0
  · exact ⟨_, sinc_zero_arg hx h0, lit1_fin, fun _ => rfl, fun h => absurd h0 h⟩
  have hX : (x.val : ℝ) ≠ 0 := by exact_mod_cast h0
  have hXp : 0 < |(x.val : ℝ)| := abs_pos.2 hX
  rcases le_or_gt |x.val| (1 / 2 ^ 16) with h1 | h1
  · obtain ⟨r, a1, a2, a3⟩ := C110_actual hrem checks hx h0 h1
    refine ⟨r, a1, a2, fun h => absurd h h0, fun _ => ?_⟩
    rw [a3, Rat.cast_zero, zero_sub, abs_neg]
    refine (Real.abs_sinc_le_one _).trans ?_
    have h2 : |(x.val : ℝ)| ≤ 1 / 2 ^ 16 := by
      have := (Rat.cast_le (K := ℝ)).2 h1; push_cast at this; exact this
    have : 1 ≤ 301 / 10 ^ 6 / |(x.val : ℝ)| := by
      rw [le_div_iff₀ hXp]; norm_num at h2 ⊢; linarith
    linarith
  · obtain ⟨r, b1, b2⟩ := C92_sin hrem checks hx
    obtain ⟨r', -, c1, c2, c3, c4, -⟩ := C60_range_partial checks rem x
    rw [b1] at c1
    injection c1 with c1
    rw [← c1] at c2 c3 c4
    have hxp : 0 < |x.val| := lt_trans (by norm_num) h1
    have hq : |r.val / x.val| ≤ 1001 / 1000 / |x.val| := by
      rw [abs_div]
      refine div_le_div_of_nonneg_right ?_ hxp.le
      rw [abs_le]; constructor <;> norm_num at c3 ⊢ <;> linarith
    have hb : |r.val / x.val| ≤ |(lit (2 ^ 17) : F32).val| := by
      refine hq.trans ?_
      rw [show |(lit (2 ^ 17) : F32).val| = 2 ^ 17 by decide +kernel, div_le_iff₀ hxp]
      norm_num at h1 ⊢; linarith
    have ff : (r / x).isFin = true := by
      rw [div_fin c2 hx h0]; exact rnd_fin (by decide +kernel) hb
    refine ⟨_, sinc_nonzero h0 b1, ff, fun h => absurd h h0, fun _ => ?_⟩
    have E : |(r / x).val - r.val / x.val| ≤ 1 / 2 ^ 150 + 1001 / 1000 / |x.val| / 2 ^ 24 := by
      have ff' := ff
      rw [div_fin c2 hx h0] at ff' ⊢
      exact rnd_abs_error ff' hq
    have E' : |((r / x).val : ℝ) - r.val / x.val| ≤ 1 / 2 ^ 150 + 1001 / 1000 / |(x.val : ℝ)| / 2 ^ 24 := by
      have := (Rat.cast_le (K := ℝ)).2 E; push_cast at this; exact this
    rw [Real.sinc_of_ne_zero hX]
    have F : |(r.val : ℝ) / x.val - Real.sin x.val / x.val| ≤ 3 / 10 ^ 4 / |(x.val : ℝ)| + 1 / (4 * 10 ^ 6) := by
      rw [← sub_div, abs_div, div_le_iff₀ hXp]
      refine b2.trans (le_of_eq ?_)
      field_simp
    have s150 : (1:ℝ) / 2 ^ 150 ≤ 1 / 10 ^ 12 := by norm_num
    have G := abs_sub_le ((r / x).val : ℝ) (r.val / x.val) (Real.sin x.val / x.val)
    have hi : 0 < 1 / |(x.val : ℝ)| := by positivity
    rw [div_eq_mul_one_div (1001 / 1000 : ℝ)] at E'
    rw [div_eq_mul_one_div (3 / 10 ^ 4 : ℝ)] at F
    rw [div_eq_mul_one_div (301 / 10 ^ 6 : ℝ)]
    generalize 1 / |(x.val : ℝ)| = w at *
    norm_num at E' F s150 ⊢
    linarith

theorem C110_refuted : ¬ SincFull := by
  intro h
  have hv : (lit (1 / 2 ^ 16) : F32).val = 1 / 2 ^ 16 := by decide +kernel
  have hf : (lit (1 / 2 ^ 16) : F32).isFin = true := by decide +kernel
  obtain ⟨r, h1, h2⟩ := h true mmRem mmRem_contract (lit (1 / 2 ^ 16)) hf
  obtain ⟨r', h3, -, h4⟩ := C110_actual mmRem_contract true hf (by rw [hv]; norm_num) (by rw [hv, abs_of_pos] <;> norm_num)
  rw [h1] at h3
  injection h3 with h3
  rw [h3, h4, hv, Real.sinc_of_ne_zero (by norm_num)] at h2
  have := Real.sin_gt_sub_cube (x := 1 / 2 ^ 16) (by norm_num)
  push_cast at h2
  rw [zero_sub, abs_neg] at h2
  have h5 := (le_abs_self _).trans h2
  rw [div_le_iff₀ (by norm_num)] at h5
  norm_num at this h5
  linarith

-- the error allowed at 1/10 is 0.3 per cent; the value is 0.99826
example : (sinc true mmRem (lit (1 / 10))).toOption.map (fun r => decide (|r.val - 99826 / 100000| ≤ 1 / 10 ^ 5)) = some true := by
  decide +kernel

end Verif
