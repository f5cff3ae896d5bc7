import Verif.Props.LookupSin
import Mathlib.Analysis.Real.Pi.Bounds
import Mathlib.Analysis.SpecialFunctions.Trigonometric.Bounds

/-! # The argument reduction of `fixed_point_sin` and `lookup_sin`, against the real sine -/

namespace Verif
open F32 FMath FixedPoint

/-- Rounding error, absolute form. -/
theorem rnd_abs_error {s : Bool} {q b : ℚ} (hf : (rnd s q).isFin = true) (h : |q| ≤ b) :
    |(rnd s q).val - q| ≤ 1 / 2 ^ 150 + b / 2 ^ 24 := by
  refine (rnd_error hf).trans ((max_le_add_of_nonneg (by positivity) (by positivity)).trans ?_)
  have := div_le_div_of_nonneg_right h (show (0:ℚ) ≤ 2 ^ 24 by positivity)
  linarith

/-- The normalised angle is `2x/π - 3` modulo 4, up to rounding; here still with the float `π`. -/
theorem normalizedRads_near {rem : F32 → F32 → F32} (hrem : RemContract rem) {x : F32} (hx : x.isFin = true) :
    ∃ k : Int, |(normalizedRads rem x).val - (2 * x.val / (13176795 / 2 ^ 22) - 3 - 4 * k)| ≤
      1 / 10 ^ 6 + 12 / 10 ^ 8 * |x.val| := by
  obtain ⟨A, hA⟩ : ∃ A, A = |x.val| := ⟨_, rfl⟩
  have hxA := abs_le.1 hA.ge
  have A0 : 0 ≤ A := by rw [hA]; exact abs_nonneg _
  have h2 : (lit 2 : F32).val ≠ 0 := by rw [lit2_val]; norm_num
  have e1 := div_fin hx lit2_fin h2
  rw [lit2_val] at e1
  have hle : |x.val / 2| ≤ |x.val| := by rw [abs_div]; exact div_le_self (abs_nonneg _) (by norm_num)
  have f1 : (x / lit 2).isFin = true := by rw [e1]; exact rnd_fin hx hle
  have b1 : |x.val / 2| ≤ A / 2 := by rw [abs_div, ← hA, abs_of_pos (a := (2:ℚ)) (by norm_num)]
  have E1 : |(x / lit 2).val - x.val / 2| ≤ 1 / 2 ^ 150 + A / 2 / 2 ^ 24 := by
    have := f1; rw [e1] at this ⊢; exact rnd_abs_error this b1
  have f2 : (x / lit 2 - lit fracPi4Q).isFin = true := by
    rw [sub_fin f1 fracPi4_fin, fracPi4_val]
    refine rnd_fin_of_lt (lt_of_le_of_lt (abs_sub _ _) ?_)
    have := fin_le_max f1
    have h3 : |(13176795 / 2 ^ 24 : ℚ)| ≤ 1 := by rw [abs_of_pos (by norm_num)]; norm_num
    have h4 : ((2:ℚ) ^ 24 - 1) * 2 ^ 104 + 1 < 2 ^ 128 - 2 ^ 103 := by norm_num
    linarith
  have E2 : |(x / lit 2 - lit fracPi4Q).val - ((x / lit 2).val - 13176795 / 2 ^ 24)| ≤ 1 / 2 ^ 150 + (A + 1) / 2 ^ 24 := by
    have h := f2
    rw [sub_fin f1 fracPi4_fin, fracPi4_val] at h ⊢
    refine rnd_abs_error h ?_
    rw [abs_le] at E1 ⊢
    have t1 : A / 2 / 2 ^ 24 ≤ A / 4 := by norm_num; linarith
    have t2 : (1:ℚ) / 2 ^ 150 ≤ 1 / 100 := by norm_num
    have t3 : (13176795 / 2 ^ 24 : ℚ) ≤ 8 / 10 := by norm_num
    have t4 : (0:ℚ) ≤ 13176795 / 2 ^ 24 := by norm_num
    constructor <;> linarith
  obtain ⟨rf, r0, r1, k, hk⟩ := (hrem (x / lit 2 - lit fracPi4Q) (lit piQ) pi_fin (by rw [pi_val]; norm_num)).2 f2
  refine ⟨k, ?_⟩
  unfold normalizedRads
  generalize (x / lit 2 - lit fracPi4Q).val = b at *
  generalize rem (x / lit 2 - lit fracPi4Q) (lit piQ) = r at *
  rw [pi_val] at r1 hk
  have hq0 : 0 ≤ r.val / (13176795 / 2 ^ 24) := by positivity
  have hq4 : r.val / (13176795 / 2 ^ 24) ≤ 4 := by rw [div_le_iff₀ (by norm_num)]; norm_num at r1 ⊢; linarith
  have l4f : (lit 4 : F32).isFin = true := by decide +kernel
  have l4v : (lit 4 : F32).val = 4 := by decide +kernel
  have e2 := div_fin rf fracPi4_fin (by rw [fracPi4_val]; norm_num)
  rw [fracPi4_val] at e2
  have g1 : (r / lit fracPi4Q).isFin = true := by
    rw [e2]; exact rnd_fin l4f (by rw [l4v, abs_of_nonneg hq0, abs_of_pos (by norm_num)]; exact hq4)
  have g2 : 0 ≤ (r / lit fracPi4Q).val := by rw [e2]; exact rnd_val_nonneg hq0
  have g3 : (r / lit fracPi4Q).val ≤ 4 := by
    rw [e2]
    have := rnd_le (s := r.neg != (lit fracPi4Q : F32).neg) (isFin.not_nan l4f) (q := r.val / (13176795 / 2 ^ 24)) (by rw [l4v]; exact hq4)
    rwa [l4v] at this
  have E3 : |(r / lit fracPi4Q).val - r.val / (13176795 / 2 ^ 24)| ≤ 1 / 2 ^ 150 + 4 / 2 ^ 24 := by
    have h := g1; rw [e2] at h ⊢
    exact rnd_abs_error h (by rw [abs_of_nonneg hq0]; exact hq4)
  rw [sub_fin g1 lit2_fin, lit2_val]
  have hb : |(r / lit fracPi4Q).val - 2| ≤ 2 := by rw [abs_le]; constructor <;> linarith
  have hfin := rnd_fin (s := (r / lit fracPi4Q).neg && !(lit 2 : F32).neg) (q := (r / lit fracPi4Q).val - 2) lit2_fin (by
    rw [lit2_val, abs_of_pos (a := (2:ℚ)) (by norm_num)]; exact hb)
  have E4 := rnd_abs_error hfin hb
  generalize (rnd ((r / lit fracPi4Q).neg && !(lit 2 : F32).neg) ((r / lit fracPi4Q).val - 2)).val = n at *
  generalize (r / lit fracPi4Q).val = d at *
  generalize (x / lit 2).val = a at *
  rw [show r.val / (13176795 / 2 ^ 24) = r.val * (2 ^ 24 / 13176795) by ring] at E3
  rw [show 2 * x.val / (13176795 / 2 ^ 22) = x.val / 2 * (2 ^ 24 / 13176795) by ring]
  have s150 : (1:ℚ) / 2 ^ 150 ≤ 1 / 10 ^ 12 := by norm_num
  have s149 : (1:ℚ) / 2 ^ 149 ≤ 1 / 10 ^ 12 := by norm_num
  have p150 : (0:ℚ) ≤ 1 / 2 ^ 150 := by norm_num
  generalize (1:ℚ) / 2 ^ 150 = ε at *
  generalize (1:ℚ) / 2 ^ 149 = ε' at *
  rw [← hA]
  rw [abs_le] at E1 E2 E3 E4 hk ⊢
  have L1 : A / 2 / 2 ^ 24 = A * (1 / 2 ^ 25) := by ring
  have L2 : (A + 1) / 2 ^ 24 = A * (1 / 2 ^ 24) + 1 / 2 ^ 24 := by ring
  rw [L1] at E1
  rw [L2] at E2
  clear L1 L2 hfin hb e1 e2 g1 g2 g3 f1 f2 hle b1 hx rf l4f l4v hq0 hq4 h2 hrem hA r0 r1
  generalize x.val = X at *
  generalize r.val = R at *
  generalize (k : ℚ) = K at *
  norm_num at *
  obtain ⟨u1, u2⟩ := E1; obtain ⟨u3, u4⟩ := E2; obtain ⟨u5, u6⟩ := E3; obtain ⟨u7, u8⟩ := E4; obtain ⟨u9, u10⟩ := hk
  constructor <;> linarith

/-- The reflection used by both sines: `|2x/π - 3 - 4k| - 1` quarter turns have the sine of `x`. -/
theorem sin_reflect (x : ℝ) (k : Int) :
    Real.sin (Real.pi / 2 * (|2 * x / Real.pi - 3 - 4 * k| - 1)) = Real.sin x := by
  have hp : Real.pi ≠ 0 := Real.pi_ne_zero
  rcases le_total 0 (2 * x / Real.pi - 3 - 4 * k) with h | h
  · rw [abs_of_nonneg h]
    have : Real.pi / 2 * (2 * x / Real.pi - 3 - 4 * k - 1) = x - ((k + 1 : Int) : ℝ) * (2 * Real.pi) := by
      push_cast; field_simp; ring
    rw [this, Real.sin_sub_int_mul_two_pi]
  · rw [abs_of_nonpos h]
    have : Real.pi / 2 * (-(2 * x / Real.pi - 3 - 4 * k) - 1) = Real.pi - (x - ((k : Int) : ℝ) * (2 * Real.pi)) := by
      field_simp; ring
    rw [this, Real.sin_pi_sub, Real.sin_sub_int_mul_two_pi]

/-- The normalised angle is `2x/π - 3` modulo 4, up to rounding. -/
theorem normalizedRads_pi {rem : F32 → F32 → F32} (hrem : RemContract rem) {x : F32} (hx : x.isFin = true) :
    ∃ k : Int, |((normalizedRads rem x).val : ℝ) - (2 * (x.val : ℝ) / Real.pi - 3 - 4 * k)| ≤
      1 / 10 ^ 6 + 14 / 10 ^ 8 * |(x.val : ℝ)| := by
  obtain ⟨k, hk⟩ := normalizedRads_near hrem hx
  refine ⟨k, ?_⟩
  generalize (normalizedRads rem x).val = n at *
  generalize x.val = X at *
  have hk' : |(n : ℝ) - (2 * (X : ℝ) / (13176795 / 2 ^ 22) - 3 - 4 * k)| ≤ 1 / 10 ^ 6 + 12 / 10 ^ 8 * |(X : ℝ)| := by
    have := (Rat.cast_le (K := ℝ)).2 hk
    push_cast at this
    exact this
  have p1 := Real.pi_gt_d20
  have p2 := Real.pi_lt_d20
  have p0 := Real.pi_pos
  have hd : |2 * (X : ℝ) / (13176795 / 2 ^ 22) - 2 * X / Real.pi| ≤ 2 / 10 ^ 8 * |(X : ℝ)| := by
    have e : 2 * (X : ℝ) / (13176795 / 2 ^ 22) - 2 * X / Real.pi = X * (2 / (13176795 / 2 ^ 22) - 2 / Real.pi) := by ring
    rw [e, abs_mul, mul_comm]
    refine mul_le_mul_of_nonneg_right ?_ (abs_nonneg _)
    have h1 : 2 / Real.pi ≤ 2 / (13176795 / 2 ^ 22) + 2 / 10 ^ 8 := by
      rw [div_le_iff₀ p0]; norm_num at *; nlinarith
    have h2 : 2 / (13176795 / 2 ^ 22) - 2 / 10 ^ 8 ≤ 2 / Real.pi := by
      rw [le_div_iff₀ p0]; norm_num at *; nlinarith
    rw [abs_le]; constructor <;> linarith
  have : (n : ℝ) - (2 * X / Real.pi - 3 - 4 * k) = ((n : ℝ) - (2 * (X : ℝ) / (13176795 / 2 ^ 22) - 3 - 4 * k)) +
    (2 * (X : ℝ) / (13176795 / 2 ^ 22) - 2 * X / Real.pi) := by ring
  rw [this]
  exact (abs_add_le _ _).trans ((add_le_add hk' hd).trans (le_of_eq (by ring)))

/-- After the reduction: `|n| - 1` quarter turns have nearly the sine of `x`. -/
theorem normalizedRads_sin {rem : F32 → F32 → F32} (hrem : RemContract rem) {x : F32} (hx : x.isFin = true) :
    |Real.sin (Real.pi / 2 * (|((normalizedRads rem x).val : ℝ)| - 1)) - Real.sin (x.val : ℝ)| ≤
      2 / 10 ^ 6 + |(x.val : ℝ)| / (4 * 10 ^ 6) := by
  obtain ⟨k, hn⟩ := normalizedRads_pi hrem hx
  generalize (normalizedRads rem x).val = n at *
  generalize x.val = X at *
  have p0 := Real.pi_pos
  have p2 := Real.pi_lt_d20
  rw [← sin_reflect (X : ℝ) k]
  refine (Real.abs_sin_sub_sin_le _ _).trans ?_
  rw [← mul_sub, abs_mul, abs_of_pos (a := Real.pi / 2) (by linarith)]
  have h3 : |(|(n : ℝ)| - 1) - (|2 * (X : ℝ) / Real.pi - 3 - 4 * k| - 1)| ≤ 1 / 10 ^ 6 + 14 / 10 ^ 8 * |(X : ℝ)| := by
    refine le_trans ?_ hn
    rw [sub_sub_sub_cancel_right]
    exact abs_abs_sub_abs_le _ _
  have hp : Real.pi / 2 ≤ 1.5708 := by norm_num at p2 ⊢; linarith
  calc Real.pi / 2 * _ ≤ 1.5708 * (1 / 10 ^ 6 + 14 / 10 ^ 8 * |(X : ℝ)|) :=
        mul_le_mul hp h3 (abs_nonneg _) (by norm_num)
    _ ≤ _ := by
        have := abs_nonneg (X : ℝ)
        norm_num; linarith

end Verif
