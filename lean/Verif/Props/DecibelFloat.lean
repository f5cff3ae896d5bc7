import Verif.Props.Level
import Mathlib.Analysis.Complex.ExponentialBounds
import Mathlib.Analysis.SpecialFunctions.Exp

/-! # C168: decibels in float arithmetic -/

namespace Verif
open F32 Decibels

/-- Contract of `log10`: off by at most `ε` for every positive float. -/
def Log10Within (ε : ℝ) (log10 : F32 → F32) : Prop :=
  ∀ x : F32, x.isFin = true → 0 < x.val → (log10 x).isFin = true ∧ |((log10 x).val : ℝ) - Real.logb 10 x.val| ≤ ε

/-- Contract of `10.powf`: a relative error of at most `δ` for exponents up to 30. -/
def Pow10Within (δ : ℝ) (powf : F32 → F32 → F32) : Prop :=
  ∀ y : F32, y.isFin = true → |y.val| ≤ 30 →
    (powf (lit 10) y).isFin = true ∧ |((powf (lit 10) y).val : ℝ) - 10 ^ (y.val : ℝ)| ≤ δ * 10 ^ (y.val : ℝ)

theorem log_ten : (23 / 10 : ℝ) ≤ Real.log 10 ∧ Real.log 10 ≤ 231 / 100 := by
  constructor
  · rw [Real.le_log_iff_exp_le (by norm_num)]
    have h : Real.exp (23 / 10) ^ 10 = Real.exp 1 ^ 23 := by rw [← Real.exp_nat_mul, ← Real.exp_nat_mul]; norm_num
    have h2 : Real.exp 1 ^ 23 ≤ (10:ℝ) ^ 10 :=
      (pow_le_pow_left₀ (Real.exp_pos _).le Real.exp_one_lt_d9.le 23).trans (by norm_num)
    exact le_of_pow_le_pow_left₀ (by norm_num) (by norm_num) (h.le.trans h2)
  · rw [Real.log_le_iff_le_exp (by norm_num)]
    have h : Real.exp (231 / 100) ^ 100 = Real.exp 1 ^ 231 := by rw [← Real.exp_nat_mul, ← Real.exp_nat_mul]; norm_num
    have h2 : (10:ℝ) ^ 100 ≤ Real.exp 1 ^ 231 :=
      le_trans (by norm_num) (pow_le_pow_left₀ (by norm_num) Real.exp_one_gt_d9.le 231)
    exact le_of_pow_le_pow_left₀ (by norm_num) (Real.exp_pos _).le (h2.trans h.ge)

/-- Close exponents, close powers. -/
theorem pow10_near {a b t : ℝ} (h : |a - b| ≤ t) (ht : t ≤ 1 / 8) : |(10:ℝ) ^ a - 10 ^ b| ≤ 3 * t * 10 ^ b := by
  obtain ⟨l1, l2⟩ := log_ten
  have hb : (0:ℝ) < 10 ^ b := Real.rpow_pos_of_pos (by norm_num) _
  have t0 : 0 ≤ t := (abs_nonneg _).trans h
  have e : (10:ℝ) ^ a - 10 ^ b = (Real.exp (Real.log 10 * (a - b)) - 1) * 10 ^ b := by
    rw [← Real.rpow_def_of_pos (by norm_num), sub_mul, one_mul, ← Real.rpow_add (by norm_num), sub_add_cancel]
  rw [e, abs_mul, abs_of_pos hb]
  refine mul_le_mul_of_nonneg_right ?_ hb.le
  have hs : |Real.log 10 * (a - b)| ≤ 231 / 100 * t := by
    rw [abs_mul, abs_of_pos (by linarith)]
    exact mul_le_mul l2 h (abs_nonneg _) (by norm_num)
  have h1 := Real.abs_exp_sub_one_sub_id_le (hs.trans (by linarith))
  have h2 : (Real.log 10 * (a - b)) ^ 2 ≤ (231 / 100 * t) ^ 2 := by
    rw [← sq_abs]; exact pow_le_pow_left₀ (abs_nonneg _) hs 2
  have h3 := abs_add_le (Real.exp (Real.log 10 * (a - b)) - 1 - Real.log 10 * (a - b)) (Real.log 10 * (a - b))
  rw [sub_add_cancel] at h3
  nlinarith

/-- The logarithm of a positive float. -/
theorem log_range {x : F32} (hx : x.isFin = true) (h0 : 0 < x.val) : |Real.logb 10 x.val| ≤ 45 := by
  obtain ⟨l1, l2⟩ := log_ten
  have hx0 : (0:ℝ) < x.val := by exact_mod_cast h0
  have u1 : x.val ≤ 2 ^ 149 := by
    have := (le_abs_self _).trans (fin_le_max hx)
    exact this.trans (by norm_num)
  have u0 : (1:ℚ) / 2 ^ 149 ≤ x.val := by
    have hm : x.mag ≠ 0 := fun h => h0.ne' (val_eq_zero.2 h)
    have h1 := magVal_le.2 (Nat.one_le_iff_ne_zero.2 hm)
    have h2 : x.val = magVal x.mag := by rw [← abs_val, abs_of_pos h0]
    rw [h2]
    refine le_trans (le_of_eq ?_) h1
    decide +kernel
  have k2 : Real.log ((2:ℝ) ^ 149) = 149 * Real.log 2 := by rw [Real.log_pow]; norm_num
  have hl : |Real.log x.val| ≤ 149 * Real.log 2 := by
    rw [abs_le]
    constructor
    · rw [← k2, ← Real.log_inv]
      refine Real.log_le_log (by positivity) ?_
      have : (((1:ℚ) / 2 ^ 149 : ℚ) : ℝ) ≤ x.val := by exact_mod_cast u0
      push_cast at this
      rwa [one_div] at this
    · rw [← k2]
      exact Real.log_le_log hx0 (by exact_mod_cast u1)
  have d9 := Real.log_two_lt_d9
  unfold Real.logb
  rw [abs_div, abs_of_pos (show 0 < Real.log 10 by linarith), div_le_iff₀ (by linarith)]
  linarith

theorem lit20_both : (lit 20 : F32).isFin = true ∧ (lit 20 : F32).val = 20 := by decide +kernel

/-- C168: the level in decibels of every positive float, with a logarithm off by at most `ε`. -/
theorem C168_decibels {log10 : F32 → F32} {ε : ℝ} (hl : Log10Within ε log10) (e1 : ε ≤ 1) {x : F32} (hx : x.isFin = true) (h0 : 0 < x.val) :
    (toDecibelsUnchecked log10 x).isFin = true ∧ |((toDecibelsUnchecked log10 x).val : ℝ) - 20 * Real.logb 10 x.val| ≤ 20 * ε + 1 / 2 ^ 14 := by
  obtain ⟨k1, k2⟩ := hl x hx h0
  have hr := log_range hx h0
  have hb : |((log10 x).val : ℝ)| ≤ 46 := by
    have := abs_add_le (((log10 x).val : ℝ) - Real.logb 10 x.val) (Real.logb 10 x.val)
    rw [sub_add_cancel] at this
    linarith
  have hbq : |(log10 x).val| ≤ 46 := by exact_mod_cast hb
  unfold toDecibelsUnchecked
  rw [mul_fin lit20_both.1 k1, lit20_both.2]
  have hq : |20 * (log10 x).val| ≤ 920 := by rw [abs_mul]; norm_num; linarith
  have hf : (rnd ((lit 20 : F32).neg != (log10 x).neg) (20 * (log10 x).val)).isFin = true := rnd_fin_of_lt (lt_of_le_of_lt hq (by norm_num))
  refine ⟨hf, ?_⟩
  have he : |(rnd ((lit 20 : F32).neg != (log10 x).neg) (20 * (log10 x).val)).val - 20 * (log10 x).val| ≤ 1 / 2 ^ 14 := by
    refine (rnd_error hf).trans (max_le (by norm_num) ?_)
    rw [div_le_iff₀ (by norm_num)]
    exact hq.trans (by norm_num)
  have he' := (Rat.cast_le (K := ℝ)).2 he
  push_cast at he'
  generalize ((rnd ((lit 20 : F32).neg != (log10 x).neg) (20 * (log10 x).val)).val : ℝ) = r at *
  have e : r - 20 * Real.logb 10 x.val = (r - 20 * (log10 x).val) + 20 * ((log10 x).val - Real.logb 10 x.val) := by ring
  rw [e]
  refine (abs_add_le _ _).trans ?_
  rw [abs_mul, abs_of_pos (by norm_num : (0:ℝ) < 20)]
  linarith

/-- The exponent that `to_volt_ratio` computes. -/
theorem twentieth {d : F32} (hd : d.isFin = true) (h : |d.val| ≤ 600) :
    (d / lit 20).isFin = true ∧ |(d / lit 20).val| ≤ 30 ∧ |((d / lit 20).val : ℝ) - d.val / 20| ≤ 30 / 2 ^ 24 := by
  rw [div_fin hd lit20_both.1 (by rw [lit20_both.2]; norm_num), lit20_both.2]
  have hq : |d.val / 20| ≤ 30 := by rw [abs_div, abs_of_pos (by norm_num : (0:ℚ) < 20), div_le_iff₀ (by norm_num)]; linarith
  have hf : (rnd (d.neg != (lit 20 : F32).neg) (d.val / 20)).isFin = true := rnd_fin_of_lt (lt_of_le_of_lt hq (by norm_num))
  have h30 : (lit 30 : F32).val = 30 := by decide +kernel
  refine ⟨hf, ?_, ?_⟩
  · have := rnd_abs_le (s := d.neg != (lit 20 : F32).neg) (y := lit 30) (q := d.val / 20) (by rw [h30]; exact hq.trans (by norm_num))
    rw [h30] at this
    exact this.trans (by norm_num)
  · have he : |(rnd (d.neg != (lit 20 : F32).neg) (d.val / 20)).val - d.val / 20| ≤ 30 / 2 ^ 24 :=
      (rnd_error hf).trans (max_le (by norm_num) (div_le_div_of_nonneg_right hq (by norm_num)))
    have := (Rat.cast_le (K := ℝ)).2 he
    push_cast at this
    exact this

/-- What `to_volt_ratio` gives for an exponent that is close to `b`. -/
theorem ratio_near {powf : F32 → F32 → F32} {δ : ℝ} (hp : Pow10Within δ powf) (d0 : 0 ≤ δ) (d1 : δ ≤ 1) {d : F32} (hd : d.isFin = true)
    (h : |d.val| ≤ 600) {b t : ℝ} (hb : |(d.val : ℝ) / 20 - b| ≤ t) (ht : t + 30 / 2 ^ 24 ≤ 1 / 8) :
    (toVoltRatio powf d).isFin = true ∧ |((toVoltRatio powf d).val : ℝ) - 10 ^ b| ≤ (δ + 6 * (t + 30 / 2 ^ 24)) * 10 ^ b := by
  obtain ⟨y1, y2, y3⟩ := twentieth hd h
  obtain ⟨k1, k2⟩ := hp _ y1 y2
  refine ⟨k1, ?_⟩
  have hbp : (0:ℝ) < 10 ^ b := Real.rpow_pos_of_pos (by norm_num) _
  have hab : |((d / lit 20).val : ℝ) - b| ≤ t + 30 / 2 ^ 24 := by
    have := abs_sub_le ((d / lit 20).val : ℝ) ((d.val : ℝ) / 20) b
    linarith
  have t0 : 0 ≤ t + 30 / 2 ^ 24 := (abs_nonneg _).trans hab
  have hn := pow10_near hab ht
  unfold toVoltRatio
  generalize t + 30 / 2 ^ 24 = s at *
  generalize ((powf (lit 10) (d / lit 20)).val : ℝ) = r at *
  generalize (10:ℝ) ^ (((d / lit 20).val : ℚ) : ℝ) = y at *
  generalize (10:ℝ) ^ b = v at *
  have hy : y ≤ v + 3 * s * v := by have := (abs_le.1 hn).2; linarith
  have h3 := abs_sub_le r y v
  have h4 : δ * y ≤ δ * v + 3 * s * v := by
    have := mul_le_mul_of_nonneg_left hy d0
    have h5 : δ * (3 * s * v) ≤ 1 * (3 * s * v) := mul_le_mul_of_nonneg_right d1 (by positivity)
    linarith
  nlinarith

/-- C168: the ratio of a level of up to 600 dB either way, with a power off by a factor `1 ± δ`. -/
theorem C168_ratio {powf : F32 → F32 → F32} {δ : ℝ} (hp : Pow10Within δ powf) (d0 : 0 ≤ δ) (d1 : δ ≤ 1) {d : F32} (hd : d.isFin = true)
    (h : |d.val| ≤ 600) :
    (toVoltRatio powf d).isFin = true ∧
      |((toVoltRatio powf d).val : ℝ) - 10 ^ ((d.val : ℝ) / 20)| ≤ (δ + 1 / 2 ^ 16) * 10 ^ ((d.val : ℝ) / 20) := by
  obtain ⟨k1, k2⟩ := ratio_near hp d0 d1 hd h (b := (d.val : ℝ) / 20) (t := 0) (by simp) (by norm_num)
  refine ⟨k1, k2.trans (mul_le_mul_of_nonneg_right ?_ (Real.rpow_pos_of_pos (by norm_num) _).le)⟩
  norm_num

/-- C168: from a ratio to decibels and back. -/
theorem C168_there_and_back {log10 : F32 → F32} {powf : F32 → F32 → F32} {ε δ : ℝ} (hl : Log10Within ε log10) (hp : Pow10Within δ powf)
    (e1 : ε ≤ 1 / 16) (d0 : 0 ≤ δ) (d1 : δ ≤ 1) {x : F32} (hx : x.isFin = true) (h0 : 1 / 10 ^ 29 ≤ x.val) (h1 : x.val ≤ 10 ^ 29) :
    (toVoltRatio powf (toDecibelsUnchecked log10 x)).isFin = true ∧
      |((toVoltRatio powf (toDecibelsUnchecked log10 x)).val : ℝ) - x.val| ≤ (δ + 6 * ε + 1 / 2 ^ 14) * x.val := by
  have hx0 : 0 < x.val := lt_of_lt_of_le (by positivity) h0
  have hx0' : (0:ℝ) < x.val := by exact_mod_cast hx0
  obtain ⟨k1, k2⟩ := C168_decibels hl (e1.trans (by norm_num)) hx hx0
  have lb : |Real.logb 10 x.val| ≤ 29 := by
    rw [abs_le]
    have z0 : (1:ℝ) / 10 ^ 29 ≤ x.val := by
      have := (Rat.cast_le (K := ℝ)).2 h0; push_cast at this; exact this
    have z1 : (x.val : ℝ) ≤ 10 ^ 29 := by exact_mod_cast h1
    constructor
    · rw [Real.le_logb_iff_rpow_le (by norm_num) hx0']
      refine le_trans (le_of_eq ?_) z0
      rw [Real.rpow_neg (by norm_num), one_div, ← Real.rpow_natCast]; norm_num
    · rw [Real.logb_le_iff_le_rpow (by norm_num) hx0']
      refine z1.trans (le_of_eq ?_)
      rw [← Real.rpow_natCast]; norm_num
  have hd : |(toDecibelsUnchecked log10 x).val| ≤ 600 := by
    have := abs_add_le (((toDecibelsUnchecked log10 x).val : ℝ) - 20 * Real.logb 10 x.val) (20 * Real.logb 10 x.val)
    rw [sub_add_cancel, abs_mul, abs_of_pos (by norm_num : (0:ℝ) < 20)] at this
    have : |((toDecibelsUnchecked log10 x).val : ℝ)| ≤ 600 := by norm_num at k2 ⊢; linarith
    exact_mod_cast this
  obtain ⟨m1, m2⟩ := ratio_near hp d0 d1 k1 hd (b := Real.logb 10 x.val) (t := ε + 1 / 2 ^ 14 / 20) (by
    have e : ((toDecibelsUnchecked log10 x).val : ℝ) / 20 - Real.logb 10 x.val =
      (((toDecibelsUnchecked log10 x).val : ℝ) - 20 * Real.logb 10 x.val) / 20 := by ring
    rw [e, abs_div, abs_of_pos (by norm_num : (0:ℝ) < 20), div_le_iff₀ (by norm_num)]
    linarith) (by norm_num; linarith)
  rw [Real.rpow_logb (by norm_num) (by norm_num) hx0'] at m2
  refine ⟨m1, m2.trans (mul_le_mul_of_nonneg_right ?_ hx0'.le)⟩
  norm_num; linarith

/-- C168: from decibels to a ratio and back. -/
theorem C168_back_and_there {log10 : F32 → F32} {powf : F32 → F32 → F32} {ε δ : ℝ} (hl : Log10Within ε log10) (hp : Pow10Within δ powf)
    (e1 : ε ≤ 1) (d0 : 0 ≤ δ) (d1 : δ ≤ 1 / 4) {d : F32} (hd : d.isFin = true) (h : |d.val| ≤ 600) :
    (toDecibelsUnchecked log10 (toVoltRatio powf d)).isFin = true ∧
      |((toDecibelsUnchecked log10 (toVoltRatio powf d)).val : ℝ) - d.val| ≤ 20 * (ε + δ) + 1 / 2 ^ 11 := by
  obtain ⟨k1, k2⟩ := C168_ratio hp d0 (d1.trans (by norm_num)) hd h
  have hv : (0:ℝ) < 10 ^ ((d.val : ℝ) / 20) := Real.rpow_pos_of_pos (by norm_num) _
  obtain ⟨s, hs⟩ : ∃ s : ℝ, s = δ + 1 / 2 ^ 16 := ⟨_, rfl⟩
  have s0 : 0 < s := by rw [hs]; positivity
  have s1 : s ≤ 1 / 2 := by rw [hs]; norm_num; linarith
  rw [← hs] at k2
  obtain ⟨v, hvv⟩ : ∃ v : ℝ, v = 10 ^ ((d.val : ℝ) / 20) := ⟨_, rfl⟩
  rw [← hvv] at k2 hv
  obtain ⟨k3, k4⟩ := abs_le.1 k2
  have r0' : (0:ℝ) < (toVoltRatio powf d).val := by nlinarith
  have r0 : 0 < (toVoltRatio powf d).val := by exact_mod_cast r0'
  obtain ⟨m1, m2⟩ := C168_decibels hl e1 k1 r0
  refine ⟨m1, ?_⟩
  obtain ⟨l1, l2⟩ := log_ten
  have hlog : |Real.logb 10 (toVoltRatio powf d).val - d.val / 20| ≤ s := by
    have e : Real.logb 10 (toVoltRatio powf d).val - d.val / 20 = Real.log ((toVoltRatio powf d).val / v) / Real.log 10 := by
      have : Real.logb 10 v = d.val / 20 := by rw [hvv, Real.logb_rpow (by norm_num) (by norm_num)]
      rw [← this, ← Real.logb_div r0'.ne' hv.ne']
      rfl
    rw [e, abs_div, abs_of_pos (show 0 < Real.log 10 by linarith), div_le_iff₀ (by linarith)]
    have q0 : 1 - s ≤ (toVoltRatio powf d).val / v := by rw [le_div_iff₀ hv]; linarith
    have q1 : (toVoltRatio powf d).val / v ≤ 1 + s := by rw [div_le_iff₀ hv]; linarith
    have qp : 0 < ((toVoltRatio powf d).val : ℝ) / v := div_pos r0' hv
    generalize ((toVoltRatio powf d).val : ℝ) / v = w at *
    have b1 := Real.log_le_sub_one_of_pos qp
    have b2 := Real.one_sub_inv_le_log_of_pos qp
    have b3 : w⁻¹ ≤ 1 + 2 * s := by
      rw [inv_le_iff_one_le_mul₀ qp]
      nlinarith
    rw [abs_le]
    constructor <;> nlinarith
  have e : ((toDecibelsUnchecked log10 (toVoltRatio powf d)).val : ℝ) - d.val =
      (((toDecibelsUnchecked log10 (toVoltRatio powf d)).val : ℝ) - 20 * Real.logb 10 (toVoltRatio powf d).val) +
      20 * (Real.logb 10 (toVoltRatio powf d).val - d.val / 20) := by ring
  rw [e]
  refine (abs_add_le _ _).trans ?_
  rw [abs_mul, abs_of_pos (by norm_num : (0:ℝ) < 20)]
  rw [hs] at hlog
  norm_num at m2 hlog ⊢
  linarith

/-- With functions good to 10^-5, -6 dB comes back to within a thousandth of a decibel. -/
example {log10 : F32 → F32} {powf : F32 → F32 → F32} (hl : Log10Within (1 / 10 ^ 5) log10) (hp : Pow10Within (1 / 10 ^ 5) powf) :
    |((toDecibelsUnchecked log10 (toVoltRatio powf (lit (-6)))).val : ℝ) + 6| ≤ 1 / 1000 := by
  have v : (lit (-6) : F32).val = -6 := by decide +kernel
  have := (C168_back_and_there hl hp (by norm_num) (by norm_num) (by norm_num) (d := lit (-6)) (by decide +kernel) (by decide +kernel)).2
  rw [v] at this
  push_cast at this
  rw [sub_neg_eq_add] at this
  norm_num at this ⊢
  linarith

/-- Functions that meet the two contracts exist: the correctly rounded ones, say. -/
example : (∃ log10, Log10Within (1 / 10 ^ 5) log10) ∧ ∃ powf, Pow10Within (1 / 10 ^ 5) powf := by
  constructor
  · have key : ∀ x : F32, ∃ r : F32, x.isFin = true → 0 < x.val → r.isFin = true ∧ |(r.val : ℝ) - Real.logb 10 x.val| ≤ 1 / 10 ^ 5 := by
      intro x
      obtain ⟨q, hq1, hq2⟩ := exists_rat_btwn (show Real.logb 10 x.val - 1 / 10 ^ 6 < Real.logb 10 x.val by norm_num)
      refine ⟨rnd false q, fun hx h0 => ?_⟩
      have hr := abs_le.1 (log_range hx h0)
      have hq : |(q : ℝ)| ≤ 46 := by rw [abs_le]; norm_num at hq1; constructor <;> linarith
      have hq' : |q| ≤ 46 := by exact_mod_cast hq
      have hf : (rnd false q).isFin = true := rnd_fin_of_lt (lt_of_le_of_lt hq' (by norm_num))
      refine ⟨hf, ?_⟩
      have he : |(rnd false q).val - q| ≤ 46 / 2 ^ 24 := (rnd_error hf).trans (max_le (by norm_num) (div_le_div_of_nonneg_right hq' (by norm_num)))
      have := (Rat.cast_le (K := ℝ)).2 he
      push_cast at this
      rw [abs_le] at this ⊢
      norm_num at this hq1 ⊢
      constructor <;> linarith
    choose f hf using key
    exact ⟨f, hf⟩
  · have key : ∀ y : F32, ∃ r : F32, y.isFin = true → |y.val| ≤ 30 →
        r.isFin = true ∧ |(r.val : ℝ) - 10 ^ (y.val : ℝ)| ≤ 1 / 10 ^ 5 * 10 ^ (y.val : ℝ) := by
      intro y
      have hp : (0:ℝ) < 10 ^ (y.val : ℝ) := Real.rpow_pos_of_pos (by norm_num) _
      obtain ⟨q, hq1, hq2⟩ := exists_rat_btwn (show (1 - 1 / 10 ^ 6) * (10:ℝ) ^ (y.val : ℝ) < 10 ^ (y.val : ℝ) by linarith)
      refine ⟨rnd false q, fun hy h => ?_⟩
      have h' : |(y.val : ℝ)| ≤ 30 := by exact_mod_cast h
      obtain ⟨y0, y1⟩ := abs_le.1 h'
      have p1 : (10:ℝ) ^ (y.val : ℝ) ≤ 10 ^ (30:ℝ) := Real.rpow_le_rpow_of_exponent_le (by norm_num) y1
      have p0 : (10:ℝ) ^ (-30:ℝ) ≤ 10 ^ (y.val : ℝ) := Real.rpow_le_rpow_of_exponent_le (by norm_num) y0
      rw [show (30:ℝ) = ((30:ℕ):ℝ) by norm_num, Real.rpow_natCast] at p1
      rw [Real.rpow_neg (by norm_num), show (30:ℝ) = ((30:ℕ):ℝ) by norm_num, Real.rpow_natCast] at p0
      have q0 : (0:ℝ) < q := lt_trans (by positivity) hq1
      have q0' : 0 < q := by exact_mod_cast q0
      have q1' : q ≤ 10 ^ 30 := by have : (q:ℝ) ≤ 10 ^ 30 := hq2.le.trans p1; exact_mod_cast this
      have q2' : 1 / 2 ^ 126 ≤ |q| := by
        rw [abs_of_pos q0']
        have : (1:ℝ) / 2 ^ 126 ≤ q := by norm_num at p0 hq1 ⊢; linarith
        have : (((1:ℚ) / 2 ^ 126 : ℚ) : ℝ) ≤ q := by push_cast; exact this
        exact_mod_cast this
      have hf : (rnd false q).isFin = true := rnd_fin_of_lt (by rw [abs_of_pos q0']; exact lt_of_le_of_lt q1' (by norm_num))
      refine ⟨hf, ?_⟩
      have he := rnd_rel_error hf q2'
      rw [abs_of_pos q0'] at he
      have := (Rat.cast_le (K := ℝ)).2 he
      push_cast at this
      rw [abs_le] at this ⊢
      norm_num at this hq1 ⊢
      constructor <;> linarith
    choose f hf using key
    exact ⟨fun _ y => f y, fun y h1 h2 => hf y h1 h2⟩

end Verif
