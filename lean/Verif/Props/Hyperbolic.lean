import Verif.Props.FloatMath
import Mathlib.Analysis.Complex.ExponentialBounds
import Mathlib.Analysis.SpecialFunctions.Exp

/-! # C188: the hyperbolic functions in float arithmetic -/

namespace Verif
open F32 FMath

/-- Contract of `exp`: a relative error of at most `δ` for arguments up to 80. -/
def ExpWithin (δ : ℝ) (exp : F32 → F32) : Prop :=
  ∀ x : F32, x.isFin = true → |x.val| ≤ 80 → (exp x).isFin = true ∧ |((exp x).val : ℝ) - Real.exp x.val| ≤ δ * Real.exp x.val

theorem exp_eighty {t : ℝ} (h : t ≤ 80) : Real.exp t ≤ 2 ^ 116 := by
  refine (Real.exp_le_exp.2 h).trans ?_
  rw [show (80:ℝ) = ((80:ℕ):ℝ) * 1 by norm_num, Real.exp_nat_mul]
  exact (pow_le_pow_left₀ (Real.exp_pos _).le Real.exp_one_lt_d9.le 80).trans (by norm_num)

/-- Rounding a number close to `v`, both at the scale of `C`. -/
theorem rnd_scaled {s : Bool} {q : ℚ} {v C e : ℝ} (hC1 : 1 ≤ C) (hC : C ≤ 2 ^ 116) (hv : |v| ≤ 2 * C) (e1 : e ≤ 4) (h : |(q : ℝ) - v| ≤ e * C) :
    (rnd s q).isFin = true ∧ |((rnd s q).val : ℝ) - v| ≤ (e + (2 + e) / 2 ^ 24) * C := by
  have hq : |(q : ℝ)| ≤ (2 + e) * C := by
    have := abs_add_le ((q : ℝ) - v) v
    rw [sub_add_cancel] at this; linarith
  have hq' : |q| ≤ 2 ^ 120 := by
    have : |(q : ℝ)| ≤ 2 ^ 120 := hq.trans (by nlinarith)
    exact_mod_cast this
  have hf : (rnd s q).isFin = true := rnd_fin_of_lt (lt_of_le_of_lt hq' (by norm_num))
  refine ⟨hf, ?_⟩
  have he := (Rat.cast_le (K := ℝ)).2 (rnd_error hf)
  push_cast at he
  have hm : max ((1:ℝ) / 2 ^ 150) (|(q:ℝ)| / 2 ^ 24) ≤ (2 + e) / 2 ^ 24 * C := by
    have e0 : 0 ≤ e * C := (abs_nonneg _).trans h
    refine max_le ?_ ?_
    · have : (1:ℝ) / 2 ^ 150 ≤ 2 / 2 ^ 24 * C := by norm_num; linarith
      have : (0:ℝ) ≤ e * C / 2 ^ 24 := by positivity
      have : (2 + e) / 2 ^ 24 * C = 2 / 2 ^ 24 * C + e * C / 2 ^ 24 := by ring
      linarith
    · rw [div_mul_eq_mul_div]; exact div_le_div_of_nonneg_right hq (by positivity)
  have := abs_add_le (((rnd s q).val : ℝ) - q) ((q:ℝ) - v)
  rw [sub_add_sub_cancel] at this
  have k : (e + (2 + e) / 2 ^ 24) * C = e * C + (2 + e) / 2 ^ 24 * C := by ring
  rw [k]
  linarith

variable {exp : F32 → F32} {δ : ℝ} {x : F32}

theorem neg_fin_val (hx : x.isFin = true) : (-x).isFin = true ∧ (-x).val = -x.val := by
  exact ⟨by rw [isFin_neg']; exact hx, val_neg' x⟩

/-- The two exponentials and the hyperbolic cosine that bounds them. -/
theorem two_exps (he : ExpWithin δ exp) (hx : x.isFin = true) (h : |x.val| ≤ 80) :
    (exp x).isFin = true ∧ (exp (-x)).isFin = true ∧ 1 ≤ Real.cosh x.val ∧ Real.cosh x.val ≤ 2 ^ 116 ∧
    |((exp x).val : ℝ) - Real.exp x.val| + |((exp (-x)).val : ℝ) - Real.exp (-x.val)| ≤ 2 * δ * Real.cosh x.val := by
  obtain ⟨nf, nv⟩ := neg_fin_val hx
  obtain ⟨a1, a2⟩ := he x hx h
  obtain ⟨b1, b2⟩ := he (-x) nf (by rw [nv, abs_neg]; exact h)
  rw [nv] at b2
  push_cast at b2
  have h' : |(x.val : ℝ)| ≤ 80 := by exact_mod_cast h
  obtain ⟨x0, x1⟩ := abs_le.1 h'
  refine ⟨a1, b1, Real.one_le_cosh _, ?_, ?_⟩
  · rw [Real.cosh_eq]
    have := exp_eighty x1
    have := exp_eighty (show -(x.val : ℝ) ≤ 80 by linarith)
    linarith
  · rw [Real.cosh_eq]; linarith

theorem half_scaled {y : F32} {v C e : ℝ} (hC1 : 1 ≤ C) (hC : C ≤ 2 ^ 116) (hv : |v| ≤ 2 * C) (e1 : e ≤ 4) (hy : y.isFin = true)
    (h : |(y.val : ℝ) - v| ≤ e * C) :
    (y * lit (1/2)).isFin = true ∧ |((y * lit (1/2)).val : ℝ) - v / 2| ≤ (e / 2 + (2 + e / 2) / 2 ^ 24) * C := by
  rw [mul_fin hy lithalf_fin, lithalf_val]
  refine rnd_scaled hC1 hC ?_ (by linarith) ?_
  · rw [abs_div, abs_of_pos (by norm_num : (0:ℝ) < 2)]; linarith
  · push_cast
    rw [show (y.val : ℝ) * (1 / 2) - v / 2 = ((y.val : ℝ) - v) / 2 by ring, abs_div, abs_of_pos (by norm_num : (0:ℝ) < 2)]
    linarith

/-- C188: `cosh` has the relative error of the exponential and a few roundings. -/
theorem C188_cosh (he : ExpWithin δ exp) (d1 : δ ≤ 1) (hx : x.isFin = true) (h : |x.val| ≤ 80) :
    (cosh exp x).isFin = true ∧ |((cosh exp x).val : ℝ) - Real.cosh x.val| ≤ (δ + 1 / 2 ^ 21) * Real.cosh x.val := by
  obtain ⟨a, b, c1, c2, c3⟩ := two_exps he hx h
  unfold FMath.cosh
  have hv : |2 * Real.cosh x.val| ≤ 2 * Real.cosh x.val := by rw [abs_of_pos (by linarith)]
  obtain ⟨s1, s2⟩ := rnd_scaled (s := (exp x).neg && (exp (-x)).neg) (q := (exp x).val + (exp (-x)).val) (e := 2 * δ) c1 c2 hv (by linarith) (by
    push_cast
    have := abs_add_le (((exp x).val : ℝ) - Real.exp x.val) (((exp (-x)).val : ℝ) - Real.exp (-x.val))
    rw [show ((exp x).val : ℝ) + (exp (-x)).val - 2 * Real.cosh x.val =
      (((exp x).val : ℝ) - Real.exp x.val) + (((exp (-x)).val : ℝ) - Real.exp (-x.val)) by rw [Real.cosh_eq]; ring]
    linarith)
  rw [← add_fin a b] at s1 s2
  obtain ⟨t1, t2⟩ := half_scaled c1 c2 hv (by norm_num; linarith) s1 s2
  refine ⟨t1, ?_⟩
  rw [mul_div_cancel_left₀ _ (by norm_num : (2:ℝ) ≠ 0)] at t2
  exact t2.trans (mul_le_mul_of_nonneg_right (by norm_num; linarith) (by linarith))

/-- C188: the error of `sinh` is at the scale of `cosh`: near zero it is not a relative error of `sinh`. -/
theorem C188_sinh (he : ExpWithin δ exp) (d1 : δ ≤ 1) (hx : x.isFin = true) (h : |x.val| ≤ 80) :
    (sinh exp x).isFin = true ∧ |((sinh exp x).val : ℝ) - Real.sinh x.val| ≤ (δ + 1 / 2 ^ 21) * Real.cosh x.val := by
  obtain ⟨a, b, c1, c2, c3⟩ := two_exps he hx h
  unfold FMath.sinh
  have hv : |2 * Real.sinh x.val| ≤ 2 * Real.cosh x.val := by
    rw [abs_mul, abs_of_pos (by norm_num : (0:ℝ) < 2)]
    have : |Real.sinh x.val| ≤ Real.cosh x.val := by
      rw [Real.sinh_eq, Real.cosh_eq, abs_le]
      have := Real.exp_pos x.val
      have := Real.exp_pos (-x.val)
      constructor <;> linarith
    linarith
  obtain ⟨s1, s2⟩ := rnd_scaled (s := (exp x).neg && !(exp (-x)).neg) (q := (exp x).val - (exp (-x)).val) (e := 2 * δ) c1 c2 hv (by linarith) (by
    push_cast
    have := abs_sub (((exp x).val : ℝ) - Real.exp x.val) (((exp (-x)).val : ℝ) - Real.exp (-x.val))
    rw [show ((exp x).val : ℝ) - (exp (-x)).val - 2 * Real.sinh x.val =
      (((exp x).val : ℝ) - Real.exp x.val) - (((exp (-x)).val : ℝ) - Real.exp (-x.val)) by rw [Real.sinh_eq]; ring]
    linarith)
  rw [← sub_fin a b] at s1 s2
  obtain ⟨t1, t2⟩ := half_scaled c1 c2 hv (by norm_num; linarith) s1 s2
  refine ⟨t1, ?_⟩
  rw [mul_div_cancel_left₀ _ (by norm_num : (2:ℝ) ≠ 0)] at t2
  exact t2.trans (mul_le_mul_of_nonneg_right (by norm_num; linarith) (by linarith))

/-- C188: the identity `cosh^2 - sinh^2 = 1` after rounding, at the scale of `cosh^2`. -/
theorem C188_identity (he : ExpWithin δ exp) (d0 : 0 ≤ δ) (d1 : δ ≤ 1 / 4) (hx : x.isFin = true) (h : |x.val| ≤ 80) :
    |((cosh exp x).val : ℝ) ^ 2 - (sinh exp x).val ^ 2 - 1| ≤ 5 * (δ + 1 / 2 ^ 21) * Real.cosh x.val ^ 2 := by
  obtain ⟨-, c⟩ := C188_cosh he (d1.trans (by norm_num)) hx h
  obtain ⟨-, s⟩ := C188_sinh he (d1.trans (by norm_num)) hx h
  have id := Real.cosh_sq (x.val : ℝ)
  have c1 := Real.one_le_cosh (x.val : ℝ)
  have hs : |Real.sinh x.val| ≤ Real.cosh x.val := by
    rw [Real.sinh_eq, Real.cosh_eq, abs_le]
    have := Real.exp_pos x.val
    have := Real.exp_pos (-x.val)
    constructor <;> linarith
  obtain ⟨e, hee⟩ : ∃ e : ℝ, e = δ + 1 / 2 ^ 21 := ⟨_, rfl⟩
  rw [← hee] at c s ⊢
  have e0 : 0 ≤ e := by rw [hee]; positivity
  have e1 : e ≤ 1 / 2 := by rw [hee]; norm_num; linarith
  generalize ((cosh exp x).val : ℝ) = p at *
  generalize ((sinh exp x).val : ℝ) = q at *
  generalize Real.cosh x.val = C at *
  generalize Real.sinh x.val = S at *
  have k : p ^ 2 - q ^ 2 - 1 = (p - C) * (2 * C) + (p - C) ^ 2 - ((q - S) * (2 * S) + (q - S) ^ 2) := by
    have : C ^ 2 - S ^ 2 = 1 := by linarith
    linear_combination this
  rw [k]
  have m1 : |(p - C) * (2 * C)| ≤ e * C * (2 * C) := by
    rw [abs_mul, abs_of_pos (show 0 < 2 * C by linarith)]
    exact mul_le_mul_of_nonneg_right c (by linarith)
  have m2 : |(q - S) * (2 * S)| ≤ e * C * (2 * C) := by
    rw [abs_mul, abs_mul, abs_of_pos (by norm_num : (0:ℝ) < 2)]
    exact mul_le_mul s (by linarith) (by positivity) (by positivity)
  have m3 : (p - C) ^ 2 ≤ (e * C) ^ 2 := by rw [← sq_abs]; exact pow_le_pow_left₀ (abs_nonneg _) c 2
  have m4 : (q - S) ^ 2 ≤ (e * C) ^ 2 := by rw [← sq_abs]; exact pow_le_pow_left₀ (abs_nonneg _) s 2
  have m5 : (e * C) ^ 2 ≤ 1 / 2 * (e * C ^ 2) := by
    have : 0 ≤ e * C ^ 2 := by positivity
    nlinarith
  have := sq_nonneg (p - C)
  have := sq_nonneg (q - S)
  have := abs_le.1 m1
  have := abs_le.1 m2
  have : 0 ≤ e * C ^ 2 := by positivity
  rw [abs_le]
  constructor <;> nlinarith

/-- With an exponential good to 10^-6, the two values of the documentation, sinh 1 = 1.1752 and cosh 1 = 1.543, come out to five digits. -/
example (he : ExpWithin (1 / 10 ^ 6) exp) : |((sinh exp (lit 1)).val : ℝ) - 1.17520119| ≤ 1 / 10 ^ 5 ∧ |((cosh exp (lit 1)).val : ℝ) - 1.5430806| ≤ 1 / 10 ^ 5 := by
  have hb : |(lit 1 : F32).val| ≤ 80 := by rw [lit1_val]; norm_num
  have c := (C188_cosh he (by norm_num) lit1_fin hb).2
  have s := (C188_sinh he (by norm_num) lit1_fin hb).2
  rw [lit1_val, Rat.cast_one] at c s
  have g := Real.exp_one_gt_d9
  have l := Real.exp_one_lt_d9
  have i1 : Real.exp (-1) ≤ 1 / 2.7182818283 := by
    rw [Real.exp_neg, ← one_div]; exact one_div_le_one_div_of_le (by norm_num) g.le
  have i2 : 1 / 2.7182818286 ≤ Real.exp (-1) := by
    rw [Real.exp_neg, ← one_div]; exact one_div_le_one_div_of_le (Real.exp_pos _) l.le
  rw [Real.cosh_eq] at c s
  rw [Real.sinh_eq] at s
  rw [abs_le] at c s ⊢
  rw [abs_le]
  norm_num at c s i1 i2 g l ⊢
  refine ⟨⟨?_, ?_⟩, ?_, ?_⟩ <;> linarith

/-- Exponentials that meet the contract exist. -/
example : ∃ exp, ExpWithin (1 / 10 ^ 6) exp := by
  have key : ∀ y : F32, ∃ r : F32, y.isFin = true → |y.val| ≤ 80 → r.isFin = true ∧ |(r.val : ℝ) - Real.exp y.val| ≤ 1 / 10 ^ 6 * Real.exp y.val := by
    intro y
    have hp := Real.exp_pos (y.val : ℝ)
    obtain ⟨q, hq1, hq2⟩ := exists_rat_btwn (show (1 - 1 / 10 ^ 7) * Real.exp y.val < Real.exp y.val by linarith)
    refine ⟨rnd false q, fun hy h => ?_⟩
    have h' : |(y.val : ℝ)| ≤ 80 := by exact_mod_cast h
    obtain ⟨y0, y1⟩ := abs_le.1 h'
    have p1 := exp_eighty y1
    have p0 : 1 / 2 ^ 116 ≤ Real.exp y.val := by
      have := exp_eighty (show -(y.val : ℝ) ≤ 80 by linarith)
      rw [Real.exp_neg, inv_le_comm₀ hp (by positivity)] at this
      rwa [one_div]
    have q0 : (0:ℝ) < q := lt_trans (by positivity) hq1
    have q0' : 0 < q := by exact_mod_cast q0
    have q1' : q ≤ 2 ^ 116 := by have : (q:ℝ) ≤ 2 ^ 116 := hq2.le.trans p1; exact_mod_cast this
    have q2' : 1 / 2 ^ 126 ≤ |q| := by
      rw [abs_of_pos q0']
      have : (1:ℝ) / 2 ^ 126 ≤ q := by norm_num at p0 hq1 ⊢; linarith
      have : (((1:ℚ) / 2 ^ 126 : ℚ) : ℝ) ≤ q := by push_cast; exact this
      exact_mod_cast this
    have hf : (rnd false q).isFin = true := rnd_fin_of_lt (by rw [abs_of_pos q0']; exact lt_of_le_of_lt q1' (by norm_num))
    refine ⟨hf, ?_⟩
    have he := rnd_rel_error hf q2'
    rw [abs_of_pos q0'] at he
    have := (Rat.cast_le (K := ℝ)).2 he
    push_cast at this
    rw [abs_le] at this ⊢
    norm_num at this hq1 ⊢
    constructor <;> linarith
  choose f hf using key
  exact ⟨f, hf⟩

end Verif
