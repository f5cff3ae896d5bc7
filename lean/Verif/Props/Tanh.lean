import Verif.Props.FloatMath
import Verif.Lemmas.Near
import Mathlib.Analysis.SpecialFunctions.Trigonometric.DerivHyp
import Mathlib.Analysis.SpecialFunctions.Trigonometric.Deriv
import Mathlib.Analysis.Calculus.Deriv.MeanValue

/-! # C138: `tanh` against the hyperbolic tangent -/

namespace Verif
namespace FMath
open F32

/-! ## Bounds on the hyperbolic tangent -/

/-- A function with value 0 at 0 and a nonnegative derivative on `[0,∞)` is nonnegative there. -/
theorem rises_from_zero {f f' : ℝ → ℝ} (hf : ∀ x, HasDerivAt f (f' x) x) (h0 : f 0 = 0) (h : ∀ x, 0 ≤ x → 0 ≤ f' x)
    {x : ℝ} (hx : 0 ≤ x) : 0 ≤ f x := by
  have m : MonotoneOn f (Set.Ici 0) := by
    refine monotoneOn_of_deriv_nonneg (convex_Ici 0) (fun y _ => (hf y).continuousAt.continuousWithinAt)
      (fun y _ => (hf y).differentiableAt.differentiableWithinAt) fun y hy => ?_
    rw [interior_Ici] at hy
    rw [(hf y).deriv]; exact h y (le_of_lt hy)
  have := m (Set.mem_Ici.2 le_rfl) (Set.mem_Ici.2 hx) hx
  rwa [h0] at this

theorem sinh_nonneg {x : ℝ} (hx : 0 ≤ x) : 0 ≤ Real.sinh x := Real.sinh_nonneg_iff.2 hx

theorem sinh_le_mul_cosh {x : ℝ} (hx : 0 ≤ x) : 0 ≤ x * Real.cosh x - Real.sinh x := by
  refine rises_from_zero (f := fun y => y * Real.cosh y - Real.sinh y) (f' := fun y => y * Real.sinh y) (fun y => ?_) (by simp)
    (fun y hy => mul_nonneg hy (sinh_nonneg hy)) hx
  have := ((hasDerivAt_id y).mul (Real.hasDerivAt_cosh y)).sub (Real.hasDerivAt_sinh y)
  exact this.congr_deriv (by simp)

theorem tanh_lower_aux {x : ℝ} (hx : 0 ≤ x) : 0 ≤ Real.sinh x * (3 + x ^ 2) - 3 * x * Real.cosh x := by
  refine rises_from_zero (f := fun y => Real.sinh y * (3 + y ^ 2) - 3 * y * Real.cosh y)
    (f' := fun y => y * (y * Real.cosh y - Real.sinh y)) (fun y => ?_) (by simp)
    (fun y hy => mul_nonneg hy (sinh_le_mul_cosh hy)) hx
  have := ((Real.hasDerivAt_sinh y).mul (((hasDerivAt_id y).pow 2).const_add 3)).sub
    (((hasDerivAt_id y).const_mul 3).mul (Real.hasDerivAt_cosh y))
  exact this.congr_deriv (by simp; ring)

theorem tanh_upper_aux {x : ℝ} (hx : 0 ≤ x) : 0 ≤ Real.cosh x * (15 * x + x ^ 3) - Real.sinh x * (15 + 6 * x ^ 2) := by
  refine rises_from_zero (f := fun y => Real.cosh y * (15 * y + y ^ 3) - Real.sinh y * (15 + 6 * y ^ 2))
    (f' := fun y => y * (Real.sinh y * (3 + y ^ 2) - 3 * y * Real.cosh y)) (fun y => ?_) (by simp)
    (fun y hy => mul_nonneg hy (tanh_lower_aux hy)) hx
  have := ((Real.hasDerivAt_cosh y).mul (((hasDerivAt_id y).const_mul 15).add ((hasDerivAt_id y).pow 3))).sub
    ((Real.hasDerivAt_sinh y).mul ((((hasDerivAt_id y).pow 2).const_mul 6).const_add 15))
  exact this.congr_deriv (by simp; ring)

/-- Two convergents of the continued fraction of the hyperbolic tangent enclose it. -/
theorem tanh_enclosure {x : ℝ} (hx : 0 ≤ x) :
    3 * x / (3 + x ^ 2) ≤ Real.tanh x ∧ Real.tanh x ≤ (15 * x + x ^ 3) / (15 + 6 * x ^ 2) := by
  have c := Real.cosh_pos x
  rw [Real.tanh_eq_sinh_div_cosh, div_le_div_iff₀ (by positivity) c, div_le_div_iff₀ c (by positivity)]
  constructor
  · have := tanh_lower_aux hx; linarith
  · have := tanh_upper_aux hx; linarith

/-! ## C138 -/

/-- C138 in exact arithmetic, for positive arguments: below the hyperbolic tangent by at most a sixth of the
cube, and not by much less for small arguments. -/
theorem C138_exact {x : ℝ} (hx : 0 ≤ x) :
    x ^ 3 / ((3 + x ^ 2) * (2 + x ^ 2)) ≤ Real.tanh x - tanh x ∧ Real.tanh x - tanh x ≤ x ^ 3 / 6 ∧ (x ≤ 1 → Real.tanh x - tanh x ≤ 2 / 21) := by
  obtain ⟨h1, h2⟩ := tanh_enclosure hx
  have p1 : 0 < 1 + x ^ 2 / 2 := by positivity
  have e : tanh x = 2 * x / (2 + x ^ 2) := by rw [tanh_eq]; field_simp
  rw [e]
  have d : (15 * x + x ^ 3) / (15 + 6 * x ^ 2) - 2 * x / (2 + x ^ 2) = x ^ 3 * (5 + x ^ 2) / ((15 + 6 * x ^ 2) * (2 + x ^ 2)) := by
    field_simp; ring
  have d' : 3 * x / (3 + x ^ 2) - 2 * x / (2 + x ^ 2) = x ^ 3 / ((3 + x ^ 2) * (2 + x ^ 2)) := by field_simp; ring
  refine ⟨d' ▸ sub_le_sub_right h1 _, ?_, fun h => ?_⟩
  · refine (sub_le_sub_right h2 _).trans ?_
    rw [d, div_le_div_iff₀ (by positivity) (by norm_num)]
    nlinarith [pow_nonneg hx 3, pow_nonneg hx 5, pow_nonneg hx 7]
  · refine (sub_le_sub_right h2 _).trans ?_
    rw [d, div_le_div_iff₀ (by positivity) (by norm_num)]
    have a : x ^ 2 ≤ 1 := pow_le_one₀ hx h
    have b : x ^ 3 ≤ x ^ 2 := pow_le_pow_of_le_one hx h (by norm_num)
    have c : x ^ 5 ≤ x ^ 4 := pow_le_pow_of_le_one hx h (by norm_num)
    have c2 : x ^ 4 ≤ x ^ 2 := pow_le_pow_of_le_one hx h (by norm_num)
    nlinarith [sq_nonneg x]

/-- Division of a float near `v` by a float near `w`, the latter of size 1 or more. -/
theorem _root_.Verif.Near.divBy {x y : F32} {v w e f B : ℚ} (hx : Near x v e) (hy : Near y w f) (h1 : 1 ≤ |w|) (h2 : f ≤ 1 / 2)
    (hB : |v / w| ≤ B) (h : B + 2 * (e + B * f) ≤ 2 ^ 100) :
    Near (x / y) (v / w) (2 * (e + B * f) + (1 / 2 ^ 150 + (B + 2 * (e + B * f)) / 2 ^ 24)) := by
  have w0 : w ≠ 0 := by rintro rfl; norm_num at h1
  have yb : 1 / 2 ≤ |y.val| := by
    have := abs_sub_abs_le_abs_sub w y.val
    rw [abs_sub_comm] at this
    linarith [hy.2]
  have y0 : y.val ≠ 0 := by intro h0; rw [h0, abs_zero] at yb; norm_num at yb
  have k : |x.val / y.val - v / w| ≤ 2 * (e + B * f) := by
    rw [show x.val / y.val - v / w = ((x.val - v) - v / w * (y.val - w)) / y.val by field_simp; ring, abs_div,
      div_le_iff₀ (by linarith)]
    have n : |(x.val - v) - v / w * (y.val - w)| ≤ e + B * f := by
      refine (abs_sub _ _).trans (add_le_add hx.2 ?_)
      rw [abs_mul]
      exact mul_le_mul hB hy.2 (abs_nonneg _) ((abs_nonneg _).trans hB)
    have p : 0 ≤ e + B * f := (abs_nonneg _).trans n
    nlinarith
  have k2 : |x.val / y.val| ≤ B + 2 * (e + B * f) := by
    have := abs_sub_abs_le_abs_sub (x.val / y.val) (v / w)
    linarith
  obtain ⟨h3, h4⟩ := div_near hx.1 hy.1 y0 k2 h
  refine ⟨h3, ?_⟩
  rw [show (x / y).val - v / w = (x.val / y.val - v / w) + ((x / y).val - x.val / y.val) by ring]
  exact (abs_add_le _ _).trans (add_le_add k h4)

theorem expApprox_near {x : F32} {v : ℚ} (hx : Near x v 0) (h : |v| ≤ 1) :
    Near (expApprox x) (1 + v + v * v / 2) (1 / 2 ^ 21) := by
  have a := abs_le.1 h
  have n1 := near1.add hx (B := 2) (by rw [abs_le]; constructor <;> linarith) (by norm_num)
  have n2 := hx.mul hx h h (by norm_num)
  have vv : |v * v| ≤ 1 := by rw [abs_mul]; exact mul_le_one₀ h (abs_nonneg _) h
  have n3 := n2.divExact lit2_fin (by rw [lit2_val]; norm_num) vv (by norm_num)
  rw [lit2_val] at n3
  have b := abs_le.1 vv
  exact (n1.add n3 (B := 3) (by rw [abs_le]; constructor <;> linarith) (by norm_num)).mono (by norm_num)

/-- C138, rounding alone: on `[-1,1]` the float code is within `2^-17` of the exact value of its formula. -/
theorem tanh_near {x : F32} (hx : x.isFin = true) (h : |x.val| ≤ 1) : Near (tanh x) (tanh x.val) (1 / 2 ^ 17) := by
  have hn : Near (-x) (-x.val) 0 := ⟨by simpa using hx, by rw [val_neg']; simp⟩
  have e1 := expApprox_near (Near.refl hx) h
  have e2 := expApprox_near hn (by rwa [abs_neg])
  have a := abs_le.1 h
  have sq : x.val * x.val ≤ 1 := by nlinarith
  have sq0 := mul_self_nonneg x.val
  have d := e1.sub e2 (B := 2) (by rw [abs_le]; constructor <;> linarith) (by norm_num)
  have s := e1.add e2 (B := 3) (by rw [abs_le]; constructor <;> linarith) (by norm_num)
  have dh := d.divExact lit2_fin (by rw [lit2_val]; norm_num) (V := 2) (by rw [abs_le]; constructor <;> linarith) (by norm_num)
  have sh := s.divExact lit2_fin (by rw [lit2_val]; norm_num) (V := 3) (by rw [abs_le]; constructor <;> linarith) (by norm_num)
  rw [lit2_val] at dh sh
  have q := dh.divBy sh (B := 1) (by rw [le_abs]; left; linarith) (by norm_num)
    (by rw [abs_div, div_le_one (by rw [abs_pos]; apply ne_of_gt; linarith)]; rw [abs_of_pos (a := (_ + _ : ℚ) / 2) (by linarith), abs_le]
        constructor <;> linarith) (by norm_num)
  have ev : tanh x.val = (1 + x.val + x.val * x.val / 2 - (1 + -x.val + -x.val * -x.val / 2)) / 2 /
      ((1 + x.val + x.val * x.val / 2 + (1 + -x.val + -x.val * -x.val / 2)) / 2) := by
    unfold tanh expApprox; rfl
  rw [ev]
  exact q.mono (by norm_num)

theorem tanh_cast (q : ℚ) : ((tanh q : ℚ) : ℝ) = tanh (q : ℝ) := by rw [tanh_eq, tanh_eq]; push_cast; rfl

/-- C138 in exact arithmetic for both signs. -/
theorem C138_exact_abs (x : ℝ) :
    |tanh x - Real.tanh x| ≤ |x| ^ 3 / 6 ∧ (|x| ≤ 1 → |tanh x - Real.tanh x| ≤ 2 / 21) := by
  have pos : ∀ y : ℝ, 0 ≤ y → |tanh y - Real.tanh y| ≤ |y| ^ 3 / 6 ∧ (|y| ≤ 1 → |tanh y - Real.tanh y| ≤ 2 / 21) := by
    intro y hy
    obtain ⟨h1, h2, h3⟩ := C138_exact hy
    have h0 : 0 ≤ Real.tanh y - tanh y := le_trans (by positivity) h1
    rw [abs_sub_comm, abs_of_nonneg h0, abs_of_nonneg hy]
    exact ⟨h2, h3⟩
  rcases le_total 0 x with h | h
  · exact pos x h
  · have := pos (-x) (by linarith)
    rwa [Real.tanh_neg, (C56_exact_partial x).1, abs_neg, neg_sub_neg, abs_sub_comm] at this

/-- C138 in float arithmetic: on `[-1,1]` the float function is within a sixth of the cube (and `2^-17` for rounding) of the
hyperbolic tangent, and within a tenth everywhere. -/
theorem C138_float {x : F32} (hx : x.isFin = true) (h : |x.val| ≤ 1) :
    (tanh x).isFin = true ∧ |((tanh x).val : ℝ) - Real.tanh x.val| ≤ |(x.val : ℝ)| ^ 3 / 6 + 1 / 2 ^ 17 ∧
      |((tanh x).val : ℝ) - Real.tanh x.val| ≤ 1 / 10 := by
  obtain ⟨hf, hn⟩ := tanh_near hx h
  obtain ⟨e1, e2⟩ := C138_exact_abs (x.val : ℝ)
  have h' : |(x.val : ℝ)| ≤ 1 := by exact_mod_cast h
  have e2 := e2 h'
  have hn' : |((tanh x).val : ℝ) - tanh (x.val : ℝ)| ≤ 1 / 2 ^ 17 := by
    rw [← tanh_cast]
    have := (Rat.cast_le (K := ℝ)).2 hn
    push_cast at this
    exact this
  have t := abs_sub_le ((tanh x).val : ℝ) (tanh (x.val : ℝ)) (Real.tanh x.val)
  refine ⟨hf, by linarith, ?_⟩
  have : (1:ℝ) / 2 ^ 17 + 2 / 21 ≤ 1 / 10 := by norm_num
  linarith

/-- Half meets the hypotheses of C138; there the function returns 4/9 (rounded) while the hyperbolic tangent is about 0.462. -/
example : (lit (1/2) : F32).isFin = true ∧ |(lit (1/2) : F32).val| ≤ 1 ∧ (tanh (lit (1/2) : F32)) = lit (4/9) := by decide +kernel

/-! ## Large arguments -/

/-- Adding something far smaller leaves a float as it is. -/
theorem absorbs {s : Bool} {w : F32} {d : ℚ} (hw : w.isFin = true) (w0 : 1 ≤ w.val) (w1 : w.val ≤ 2 ^ 127) (hd : |d| ≤ w.val / 2 ^ 27) :
    (rnd s (d + w.val)).isFin = true ∧ (rnd s (d + w.val)).val = w.val := by
  have hd' := abs_le.1 hd
  have big : (2:ℚ) ^ 127 + 2 ^ 127 / 2 ^ 27 < 2 ^ 128 - 2 ^ 103 := by norm_num
  have hf : (rnd s (d + w.val)).isFin = true := by
    refine rnd_fin_of_lt ?_
    have : w.val / 2 ^ 27 ≤ 2 ^ 127 / 2 ^ 27 := div_le_div_of_nonneg_right w1 (by positivity)
    have : w.val / 2 ^ 27 ≤ w.val := div_le_self (by linarith) (by norm_num)
    rw [abs_of_nonneg (by linarith)]; linarith
  refine ⟨hf, ?_⟩
  have near := rnd_nearest (y := w) hf
  rw [show w.val - (d + w.val) = -d by ring, abs_neg] at near
  have n1 := abs_le.1 (near.trans hd)
  generalize rnd s (d + w.val) = r at hf n1
  have dist : |r.val - w.val| ≤ w.val / 2 ^ 26 := by
    rw [abs_le]; constructor <;> norm_num at hd' n1 ⊢ <;> linarith
  obtain ⟨k, k0, k1⟩ := exists_mem_Ico_zpow (x := w.val) (y := 2) (by linarith) (by norm_num)
  have kn : 0 ≤ k := by
    by_contra hk
    have : (2:ℚ) ^ (k + 1) ≤ 2 ^ (0:ℤ) := zpow_le_zpow_right₀ (by norm_num) (by omega)
    rw [zpow_zero] at this
    linarith
  have r1 : (2:ℚ) ^ (23 + (k - 24)) ≤ |r.val| := by
    rw [show 23 + (k - 24) = k - 1 by ring, zpow_sub_one₀ (by norm_num)]
    have := (abs_le.1 dist).1
    have := le_abs_self r.val
    norm_num at *
    linarith
  have r2 : (2:ℚ) ^ (23 + (k - 24)) ≤ |w.val| := by
    rw [show 23 + (k - 24) = k - 1 by ring, zpow_sub_one₀ (by norm_num), abs_of_nonneg (by linarith)]
    have : (0:ℚ) < 2 ^ k := by positivity
    norm_num
    linarith
  obtain ⟨m, hm⟩ := grid_of_ge hf (by omega) r1
  obtain ⟨n, hn⟩ := grid_of_ge hw (by omega) r2
  have u0 : (0:ℚ) < 2 ^ (k - 24) := by positivity
  have lt : |r.val - w.val| < 2 ^ (k - 24) := by
    refine dist.trans_lt ?_
    rw [div_lt_iff₀ (by positivity), show (2:ℚ) ^ (k - 24) * 2 ^ 26 = 2 ^ (k + 2) by
      rw [← zpow_natCast (2:ℚ) 26, ← zpow_add₀ (by norm_num)]; congr 1; push_cast; ring]
    exact k1.trans (zpow_lt_zpow_right₀ (by norm_num) (by omega))
  rw [hm, hn, ← sub_mul, abs_mul, abs_of_pos u0] at lt
  have : |(m:ℚ) - n| < 1 := by
    by_contra h
    exact absurd lt (not_lt.2 (le_mul_of_one_le_left u0.le (not_lt.1 h)))
  have : |m - n| < 1 := by exact_mod_cast this
  rw [hm, hn, show m = n by have := Int.abs_lt_one_iff.1 this; omega]

/-- From `2^30` on the exponential sees only the square. -/
theorem expApprox_far {x : F32} (hx : x.isFin = true) (h : 2 ^ 30 ≤ |x.val|) (h' : |x.val| < 2 ^ 64) :
    (expApprox x).isFin = true ∧ (expApprox x).val = (rnd false (x.val * x.val) / lit 2).val ∧ 1 ≤ (expApprox x).val ∧
      (expApprox x).val ≤ 2 ^ 127 - 2 ^ 103 := by
  have top : |x.val| ≤ 2 ^ 64 - 2 ^ 40 := by
    rcases le_total (2 ^ 63) |x.val| with hb | hb
    · obtain ⟨n, hn⟩ := grid_of_ge hx (j := 40) (by norm_num) (by norm_num at hb ⊢; linarith)
      rw [hn] at h' ⊢
      rw [abs_mul, abs_of_pos (a := (2:ℚ) ^ (40:ℤ)) (by positivity)] at h' ⊢
      have : |(n:ℚ)| < 2 ^ 24 := by norm_num at h' ⊢; linarith
      have : |n| < 2 ^ 24 := by exact_mod_cast this
      have : |n| ≤ 2 ^ 24 - 1 := by omega
      have : |(n:ℚ)| ≤ 2 ^ 24 - 1 := by exact_mod_cast this
      norm_num at this ⊢
      linarith
    · refine hb.trans (by norm_num)
  have sq : x.val * x.val = |x.val| * |x.val| := (abs_mul_abs_self _).symm
  obtain ⟨X, hX⟩ : ∃ X, X = |x.val| := ⟨_, rfl⟩
  rw [← hX] at h h' top sq
  have lowX : 2 ^ 30 * X ≤ X * X := mul_le_mul_of_nonneg_right h (by linarith [show (0:ℚ) ≤ 2 ^ 30 by norm_num])
  have topX : X * X ≤ (2 ^ 64 - 2 ^ 40) * (2 ^ 64 - 2 ^ 40) := mul_le_mul top top (by linarith [show (0:ℚ) ≤ 2 ^ 30 by norm_num]) (by norm_num)
  -- the square
  have zf : (rnd false (x.val * x.val)).isFin = true := by
    refine rnd_fin_of_lt ?_
    rw [sq, abs_of_nonneg (by norm_num at h; nlinarith)]
    refine topX.trans_lt (by norm_num)
  have z1 : (rnd false (x.val * x.val)).val ≤ (2 ^ 24 - 1) * 2 ^ 104 := by
    rw [← maxFin_val]
    refine rnd_le (isFin.not_nan maxFin_fin) ?_
    rw [maxFin_val, sq]
    refine topX.trans (by norm_num)
  have ze := rnd_rel_error (s := false) zf (by rw [sq, abs_of_nonneg (by norm_num at h; nlinarith)]; norm_num at h lowX ⊢; linarith)
  rw [sq] at zf z1 ze ⊢
  rw [abs_of_nonneg (a := X * X) (by norm_num at h; nlinarith)] at ze
  have e : x * x = rnd false (X * X) := by
    rw [mul_fin hx hx, sq, rnd_sign_irrel]
    norm_num at h; nlinarith
  have z0 : 2 ^ 29 * X ≤ (rnd false (X * X)).val := by
    have := (abs_le.1 ze).1
    norm_num at this lowX h ⊢
    linarith
  generalize rnd false (X * X) = z at *
  -- its half
  have h2 : (lit 2 : F32).val ≠ 0 := by rw [lit2_val]; norm_num
  have ew : ∃ s, z / lit 2 = rnd s (z.val / 2) := ⟨_, by rw [div_fin zf lit2_fin h2, lit2_val]⟩
  obtain ⟨s, ew⟩ := ew
  have zp : 0 < z.val := lt_of_lt_of_le (by norm_num at h ⊢; linarith) z0
  have wf : (z / lit 2).isFin = true := by
    rw [ew]; exact rnd_fin zf (by rw [abs_div]; exact div_le_self (abs_nonneg _) (by norm_num))
  have we := rnd_rel_error (s := s) (by rw [← ew]; exact wf) (by
    rw [abs_of_nonneg (by linarith)]; norm_num at z0 h ⊢; linarith)
  rw [← ew, abs_of_nonneg (a := z.val / 2) (by linarith)] at we
  have w1 : (z / lit 2).val ≤ 2 ^ 127 - 2 ^ 103 := by
    have rp : Rep ((2:ℚ) ^ 127 - 2 ^ 103) := rep_of_zpow (m := 2 ^ 24 - 1) (e := 103) (by norm_num) (by norm_num) (by norm_num) (by norm_num)
    obtain ⟨y, yf, yv⟩ := rp
    rw [← yv, ew]
    refine rnd_le (isFin.not_nan yf) ?_
    rw [yv]; norm_num at z1 ⊢; linarith
  have w0 : 2 ^ 27 * (101 / 100 * X) ≤ (z / lit 2).val := by
    have := (abs_le.1 we).1
    norm_num at this z0 h ⊢
    linarith
  generalize hzw : z / lit 2 = w at *
  -- the sum
  obtain ⟨t, ed⟩ : ∃ t, lit 1 + x = rnd t (1 + x.val) := ⟨_, by rw [add_fin lit1_fin hx, lit1_val]⟩
  have d0 : |1 + x.val| ≤ X + 1 := by rw [hX]; exact (abs_add_le _ _).trans (by rw [abs_one, add_comm])
  obtain ⟨df, db⟩ := rnd_pow_bound (s := t) (q := 1 + x.val) (k := 65) (by norm_num) (d0.trans (by norm_num at h' ⊢; linarith))
  have de := (abs_le.1 (rnd_abs_error_max df))
  rw [← ed] at de df
  have dX : |(lit 1 + x).val| ≤ 101 / 100 * X := by
    have := abs_le.1 d0
    generalize (lit 1 + x).val = d at de
    generalize |1 + x.val| = A at de d0
    rw [abs_le]
    norm_num at de h ⊢
    constructor <;> linarith
  have a := absorbs (s := (lit 1 + x).neg && w.neg) wf (by norm_num at w0 h ⊢; linarith) (w1.trans (by norm_num)) (d := (lit 1 + x).val)
    (dX.trans (by rw [le_div_iff₀ (by positivity)]; linarith))
  have ea : expApprox x = rnd ((lit 1 + x).neg && w.neg) ((lit 1 + x).val + w.val) := by
    unfold expApprox
    rw [e, hzw, add_fin df wf]
  rw [ea]
  exact ⟨a.1, a.2, by rw [a.2]; norm_num at w0 h ⊢; linarith, by rw [a.2]; exact w1⟩

/-- C56: from `2^30` up to `2^64` the float function has fallen all the way to 0. -/
theorem C56_far_actual {x : F32} (hx : x.isFin = true) (h : 2 ^ 30 ≤ |x.val|) (h' : |x.val| < 2 ^ 64) :
    (tanh x).isFin = true ∧ (tanh x).val = 0 := by
  obtain ⟨af, av, a0, a1⟩ := expApprox_far hx h h'
  obtain ⟨bf, bv, -, -⟩ := expApprox_far (x := -x) (by simpa using hx) (by rwa [val_neg', abs_neg]) (by rwa [val_neg', abs_neg])
  rw [val_neg', neg_mul_neg, ← av] at bv
  unfold tanh
  generalize expApprox x = a at *
  generalize expApprox (-x) = b at *
  simp only
  have h2 : (lit 2 : F32).val ≠ 0 := by rw [lit2_val]; norm_num
  obtain ⟨sf, sv⟩ := sub_exact af bf (by rw [bv, sub_self]; exact rep_zero)
  rw [bv, sub_self] at sv
  obtain ⟨hf, hv⟩ := div_exact sf lit2_fin h2 (by rw [sv, zero_div]; exact rep_zero)
  rw [sv, zero_div] at hv
  have cf : (a + b).isFin = true := by
    rw [add_fin af bf, bv]
    refine rnd_fin_of_lt ?_
    rw [abs_of_nonneg (by linarith)]; norm_num at a1 ⊢; linarith
  have c0 : 1 ≤ (a + b).val := by
    rw [add_fin af bf]
    have := le_rnd (s := a.neg && b.neg) (y := lit 1) (isFin.not_nan lit1_fin) (q := a.val + b.val) (by rw [lit1_val]; linarith)
    rwa [lit1_val] at this
  have kf : ((a + b) / lit 2).isFin = true := by
    rw [div_fin cf lit2_fin h2, lit2_val]; exact rnd_fin cf (by rw [abs_div]; exact div_le_self (abs_nonneg _) (by norm_num))
  have k0 : ((a + b) / lit 2).val ≠ 0 := by
    rw [div_fin cf lit2_fin h2, lit2_val]
    have := le_rnd (s := (a + b).neg != (lit 2 : F32).neg) (y := lit (1/2)) (isFin.not_nan lithalf_fin) (q := (a + b).val / 2) (by rw [lithalf_val]; linarith)
    rw [lithalf_val] at this
    linarith
  obtain ⟨f, v⟩ := div_exact hf kf k0 (by rw [hv, zero_div]; exact rep_zero)
  exact ⟨f, by rw [v, hv, zero_div]⟩

/-- C56, the exact extent of the bound: a finite argument gives a number of `[-1, 1]` if and only if it is below `2^64` in size. -/
theorem C56_bounded_actual {x : F32} (hx : x.isFin = true) : (tanh x).isNaN = false ∧ |(tanh x).val| ≤ 1 ↔ |x.val| < 2 ^ 64 := by
  constructor
  · rintro ⟨h, -⟩
    by_contra hc
    rw [C56_overflow_actual hx (not_lt.1 hc)] at h
    exact absurd h (by decide)
  · intro h
    rcases le_total |x.val| (2 ^ 62) with hb | hb
    · obtain ⟨f, b, -⟩ := C56_float_partial hx hb
      exact ⟨isFin.not_nan f, b⟩
    · obtain ⟨f, v⟩ := C56_far_actual hx ((by norm_num : (2:ℚ) ^ 30 ≤ 2 ^ 62).trans hb) h
      exact ⟨isFin.not_nan f, by rw [v]; norm_num⟩

/-- At a thousand million the approximation returns 0, the hyperbolic tangent is 1. -/
example : (lit (2 ^ 30) : F32).isFin = true ∧ (tanh (lit (2 ^ 30) : F32)).val = 0 := by decide +kernel

end FMath
end Verif
