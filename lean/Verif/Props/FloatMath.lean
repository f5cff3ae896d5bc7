import Verif.Props.Butterworth
import Verif.F32.Extra
import Mathlib.Analysis.SpecialFunctions.Trigonometric.ArctanDeriv
import Mathlib.Analysis.SpecialFunctions.Trigonometric.DerivHyp
import Mathlib.Analysis.Real.Pi.Bounds
import Verif.Lemmas.SinBounds

/-! # C54 – C57: Simpson's rule, tangent, hyperbolic functions -/

namespace Verif
open F32 FMath

/-! ## C54 -/

/-- Composite Simpson rule on `2k` intervals: weights 1, 4, 2, 4, …, 2, 4, 1. -/
def compositeSimpson {α : Type} [Field α] (k : Nat) (f : α → α) (a b : α) : α :=
  let h := (b - a) / (2 * k)
  h / 3 * (f a + 4 * ∑ j ∈ Finset.range k, f (a + (2 * j + 1) * h) +
    2 * ∑ j ∈ Finset.range (k - 1), f (a + (2 * j + 2) * h) + f b)

/-- Composite midpoint rule on `k` intervals. -/
def midpointRule {α : Type} [Field α] (k : Nat) (f : α → α) (a b : α) : α :=
  let h := (b - a) / (2 * k)
  2 * h * ∑ j ∈ Finset.range k, f (a + (2 * j + 1) * h)

section
variable {α : Type} [Field α] [CharZero α]

omit [CharZero α] in
theorem fsum_eq (xs : List α) : fsum xs = xs.sum := by
  have h : ∀ (ys : List α) (z : α), ys.foldl (· + ·) z = z + ys.sum := by
    intro ys
    induction ys with
    | nil => simp
    | cons y ys ih => intro z; rw [List.foldl_cons, ih, List.sum_cons]; ring
  unfold fsum; rw [h]; simp [Lit.lit]

omit [CharZero α] in
theorem sum_stepBy2 (g : Nat → α) : ∀ (n s : Nat),
    (stepBy2 ((List.range' s n).map g)).sum = ∑ j ∈ Finset.range ((n + 1) / 2), g (s + 2 * j)
  | 0, s => by simp [stepBy2]
  | 1, s => by simp [stepBy2]
  | n + 2, s => by
    have ih := sum_stepBy2 g n (s + 2)
    have e : List.range' s (n + 2) = s :: (s + 1) :: List.range' (s + 2) n := rfl
    rw [e]
    simp only [List.map_cons, stepBy2, List.sum_cons]
    rw [ih, show (n + 2 + 1) / 2 = (n + 1) / 2 + 1 by omega, Finset.sum_range_succ' _ ((n + 1) / 2), add_comm]
    congr 1
    refine Finset.sum_congr rfl fun j _ => ?_
    congr 1; ring

/-- C54, what is computed on an even number of intervals: Simpson's rule plus two thirds of the midpoint rule. -/
theorem C54_simpson_actual {f : α → M α} {g : α → α} (hf : ∀ x, f x = .ok (g x)) (k : Nat) (hk : 2 ≤ k) (a b : α) :
    simpsonsRule (2 * k) f a b = .ok (compositeSimpson k g a b + 2 / 3 * midpointRule k g a b) := by
  have hf' : f = fun x => pure (g x) := funext hf
  subst hf'
  unfold simpsonsRule
  simp only [List.mapM_pure]
  simp only [pure, Except.pure, bind, Except.bind]
  rw [if_neg (by omega), if_pos (by omega)]
  simp only [Except.ok.injEq]
  set h := (b - a) / (2 * k : α) with hh
  have hl : (b - a) / lit ((2 * k : Nat) : ℚ) = h := by rw [hh]; simp [Lit.lit]
  rw [hl]
  have hy : List.map g (List.map (fun i : Nat => a + lit (i : ℚ) * h) (List.range (2 * k))) =
      (List.range' 0 (2 * k)).map (fun i : Nat => g (a + (i : α) * h)) := by
    rw [List.map_map, List.range_eq_range']; simp [Function.comp_def, Lit.lit]
  rw [hy]
  have h1 : ((List.range' 0 (2 * k)).map (fun i : Nat => g (a + (i : α) * h))).drop 1 =
      (List.range' 1 (2 * k - 1)).map (fun i : Nat => g (a + (i : α) * h)) := by
    rw [← List.map_drop, List.drop_range']
  have h2 : (((List.range' 0 (2 * k)).map (fun i : Nat => g (a + (i : α) * h))).take (2 * k - 1)).drop 2 =
      (List.range' 2 (2 * k - 3)).map (fun i : Nat => g (a + (i : α) * h)) := by
    rw [← List.map_take, ← List.map_drop, List.take_range'_of_length_ge (by omega), List.drop_range']
    congr 2
  rw [h1, h2, fsum_eq, fsum_eq, sum_stepBy2, sum_stepBy2, show (2 * k - 1 + 1) / 2 = k by omega,
    show (2 * k - 3 + 1) / 2 = k - 1 by omega]
  unfold compositeSimpson midpointRule
  simp only [← hh]
  have s1 : ∑ j ∈ Finset.range k, g (a + ((1 + 2 * j : Nat) : α) * h) =
      ∑ j ∈ Finset.range k, g (a + (2 * (j : α) + 1) * h) :=
    Finset.sum_congr rfl fun j _ => by push_cast; rw [add_comm (1 : α)]
  have s2 : ∑ j ∈ Finset.range (k - 1), g (a + ((2 + 2 * j : Nat) : α) * h) =
      ∑ j ∈ Finset.range (k - 1), g (a + (2 * (j : α) + 2) * h) :=
    Finset.sum_congr rfl fun j _ => by push_cast; rw [add_comm (2 : α)]
  rw [s1, s2]
  simp only [Lit.lit]
  push_cast
  ring

omit [CharZero α] in
/-- C54: fewer than three intervals panic. -/
theorem C54_small_panics (f : α → M α) (hf : ∀ x, ∃ y, f x = .ok y) (n : Nat) (hn : n < 3) (a b : α) :
    simpsonsRule n f a b = .error .panic := by
  choose g hg using hf
  have hf' : f = fun x => pure (g x) := funext hg
  subst hf'
  unfold simpsonsRule
  simp only [List.mapM_pure]
  simp only [pure, Except.pure, bind, Except.bind, throw, throwThe, MonadExceptOf.throw, if_pos hn]

/-- The yardstick is right: composite Simpson is exact on cubics. -/
theorem compositeSimpson_cubic (k : Nat) (hk : 1 ≤ k) (c0 c1 c2 c3 a b : α) :
    compositeSimpson k (fun x => c0 + c1 * x + c2 * x ^ 2 + c3 * x ^ 3) a b =
      c0 * (b - a) + c1 * (b ^ 2 - a ^ 2) / 2 + c2 * (b ^ 3 - a ^ 3) / 3 + c3 * (b ^ 4 - a ^ 4) / 4 := by
  have hk0 : (k : α) ≠ 0 := by exact_mod_cast (by omega : k ≠ 0)
  unfold compositeSimpson
  simp only
  set h := (b - a) / (2 * (k : α)) with hh
  have hb : b = a + 2 * k * h := by rw [hh]; field_simp; ring
  have key : ∀ m : Nat, ∀ f : α → α, f = (fun x => c0 + c1 * x + c2 * x ^ 2 + c3 * x ^ 3) →
      h / 3 * (f a + 4 * ∑ j ∈ Finset.range (m + 1), f (a + (2 * j + 1) * h) +
        2 * ∑ j ∈ Finset.range m, f (a + (2 * j + 2) * h) + f (a + 2 * ((m : α) + 1) * h)) =
      c0 * ((a + 2 * ((m : α) + 1) * h) - a) + c1 * ((a + 2 * ((m : α) + 1) * h) ^ 2 - a ^ 2) / 2 +
        c2 * ((a + 2 * ((m : α) + 1) * h) ^ 3 - a ^ 3) / 3 + c3 * ((a + 2 * ((m : α) + 1) * h) ^ 4 - a ^ 4) / 4 := by
    intro m f hf
    induction m with
    | zero => subst hf; simp; ring
    | succ m ih =>
      rw [Finset.sum_range_succ _ (m + 1), Finset.sum_range_succ (fun j : Nat => f (a + (2 * (j : α) + 2) * h)) m]
      have e : ∀ S T : α, h / 3 * (f a + 4 * (S + f (a + (2 * ((m + 1 : Nat) : α) + 1) * h)) +
          2 * (T + f (a + (2 * (m : α) + 2) * h)) + f (a + 2 * (((m + 1 : Nat) : α) + 1) * h)) =
          h / 3 * (f a + 4 * S + 2 * T + f (a + 2 * ((m : α) + 1) * h)) +
          h / 3 * (f (a + 2 * ((m : α) + 1) * h) + 4 * f (a + (2 * ((m + 1 : Nat) : α) + 1) * h) +
            f (a + 2 * (((m + 1 : Nat) : α) + 1) * h)) := by
        intro S T
        rw [show a + (2 * (m : α) + 2) * h = a + 2 * ((m : α) + 1) * h by ring]; ring
      rw [e, ih]
      subst hf
      push_cast
      ring
  have := key (k - 1) _ rfl
  rw [Nat.sub_add_cancel hk, Nat.cast_sub hk, Nat.cast_one, sub_add_cancel, ← hb] at this
  exact this

/-- Composite midpoint is exact on affine functions. -/
theorem midpointRule_affine (k : Nat) (hk : 1 ≤ k) (c0 c1 a b : α) :
    midpointRule k (fun x => c0 + c1 * x) a b = c0 * (b - a) + c1 * (b ^ 2 - a ^ 2) / 2 := by
  have hk0 : (k : α) ≠ 0 := by exact_mod_cast (by omega : k ≠ 0)
  unfold midpointRule
  simp only
  set h := (b - a) / (2 * (k : α)) with hh
  have hb : b = a + 2 * k * h := by rw [hh]; field_simp; ring
  have key : ∀ m : Nat, 2 * h * ∑ j ∈ Finset.range m, (c0 + c1 * (a + (2 * (j : α) + 1) * h)) =
      c0 * (2 * m * h) + c1 * ((a + 2 * m * h) ^ 2 - a ^ 2) / 2 := by
    intro m
    induction m with
    | zero => simp
    | succ m ih => rw [Finset.sum_range_succ, mul_add, ih]; push_cast; ring
  rw [key k, hb]; ring

/-- C54 in full, on constants (the least demanding case). -/
def SimpsonExact : Prop :=
  ∀ (k : Nat) (c a b : ℚ), 2 ≤ k → simpsonsRule (2 * k) (fun _ => .ok c) a b = .ok (c * (b - a))

/-- C54, the strongest true form: every affine integrand comes out multiplied by 5/3. -/
theorem C54_affine_actual (k : Nat) (hk : 2 ≤ k) (c0 c1 a b : α) :
    simpsonsRule (2 * k) (fun x => .ok (c0 + c1 * x)) a b =
      .ok (5 / 3 * (c0 * (b - a) + c1 * (b ^ 2 - a ^ 2) / 2)) := by
  rw [C54_simpson_actual (fun _ => rfl) k hk]
  have h1 := compositeSimpson_cubic k (by omega) c0 c1 0 0 a b
  simp only [zero_mul, add_zero, zero_div] at h1
  rw [h1, midpointRule_affine k (by omega)]
  congr 1; ring
end

theorem C54_simpson_refuted : ¬ SimpsonExact := by
  intro h
  have h1 := h 2 1 0 1 le_rfl
  have h2 := C54_affine_actual (α := ℚ) 2 le_rfl 1 0 0 1
  simp only [zero_mul, add_zero] at h2
  rw [h2] at h1
  norm_num at h1

example : simpsonsRule 4 (fun x : ℚ => .ok x) 0 2 = .ok (10 / 3) := by decide +kernel

/-! ## C55 -/

/-- The polynomial `fast_tan` evaluates. -/
noncomputable def tanPoly (x : ℝ) : ℝ :=
  x + 1/3 * x^3 + 2/15 * x^5 + 17/315 * x^7 + 62/2835 * x^9 + 1382/155925 * x^11 + 21844/6081075 * x^13 +
    929569/638512875 * x^15

noncomputable def tanPoly' (x : ℝ) : ℝ :=
  1 + x^2 + 2/3 * x^4 + 17/45 * x^6 + 62/315 * x^8 + 1382/14175 * x^10 + 21844/467775 * x^12 +
    929569/42567525 * x^14

theorem fastTan_eq {powi : ℝ → ℕ → ℝ} (hp : PowiExact powi) (x : ℝ) : fastTan powi x = tanPoly x := by
  unfold fastTan tanPoly
  simp only [hp _ _, Lit.lit]
  push_cast
  ring

theorem tanPoly_hasDeriv (x : ℝ) : HasDerivAt tanPoly (tanPoly' x) x := by
  have hp : ∀ (n : ℕ) (c : ℝ), HasDerivAt (fun y : ℝ => c * y ^ (n + 1)) (c * ((n + 1 : ℕ) * x ^ n)) x := by
    intro n c
    simpa using (hasDerivAt_pow (n + 1) x).const_mul c
  have := (((((((hasDerivAt_id x).add (hp 2 (1/3))).add (hp 4 (2/15))).add (hp 6 (17/315))).add (hp 8 (62/2835))).add
    (hp 10 (1382/155925))).add (hp 12 (21844/6081075))).add (hp 14 (929569/638512875))
  refine (this.congr_deriv ?_)
  unfold tanPoly'; push_cast; ring

/-- `fast_tan` is a lower solution of `y' = 1 + y²`. -/
theorem tanPoly_sub (x : ℝ) : tanPoly' x ≤ 1 + tanPoly x ^ 2 := by
  have : 1 + tanPoly x ^ 2 - tanPoly' x =
      6404582/638512875 * (x^8)^2 + 19328158/5746615875 * (x^9)^2 + 33434188/28733079375 * (x^10)^2 +
      521443646/1327468267125 * (x^11)^2 + 2535845252/19912024006875 * (x^12)^2 +
      16700628356/431427186815625 * (x^13)^2 + 40611010472/3882844681340625 * (x^14)^2 +
      864098525761/407698691540765625 * (x^15)^2 := by
    unfold tanPoly tanPoly'; ring
  have h2 : 0 ≤ 1 + tanPoly x ^ 2 - tanPoly' x := by rw [this]; positivity
  linarith

theorem tanPoly'_pos (x : ℝ) : 0 < tanPoly' x := by
  have : tanPoly' x = 1 + x^2 + 2/3 * (x^2)^2 + 17/45 * (x^3)^2 + 62/315 * (x^4)^2 + 1382/14175 * (x^5)^2 +
      21844/467775 * (x^6)^2 + 929569/42567525 * (x^7)^2 := by unfold tanPoly'; ring
  rw [this]; positivity

theorem tanPoly_strictMono : StrictMono tanPoly :=
  strictMono_of_deriv_pos fun x => by rw [(tanPoly_hasDeriv x).deriv]; exact tanPoly'_pos x

theorem arctan_tanPoly_le {x : ℝ} (hx : 0 ≤ x) : Real.arctan (tanPoly x) ≤ x := by
  have hd : ∀ y, HasDerivAt (fun y => y - Real.arctan (tanPoly y)) (1 - 1 / (1 + tanPoly y ^ 2) * tanPoly' y) y :=
    fun y => (hasDerivAt_id y).sub (tanPoly_hasDeriv y).arctan
  have hm : Monotone (fun y => y - Real.arctan (tanPoly y)) := by
    refine monotone_of_deriv_nonneg (fun y => (hd y).differentiableAt) fun y => ?_
    rw [(hd y).deriv, one_div, inv_mul_eq_div, sub_nonneg, div_le_one (by positivity)]
    exact tanPoly_sub y
  have h0 : tanPoly 0 = 0 := by unfold tanPoly; norm_num
  have := hm hx
  simp only [h0, Real.arctan_zero, sub_zero] at this
  linarith

theorem tanPoly_le_tan {x : ℝ} (hx : 0 ≤ x) (h1 : x ≤ 1) : tanPoly x ≤ Real.tan x := by
  have hpi := Real.pi_gt_three
  have h := arctan_tanPoly_le hx
  rw [← Real.tan_arctan (tanPoly x)]
  rcases h.eq_or_lt with h | h
  · rw [h]
  · exact (Real.tan_lt_tan_of_lt_of_lt_pi_div_two (Real.neg_pi_div_two_lt_arctan _) (by linarith) h).le

theorem tan_one_lt : Real.tan 1 < tanPoly 1 + 1 / 1000 := by
  have h1 := sin_le_taylor (x := 1) (by norm_num) 7 (by decide)
  have h2 := taylor_le_cos (x := 1) (by norm_num) 8 (by decide) (by norm_num)
  simp only [sinT, cosT, Finset.sum_range_succ, Finset.sum_range_zero] at h1 h2
  norm_num [Nat.factorial] at h1 h2
  have hc : 0 < Real.cos 1 := by linarith
  rw [Real.tan_eq_sin_div_cos, div_lt_iff₀ hc]
  unfold tanPoly
  nlinarith

theorem tan_sub_mono : MonotoneOn (fun x => Real.tan x - tanPoly x) (Set.Icc 0 1) := by
  have hpi := Real.pi_gt_three
  have hcos : ∀ x ∈ Set.Icc (0:ℝ) 1, 0 < Real.cos x := fun x hx =>
    Real.cos_pos_of_mem_Ioo ⟨by linarith [hx.1], by linarith [hx.2]⟩
  have hd : ∀ x ∈ Set.Icc (0:ℝ) 1, HasDerivAt (fun x => Real.tan x - tanPoly x) (1 / Real.cos x ^ 2 - tanPoly' x) x :=
    fun x hx => (Real.hasDerivAt_tan (hcos x hx).ne').sub (tanPoly_hasDeriv x)
  refine monotoneOn_of_deriv_nonneg (convex_Icc 0 1) (fun x hx => (hd x hx).continuousAt.continuousWithinAt)
    (fun x hx => (hd x (interior_subset hx)).differentiableAt.differentiableWithinAt) fun x hx => ?_
  have hx := interior_subset hx
  rw [(hd x hx).deriv]
  have h1 : 1 / Real.cos x ^ 2 = 1 + Real.tan x ^ 2 := by
    have := hcos x hx
    rw [Real.tan_eq_sin_div_cos, div_pow]
    field_simp
    linarith [Real.sin_sq_add_cos_sq x]
  have h2 := tanPoly_le_tan hx.1 hx.2
  have h3 := tanPoly_sub x
  have h4 : 0 ≤ tanPoly x := by unfold tanPoly; have := hx.1; positivity
  rw [h1]; nlinarith

/-- C55: between the tangent and a thousandth below it, on `[0, 1]`. -/
theorem C55_accurate {powi : ℝ → ℕ → ℝ} (hp : PowiExact powi) {x : ℝ} (h0 : 0 ≤ x) (h1 : x ≤ 1) :
    fastTan powi x ≤ Real.tan x ∧ Real.tan x - fastTan powi x ≤ 1 / 1000 := by
  rw [fastTan_eq hp]
  refine ⟨tanPoly_le_tan h0 h1, ?_⟩
  have h2 := tan_sub_mono (Set.mem_Icc.2 ⟨h0, h1⟩) (Set.mem_Icc.2 ⟨zero_le_one, le_rfl⟩) h1
  have := tan_one_lt
  simp only at h2
  linarith

/-- C55: odd and strictly increasing. -/
theorem C55_odd_increasing {powi : ℝ → ℕ → ℝ} (hp : PowiExact powi) :
    (∀ x, fastTan powi (-x) = - fastTan powi x) ∧ StrictMono (fastTan powi) := by
  have h : fastTan powi = tanPoly := funext (fastTan_eq hp)
  rw [h]
  exact ⟨fun x => by unfold tanPoly; ring, tanPoly_strictMono⟩

example : PowiExact (fun x n => x ^ n) := fun _ _ => rfl

/-! ## C56 -/

/-- What `tanh` evaluates in exact arithmetic. -/
theorem tanh_eq {α : Type} [Field α] [CharZero α] (x : α) : tanh x = x / (1 + x ^ 2 / 2) := by
  unfold tanh expApprox
  simp only [Lit.lit]
  push_cast
  have e1 : (1 + x + x * x / 2 - (1 + -x + -x * -x / 2)) / 2 = x := by ring
  have e2 : (1 + x + x * x / 2 + (1 + -x + -x * -x / 2)) / 2 = 1 + x ^ 2 / 2 := by ring
  rw [e1, e2]

section
variable {α : Type} [Field α] [LinearOrder α] [IsStrictOrderedRing α]

/-- C56 in exact arithmetic: odd and bounded by 1 (by `1/√2`, in fact). -/
theorem C56_exact_partial (x : α) : tanh (-x) = - tanh x ∧ tanh x ^ 2 ≤ 1 / 2 := by
  have h : 0 < 1 + x ^ 2 / 2 := by positivity
  rw [tanh_eq x, tanh_eq (-x)]
  refine ⟨by rw [neg_sq, neg_div], ?_⟩
  rw [div_pow, div_le_iff₀ (by positivity)]
  nlinarith [sq_nonneg (x ^ 2 / 2 - 1)]

/-- C56: it rises up to `√2` and falls afterwards. -/
theorem C56_shape_actual {x y : α} (hx : 0 ≤ x) (hxy : x < y) :
    (y ^ 2 ≤ 2 → tanh x < tanh y) ∧ (2 ≤ x ^ 2 → tanh y < tanh x) := by
  have h1 : 0 < 1 + x ^ 2 / 2 := by positivity
  have h2 : 0 < 1 + y ^ 2 / 2 := by positivity
  rw [tanh_eq x, tanh_eq y, div_lt_div_iff₀ h1 h2, div_lt_div_iff₀ h2 h1]
  have key : y * (1 + x ^ 2 / 2) - x * (1 + y ^ 2 / 2) = (y - x) * (1 - x * y / 2) := by ring
  have hd : 0 < y - x := sub_pos.2 hxy
  constructor
  · intro h
    have : x * y < 2 := by nlinarith
    have := mul_pos hd (show 0 < 1 - x * y / 2 by linarith)
    linarith
  · intro h
    have : 2 < x * y := by nlinarith
    have := mul_pos hd (show 0 < x * y / 2 - 1 by linarith)
    linarith
end

/-- C56, the monotonicity half in full. -/
def TanhMonotone : Prop := ∀ x y : ℚ, x ≤ y → tanh x ≤ tanh y

theorem C56_monotone_refuted : ¬ TanhMonotone := by
  intro h
  have := h 2 4 (by norm_num)
  exact absurd this (not_le.2 ((C56_shape_actual (α := ℚ) (by norm_num) (by norm_num)).2 (by norm_num)))

/-! C56 in float arithmetic. -/

theorem expApprox_bounds {y : F32} (hy : y.isFin = true) (h : |y.val| ≤ 2 ^ 62) :
    (expApprox y).isFin = true ∧ 0 ≤ (expApprox y).val ∧ (expApprox y).val ≤ 2 ^ 125 ∧
      (0 ≤ y.val → 1 ≤ (expApprox y).val) := by
  unfold expApprox
  obtain ⟨s1, ea⟩ : ∃ s, (lit 1 + y : F32) = rnd s (1 + y.val) := ⟨_, by rw [add_fin lit1_fin hy, lit1_val]⟩
  obtain ⟨s2, eb⟩ : ∃ s, (y * y : F32) = rnd s (y.val * y.val) := ⟨_, mul_fin hy hy⟩
  have hy2 := abs_le.1 h
  obtain ⟨af, ab⟩ := rnd_pow_bound (s := s1) (q := 1 + y.val) (k := 63) (by norm_num) (by
    rw [abs_le]; constructor <;> linarith)
  have hq : |y.val * y.val| ≤ 2 ^ 124 := by
    rw [abs_mul, show (2:ℚ) ^ 124 = 2 ^ 62 * 2 ^ 62 by rw [← pow_add]]
    exact mul_le_mul h h (abs_nonneg _) (by positivity)
  obtain ⟨bf, bb⟩ := rnd_pow_bound (s := s2) (q := y.val * y.val) (k := 124) (by norm_num) hq
  have b0 : 0 ≤ (rnd s2 (y.val * y.val)).val := rnd_val_nonneg (mul_self_nonneg _)
  rw [← ea] at af ab
  rw [← eb] at bf bb b0
  obtain ⟨s3, ec⟩ : ∃ s, (y * y / lit 2 : F32) = rnd s ((y * y).val / 2) :=
    ⟨_, by rw [div_fin bf lit2_fin (by rw [lit2_val]; norm_num), lit2_val]⟩
  obtain ⟨cf, cb⟩ := rnd_pow_bound (s := s3) (q := (y * y).val / 2) (k := 124) (by norm_num) (by
    rw [abs_div, abs_of_pos (a := (2:ℚ)) (by norm_num)]; linarith [abs_nonneg (y * y).val])
  have c0 : 0 ≤ (rnd s3 ((y * y).val / 2)).val := rnd_val_nonneg (by linarith)
  have hsum : 0 ≤ (lit 1 + y).val + (rnd s3 ((y * y).val / 2)).val := by
    rcases le_or_gt 0 (1 + y.val) with hp | hp
    · have : 0 ≤ (lit 1 + y).val := by rw [ea]; exact rnd_val_nonneg hp
      linarith
    · have hn : (lit 1 + y).val ≤ 0 := by rw [ea]; exact rnd_val_nonpos hp.le
      have herr : |(lit 1 + y).val - (1 + y.val)| ≤ 1 / 2 ^ 150 + |1 + y.val| / 2 ^ 24 := by
        have hf := af; rw [ea] at hf ⊢
        exact (rnd_error hf).trans (max_le_add_of_nonneg (by positivity) (by positivity))
      rw [abs_of_neg hp] at herr
      have herr := (abs_le.1 herr).1
      have htiny : (1:ℚ) / 2 ^ 150 ≤ 1 / 4 := by
        rw [div_le_div_iff₀ (by positivity) (by norm_num)]; norm_num
      have hw : -(lit 1 + y).val * 2 ≤ y.val * y.val := by
        generalize (1:ℚ) / 2 ^ 150 = ε at herr htiny
        obtain ⟨u, hu⟩ : ∃ u : ℚ, u = -(1 + y.val) := ⟨_, rfl⟩
        have hyu : y.val = -(u + 1) := by linarith
        rw [← hu] at herr
        rw [hyu] at herr ⊢
        norm_num at herr ⊢
        nlinarith [sq_nonneg (u - 1 / 2 ^ 24)]
      obtain ⟨w2, w2f, w2v⟩ : Rep (-(lit 1 + y).val * 2) := by
        have := rep_scale (x := -(lit 1 + y)) (by simpa using af) 1 (by
          rw [val_neg', abs_mul, abs_neg]
          have : (2:ℚ) ^ 63 * 2 < 2 ^ 128 := by norm_num
          norm_num at this ⊢
          have h63 : (2:ℚ) ^ 63 = 9223372036854775808 := by norm_num
          rw [h63] at ab
          linarith)
        simpa using this
      have hb2 : -(lit 1 + y).val * 2 ≤ (y * y).val := by
        rw [← w2v, eb]; exact le_rnd (isFin.not_nan w2f) (by rw [w2v]; exact hw)
      have : -(lit 1 + y).val ≤ (rnd s3 ((y * y).val / 2)).val := by
        rw [← val_neg']
        exact le_rnd (by rw [isNaN_neg']; exact isFin.not_nan af) (by rw [val_neg']; linarith)
      linarith
  rw [← ec] at cf cb c0 hsum
  rw [add_fin af cf]
  have hab := abs_le.1 ab
  have hcb := abs_le.1 cb
  obtain ⟨rf, rb⟩ := rnd_pow_bound (s := (lit 1 + y).neg && (y * y / lit 2).neg)
    (q := (lit 1 + y).val + (y * y / lit 2).val) (k := 125) (by norm_num) (by
      have : (2:ℚ) ^ 63 + 2 ^ 124 ≤ 2 ^ 125 := by norm_num
      rw [abs_le]; constructor <;> linarith)
  refine ⟨rf, rnd_val_nonneg hsum, (abs_le.1 rb).2, fun h0 => ?_⟩
  have h1 : (1:ℚ) ≤ (lit 1 + y).val := by
    rw [ea]
    have := le_rnd (s := s1) (y := lit 1) (q := 1 + y.val) (isFin.not_nan lit1_fin) (by rw [lit1_val]; linarith)
    rwa [lit1_val] at this
  have := le_rnd (s := (lit 1 + y).neg && (y * y / lit 2).neg) (y := lit 1) (q := (lit 1 + y).val + (y * y / lit 2).val)
    (isFin.not_nan lit1_fin) (by rw [lit1_val]; linarith)
  rwa [lit1_val] at this

/-- C56 in float arithmetic: up to `2^62` the result is a number of `[-1, 1]`, and the function is odd in value. -/
theorem C56_float_partial {x : F32} (hx : x.isFin = true) (h : |x.val| ≤ 2 ^ 62) :
    (tanh x).isFin = true ∧ |(tanh x).val| ≤ 1 ∧ (tanh (-x)).val = - (tanh x).val := by
  have hx' : (-x).isFin = true := by simpa using hx
  obtain ⟨ef, e0, e1, e2⟩ := expApprox_bounds hx h
  obtain ⟨nf, n0, n1, n2⟩ := expApprox_bounds hx' (by rw [val_neg', abs_neg]; exact h)
  unfold tanh
  rw [neg_neg_eq]
  have hpos : 1 ≤ (expApprox x).val + (expApprox (-x)).val := by
    rcases le_total 0 x.val with h0 | h0
    · linarith [e2 h0]
    · linarith [n2 (by rw [val_neg']; linarith)]
  generalize expApprox x = a at *
  generalize expApprox (-x) = b at *
  simp only
  have hd : |a.val - b.val| ≤ a.val + b.val := by rw [abs_le]; constructor <;> linarith
  have hsumb : |a.val + b.val| ≤ 2 ^ 126 := by
    have : (2:ℚ) ^ 125 + 2 ^ 125 = 2 ^ 126 := by norm_num
    rw [abs_of_nonneg (by linarith)]; linarith
  obtain ⟨s1, ed⟩ : ∃ s, a - b = rnd s (a.val - b.val) := ⟨_, sub_fin ef nf⟩
  obtain ⟨s2, es⟩ : ∃ s, a + b = rnd s (a.val + b.val) := ⟨_, add_fin ef nf⟩
  obtain ⟨s3, ed'⟩ : ∃ s, b - a = rnd s (b.val - a.val) := ⟨_, sub_fin nf ef⟩
  obtain ⟨s4, es'⟩ : ∃ s, b + a = rnd s (b.val + a.val) := ⟨_, add_fin nf ef⟩
  obtain ⟨sf, -⟩ := rnd_pow_bound (s := s2) (by norm_num) hsumb
  obtain ⟨sf', -⟩ := rnd_pow_bound (s := s4) (q := b.val + a.val) (k := 126) (by norm_num) (by rw [add_comm]; exact hsumb)
  obtain ⟨df, -⟩ := rnd_pow_bound (s := s1) (by norm_num) (hd.trans ((le_abs_self _).trans hsumb))
  obtain ⟨df', -⟩ := rnd_pow_bound (s := s3) (q := b.val - a.val) (k := 126) (by norm_num)
    (by rw [abs_sub_comm]; exact hd.trans ((le_abs_self _).trans hsumb))
  have hds : |(a - b).val| ≤ (a + b).val := by rw [ed, es]; exact rnd_abs_mono hd
  have hs1 : 1 ≤ (a + b).val := by
    rw [es]
    have := le_rnd (s := s2) (y := lit 1) (isFin.not_nan lit1_fin) (q := a.val + b.val) (by rw [lit1_val]; linarith)
    rwa [lit1_val] at this
  have hdneg : (b - a).val = - (a - b).val := by rw [ed, ed', show b.val - a.val = -(a.val - b.val) by ring]; exact rnd_val_odd _ _ _
  have hseq : (b + a).val = (a + b).val := by
    rw [es, es', add_comm b.val]
    have : a.val + b.val ≠ 0 := by linarith
    rw [rnd_sign_irrel this]
  rw [← ed] at df; rw [← es] at sf; rw [← ed'] at df'; rw [← es'] at sf'
  have h2 : (lit 2 : F32).val ≠ 0 := by rw [lit2_val]; norm_num
  obtain ⟨t1, ehd⟩ : ∃ s, (a - b) / lit 2 = rnd s ((a - b).val / 2) := ⟨_, by rw [div_fin df lit2_fin h2, lit2_val]⟩
  obtain ⟨t2, ehs⟩ : ∃ s, (a + b) / lit 2 = rnd s ((a + b).val / 2) := ⟨_, by rw [div_fin sf lit2_fin h2, lit2_val]⟩
  obtain ⟨t3, ehd'⟩ : ∃ s, (b - a) / lit 2 = rnd s (-((a - b).val / 2)) :=
    ⟨_, by rw [div_fin df' lit2_fin h2, lit2_val, hdneg, neg_div]⟩
  obtain ⟨t4, ehs'⟩ : ∃ s, (b + a) / lit 2 = rnd s ((a + b).val / 2) :=
    ⟨_, by rw [div_fin sf' lit2_fin h2, lit2_val, hseq]⟩
  have hhd : |(a - b).val / 2| ≤ (a + b).val / 2 := by rw [abs_div, abs_of_pos (a := (2:ℚ)) (by norm_num)]; linarith
  have hsle : |(a + b).val / 2| ≤ |(a + b).val| := by
    rw [abs_div]; exact div_le_self (abs_nonneg _) (by norm_num)
  have hsf : ((a + b) / lit 2).isFin = true := by rw [ehs]; exact rnd_fin sf hsle
  have hsf' : ((b + a) / lit 2).isFin = true := by rw [ehs']; exact rnd_fin sf hsle
  have hdf : ((a - b) / lit 2).isFin = true := by
    rw [ehd]; exact rnd_fin sf (hhd.trans ((le_abs_self _).trans hsle))
  have hdf' : ((b - a) / lit 2).isFin = true := by
    rw [ehd']; exact rnd_fin sf (by rw [abs_neg]; exact hhd.trans ((le_abs_self _).trans hsle))
  have hfin : |((a - b) / lit 2).val| ≤ ((a + b) / lit 2).val := by rw [ehd, ehs]; exact rnd_abs_mono hhd
  have hspos : 0 < ((a + b) / lit 2).val := by
    rw [ehs]
    have := le_rnd (s := t2) (y := lit (1/2)) (isFin.not_nan lithalf_fin) (q := (a + b).val / 2) (by rw [lithalf_val]; linarith)
    rw [lithalf_val] at this; linarith
  have hvd : ((b - a) / lit 2).val = - ((a - b) / lit 2).val := by rw [ehd, ehd']; exact rnd_val_odd _ _ _
  have hvs : ((b + a) / lit 2).val = ((a + b) / lit 2).val := by
    rw [ehs, ehs', rnd_sign_irrel (t := t2) (by linarith)]
  have hq : |((a - b) / lit 2).val / ((a + b) / lit 2).val| ≤ |(lit 1 : F32).val| := by
    rw [abs_div, abs_of_pos hspos, div_le_iff₀ hspos, lit1_val]; simpa using hfin
  rw [div_fin hdf hsf hspos.ne', div_fin hdf' hsf' (by rw [hvs]; exact hspos.ne'), hvd, hvs, neg_div]
  refine ⟨rnd_fin lit1_fin hq, ?_, rnd_val_odd _ _ _⟩
  have := rnd_abs_le (s := ((a - b) / lit 2).neg != ((a + b) / lit 2).neg) hq
  rwa [lit1_val, abs_one] at this

/-- C56, the bound in full: every finite argument gives a number of `[-1, 1]`. -/
def TanhBounded : Prop := ∀ x : F32, x.isFin = true → (tanh x).isNaN = false ∧ |(tanh x).val| ≤ 1

/-- C56: beyond `2^64` both exponentials overflow and the result is NaN. -/
theorem C56_overflow_actual {x : F32} (hx : x.isFin = true) (h : 2 ^ 64 ≤ |x.val|) : (tanh x).isNaN = true := by
  have key : ∀ y : F32, y.isFin = true → 2 ^ 64 ≤ |y.val| → expApprox y = inf := by
    intro y hy hb
    have hq : (2:ℚ) ^ 128 ≤ y.val * y.val := by
      rw [← abs_mul_abs_self, show (2:ℚ) ^ 128 = 2 ^ 64 * 2 ^ 64 by rw [← pow_add]]
      exact mul_le_mul hb hb (by positivity) (abs_nonneg _)
    have hsq : y * y = inf := by
      rw [mul_fin hy hy]
      have hpos : 0 < y.val * y.val := lt_of_lt_of_le (by positivity) hq
      have hiv : inf.val = 2 ^ 128 := by rw [val_of_pos (by decide)]; exact magVal_infMag
      have hge := le_rnd (s := y.neg != y.neg) (y := inf) (by decide) (hiv.trans_le hq)
      refine ext_neg_mag ?_ ?_
      · rw [rnd_neg_of_nonneg hpos]; decide
      · refine le_antisymm ?_ ?_
        · rw [rnd_mag]; exact min_le_right _ _
        · refine mag_le_of_abs_le ?_
          rw [abs_of_pos (show (0:ℚ) < inf.val by rw [hiv]; positivity)]
          exact hge.trans (le_abs_self _)
    unfold expApprox
    rw [hsq, show (inf / lit 2 : F32) = inf by decide +kernel]
    have hf : (lit 1 + y).isFin = true := by
      rw [add_fin lit1_fin hy, lit1_val]
      refine rnd_fin_of_lt (lt_of_le_of_lt (abs_add_le _ _) ?_)
      have := fin_le_max hy
      have h2 : (1:ℚ) + (2 ^ 24 - 1) * 2 ^ 104 < 2 ^ 128 - 2 ^ 103 := by norm_num
      rw [abs_one]; linarith
    have hni : (lit 1 + y).isInf = false := by
      have := isFin_iff.1 hf
      simp only [isInf, beq_eq_false_iff_ne, ne_eq]
      omega
    show add _ inf = inf
    have hnn : (lit 1 + y).isNaN = false := isFin.not_nan hf
    unfold add
    rw [hnn, hni]
    rfl
  unfold tanh
  rw [key x hx h, key (-x) (by simpa using hx) (by rw [val_neg', abs_neg]; exact h)]
  decide +kernel

/-- C56: the bound fails for a finite argument, the code returns NaN at `2^64`. -/
theorem C56_bounded_refuted : ¬ TanhBounded := by
  intro h
  have h1 : (lit (2 ^ 64) : F32).isFin = true := by decide +kernel
  have h2 : (tanh (lit (2 ^ 64) : F32)).isNaN = true := by decide +kernel
  rw [(h _ h1).1] at h2
  exact absurd h2 (by decide)

example : (lit 3 : F32).isFin = true ∧ |(lit 3 : F32).val| ≤ 2 ^ 62 := ⟨by decide +kernel, by decide +kernel⟩
example : (2:ℚ) ^ 64 ≤ |(lit (2 ^ 65) : F32).val| := by decide +kernel

/-! ### C57 sinh and cosh -/

/-- C57 over any field of characteristic not two, for an exponential with `exp x * exp (-x) = 1`. -/
theorem C57_exact {α : Type} [Field α] [CharZero α] (exp : α → α) (hexp : ∀ x, exp x * exp (-x) = 1) (x : α) :
    cosh exp x ^ 2 - sinh exp x ^ 2 = 1 ∧ sinh exp (-x) = - sinh exp x ∧ cosh exp (-x) = cosh exp x := by
  have h := hexp x
  simp only [cosh, sinh, Lit.lit, neg_neg]
  push_cast
  refine ⟨?_, by ring, by ring⟩
  have : ((exp x + exp (-x)) * (1 / 2)) ^ 2 - ((exp x - exp (-x)) * (1 / 2)) ^ 2 = exp x * exp (-x) := by ring
  rw [this, h]

/-- C57: with the real exponential the two functions are the hyperbolic sine and cosine. -/
theorem C57_real (x : ℝ) : sinh Real.exp x = Real.sinh x ∧ cosh Real.exp x = Real.cosh x := by
  rw [Real.sinh_eq, Real.cosh_eq]
  simp only [cosh, sinh, Lit.lit]
  push_cast
  constructor <;> ring

example : ∀ x, Real.exp x * Real.exp (-x) = 1 := fun x => by rw [← Real.exp_add]; simp

theorem add_comm_bits (a b : F32) : a + b = b + a := by
  show add a b = add b a
  unfold add
  rw [add_comm a.val, Bool.and_comm a.neg, Bool.or_comm a.isNaN]
  cases hn : (b.isNaN || a.isNaN) with
  | true => rfl
  | false =>
    simp only [Bool.false_eq_true, if_false]
    cases ha : a.isInf <;> cases hb : b.isInf <;> simp only [Bool.false_eq_true, if_false, if_true, Bool.true_and, Bool.false_and]
    have e : ∀ z : F32, z.isInf = true → z.mag = infMag := fun z hz => by simpa [isInf] using hz
    by_cases hs : a.neg = b.neg
    · have : a = b := ext_neg_mag hs ((e a ha).trans (e b hb).symm)
      rw [this]
    · have h1 : (a.neg != b.neg) = true := by simpa using hs
      have h2 : (b.neg != a.neg) = true := by simpa using fun h => hs h.symm
      rw [h1, h2]
      rfl

/-- C57 in float arithmetic: `cosh` is even bit for bit, whatever `exp` returns. -/
theorem C57_cosh_even (exp : F32 → F32) (x : F32) : cosh exp (-x) = cosh exp x := by
  unfold cosh
  rw [neg_neg_eq, add_comm_bits]

theorem sub_swap {a b : F32} (ha : a.isNaN = false) (hb : b.isNaN = false) (h : a.val ≠ b.val) : b - a = -(a - b) := by
  have na : (-a).isInf = a.isInf := by unfold isInf; rw [mag_neg_bit]
  have nb : (-b).isInf = b.isInf := by unfold isInf; rw [mag_neg_bit]
  have na' : (-a).isNaN = false := by rw [isNaN_neg']; exact ha
  have nb' : (-b).isNaN = false := by rw [isNaN_neg']; exact hb
  have e : ∀ z : F32, z.isInf = true → z.mag = infMag := fun z hz => by simpa [isInf] using hz
  rw [sub_def, sub_def]
  unfold sub
  rw [ha, hb]
  simp only [Bool.or_self, Bool.false_eq_true, if_false]
  show add b (-a) = -(add a (-b))
  unfold add
  rw [ha, hb, na, nb, na', nb', neg_neg_bit, neg_neg_bit]
  simp only [Bool.or_self, Bool.false_eq_true, if_false]
  cases hia : a.isInf <;> cases hib : b.isInf <;> simp only [Bool.false_eq_true, if_false, if_true, Bool.true_and, Bool.false_and, neg_neg_eq]
  · rw [val_neg', val_neg']
    have hq : b.val + -a.val ≠ 0 := fun hc => h (by linarith)
    rw [rnd_sign_irrel (t := !(a.neg && !b.neg)) hq, show b.val + -a.val = -(a.val + -b.val) by ring]
    exact rnd_neg_bits _ _
  · have hne : a.neg ≠ b.neg := fun hc => h (by rw [ext_neg_mag hc ((e a hia).trans (e b hib).symm)])
    have : b = -a := by
      refine ext_neg_mag ?_ ?_
      · rw [neg_neg_bit]; revert hne; cases a.neg <;> cases b.neg <;> simp
      · rw [mag_neg_bit, e a hia, e b hib]
    have h1 : (b.neg != !a.neg) = false := by revert hne; cases a.neg <;> cases b.neg <;> simp
    have h2 : (a.neg != !b.neg) = false := by revert hne; cases a.neg <;> cases b.neg <;> simp
    rw [h1, h2]
    simpa using this

theorem sub_not_nan {a b : F32} (ha : a.isNaN = false) (hb : b.isNaN = false) (h : a.val ≠ b.val) :
    (a - b).isNaN = false := by
  have nb : (-b).isInf = b.isInf := by unfold isInf; rw [mag_neg_bit]
  have nb' : (-b).isNaN = false := by rw [isNaN_neg']; exact hb
  have e : ∀ z : F32, z.isInf = true → z.mag = infMag := fun z hz => by simpa [isInf] using hz
  rw [sub_def]
  unfold sub
  rw [ha, hb]
  simp only [Bool.or_self, Bool.false_eq_true, if_false]
  show (add a (-b)).isNaN = false
  unfold add
  rw [ha, nb, nb', neg_neg_bit]
  simp only [Bool.or_self, Bool.false_eq_true, if_false]
  cases hia : a.isInf <;> cases hib : b.isInf <;> simp only [Bool.false_eq_true, if_false, if_true, Bool.true_and, Bool.false_and, ha, nb']
  · exact rnd_not_nan _ _
  · have hne : a.neg ≠ b.neg := fun hc => h (by rw [ext_neg_mag hc ((e a hia).trans (e b hib).symm)])
    have h2 : (a.neg != !b.neg) = false := by revert hne; cases a.neg <;> cases b.neg <;> simp
    rw [h2]
    simpa using ha

theorem half_mul_neg {z : F32} (hz : z.isNaN = false) : (-z) * lit (1/2) = -(z * lit (1/2)) := by
  rcases hi : z.isFin with _ | _
  · have hm : z.mag = infMag := by
      have h1 : ¬ z.mag < infMag := by simpa [isFin] using hi
      have h2 : ¬ infMag < z.mag := by simpa [isNaN] using hz
      omega
    rcases hn : z.neg with _ | _
    · rw [show z = inf from ext_neg_mag (hn.trans (by decide)) (hm.trans (by decide))]; decide +kernel
    · rw [show z = -inf from ext_neg_mag (hn.trans (by decide)) (hm.trans (by decide))]; decide +kernel
  · have hi' : (-z).isFin = true := by simpa using hi
    rw [mul_fin hi lithalf_fin, mul_fin hi' lithalf_fin, neg_neg_bit, val_neg', neg_mul]
    have : ((!z.neg) != (lit (1/2) : F32).neg) = !(z.neg != (lit (1/2) : F32).neg) := by
      cases z.neg <;> cases (lit (1/2) : F32).neg <;> rfl
    rw [this]
    exact rnd_neg_bits _ _

/-- C57, the oddness of `sinh` in full, bit for bit, for every `exp` with non-NaN results. -/
def SinhOdd : Prop := ∀ (exp : F32 → F32), (∀ y, (exp y).isNaN = false) → ∀ x, sinh exp (-x) = - sinh exp x

/-- C57: where `exp x` and `exp (-x)` are different numbers, `sinh` is odd bit for bit, infinite values included. -/
theorem C57_sinh_odd_partial (exp : F32 → F32) (x : F32) (h1 : (exp x).isNaN = false) (h2 : (exp (-x)).isNaN = false)
    (hne : (exp x).val ≠ (exp (-x)).val) : sinh exp (-x) = - sinh exp x := by
  unfold sinh
  rw [neg_neg_eq, sub_swap h1 h2 hne, half_mul_neg]
  exact sub_not_nan h1 h2 hne

/-- C57: where the two exponentials are the same finite number, both values are plus zero. -/
theorem C57_sinh_zero_actual (exp : F32 → F32) (x : F32) (h1 : (exp x).isFin = true) (h : exp (-x) = exp x) :
    sinh exp x = zero ∧ sinh exp (-x) = zero := by
  have : sinh exp x = zero := by
    unfold sinh
    rw [h, sub_fin h1 h1, sub_self, rnd_zero]
    cases (exp x).neg <;> decide +kernel
  refine ⟨this, ?_⟩
  rw [← this]; unfold sinh; rw [neg_neg_eq, h]

/-- C57: oddness bit for bit fails at zero: `sinh(-0) = +0` while `-sinh(0) = -0`. -/
theorem C57_sinh_odd_refuted : ¬ SinhOdd := by
  intro h
  have := h (fun _ => lit 1) (fun _ => isFin.not_nan lit1_fin) zero
  revert this
  decide +kernel

example : ((lit 2 : F32).isNaN = false) ∧ (lit 2 : F32).val ≠ (lit (1/2) : F32).val := ⟨by decide +kernel, by decide +kernel⟩

end Verif
