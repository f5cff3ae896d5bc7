import Verif.Props.FloatMath
import Mathlib.MeasureTheory.Integral.IntervalIntegral.TrapezoidalRule

/-! # C192: what Simpson integration converges to -/

namespace Verif
open F32 FMath

/-- The rule on `2k` intervals is 8/3 of the trapezoidal rule less the trapezoidal rule on half as many intervals. -/
theorem rule_trapezoids (f : ℝ → ℝ) (a b : ℝ) {k : ℕ} (hk : 2 ≤ k) :
    compositeSimpson k f a b + 2 / 3 * midpointRule k f a b =
      8 / 3 * trapezoidal_integral f (2 * k) a b - trapezoidal_integral f k a b := by
  have hk0 : (k : ℝ) ≠ 0 := by exact_mod_cast (by omega : k ≠ 0)
  unfold compositeSimpson midpointRule trapezoidal_integral
  set h := (b - a) / (2 * (k : ℝ)) with hh
  have e1 : (b - a) / ((2 * k : ℕ) : ℝ) = h := by rw [hh]; push_cast; rfl
  have e2 : (b - a) / (k : ℝ) = 2 * h := by rw [hh]; field_simp
  have s2 : ∑ j ∈ Finset.range (k - 1), f (a + ((j : ℝ) + 1) * (b - a) / k) =
      ∑ j ∈ Finset.range (k - 1), f (a + (2 * (j : ℝ) + 2) * h) :=
    Finset.sum_congr rfl fun j _ => by rw [mul_div_assoc, e2]; ring_nf
  have s1 : ∑ j ∈ Finset.range (2 * k - 1), f (a + ((j : ℝ) + 1) * (b - a) / ((2 * k : ℕ) : ℝ)) =
      ∑ j ∈ Finset.range k, f (a + (2 * (j : ℝ) + 1) * h) + ∑ j ∈ Finset.range (k - 1), f (a + (2 * (j : ℝ) + 2) * h) := by
    have : ∀ m : ℕ, ∑ j ∈ Finset.range (2 * m + 1), f (a + ((j : ℝ) + 1) * h) =
        ∑ j ∈ Finset.range (m + 1), f (a + (2 * (j : ℝ) + 1) * h) + ∑ j ∈ Finset.range m, f (a + (2 * (j : ℝ) + 2) * h) := by
      intro m
      induction m with
      | zero => simp
      | succ m ih =>
        rw [show 2 * (m + 1) + 1 = 2 * m + 1 + 1 + 1 by ring, Finset.sum_range_succ, Finset.sum_range_succ, ih,
          Finset.sum_range_succ _ (m + 1), Finset.sum_range_succ (fun j : ℕ => f (a + (2 * (j : ℝ) + 2) * h)) m]
        have e3 : f (a + (((2 * m + 1 : ℕ) : ℝ) + 1) * h) = f (a + (2 * (m : ℝ) + 2) * h) := by push_cast; ring_nf
        have e4 : f (a + (((2 * m + 1 + 1 : ℕ) : ℝ) + 1) * h) = f (a + (2 * ((m + 1 : ℕ) : ℝ) + 1) * h) := by
          push_cast; ring_nf
        rw [e3, e4]; ring
    have t := this (k - 1)
    rw [show 2 * (k - 1) + 1 = 2 * k - 1 by omega, show k - 1 + 1 = k by omega] at t
    rw [← t]
    exact Finset.sum_congr rfl fun j _ => by rw [mul_div_assoc, e1]
  simp only [e1, e2, s1, s2]
  ring

/-- C192, what is computed on an odd number of intervals: the last two points are left out, so it is the rule on all
intervals but the last, less a third of the last point used. -/
theorem C192_odd {α : Type} [Field α] [CharZero α] {f : α → M α} {g : α → α} (hf : ∀ x, f x = .ok (g x)) (k : ℕ)
    (hk : 2 ≤ k) (a b : α) :
    simpsonsRule (2 * k + 1) f a b = .ok
      (compositeSimpson k g a (b - (b - a) / (2 * k + 1)) + 2 / 3 * midpointRule k g a (b - (b - a) / (2 * k + 1)) -
        (b - a) / (2 * k + 1) / 3 * g (b - (b - a) / (2 * k + 1))) := by
  have hk1 : (2 * (k : α) + 1) ≠ 0 := by exact_mod_cast (by omega : 2 * k + 1 ≠ 0)
  have hk0 : (k : α) ≠ 0 := by exact_mod_cast (by omega : k ≠ 0)
  have hf' : f = fun x => pure (g x) := funext hf
  subst hf'
  unfold simpsonsRule
  simp only [List.mapM_pure]
  simp only [pure, Except.pure, bind, Except.bind]
  rw [if_neg (by omega), if_neg (by omega)]
  simp only [Except.ok.injEq]
  set h := (b - a) / (2 * k + 1 : α) with hh
  have hl : (b - a) / lit ((2 * k + 1 : ℕ) : ℚ) = h := by rw [hh]; simp [Lit.lit]
  rw [hl]
  have hy : List.map g (List.map (fun i : ℕ => a + lit (i : ℚ) * h) (List.range (2 * k + 1))) =
      (List.range' 0 (2 * k + 1)).map (fun i : ℕ => g (a + (i : α) * h)) := by
    rw [List.map_map, List.range_eq_range']; simp [Function.comp_def, Lit.lit]
  rw [hy]
  have h1 : ((List.range' 0 (2 * k + 1)).map (fun i : ℕ => g (a + (i : α) * h))).drop 1 =
      (List.range' 1 (2 * k)).map (fun i : ℕ => g (a + (i : α) * h)) := by
    rw [← List.map_drop, List.drop_range']; congr 2
  have h2 : (((List.range' 0 (2 * k + 1)).map (fun i : ℕ => g (a + (i : α) * h))).take (2 * k + 1 - 1)).drop 2 =
      (List.range' 2 (2 * k - 2)).map (fun i : ℕ => g (a + (i : α) * h)) := by
    rw [← List.map_take, ← List.map_drop, List.take_range'_of_length_ge (by omega), List.drop_range']
    congr 2
  rw [h1, h2, fsum_eq, fsum_eq, sum_stepBy2, sum_stepBy2, show (2 * k + 1) / 2 = k by omega,
    show (2 * k - 2 + 1) / 2 = k - 1 by omega]
  unfold compositeSimpson midpointRule
  have hstep : (b - h - a) / (2 * (k : α)) = h := by rw [hh]; field_simp; ring
  simp only [hstep]
  have s1 : ∑ j ∈ Finset.range k, g (a + ((1 + 2 * j : ℕ) : α) * h) =
      ∑ j ∈ Finset.range k, g (a + (2 * (j : α) + 1) * h) :=
    Finset.sum_congr rfl fun j _ => by push_cast; rw [add_comm (1 : α)]
  have s2 : ∑ j ∈ Finset.range (k - 1), g (a + ((2 + 2 * j : ℕ) : α) * h) =
      ∑ j ∈ Finset.range (k - 1), g (a + (2 * (j : α) + 2) * h) :=
    Finset.sum_congr rfl fun j _ => by push_cast; rw [add_comm (2 : α)]
  rw [s1, s2]
  simp only [Lit.lit]
  push_cast
  ring

/-- Twice differentiable, with second derivative at most `ζ` on the interval. -/
structure Curved (f D E : ℝ → ℝ) (a b ζ : ℝ) : Prop where
  first : ∀ x, HasDerivAt f (D x) x
  second : ∀ x, HasDerivAt D (E x) x
  bound : ∀ x ∈ Set.uIcc a b, |E x| ≤ ζ

theorem Curved.trapezoid {f D E : ℝ → ℝ} {a b ζ : ℝ} (h : Curved f D E a b ζ) {N : ℕ} (hN : 0 < N) :
    |trapezoidal_integral f N a b - ∫ x in a..b, f x| ≤ |b - a| ^ 3 * ζ / (12 * N ^ 2) := by
  rcases eq_or_ne a b with rfl | hab
  · simp
  have hu : UniqueDiffOn ℝ (Set.uIcc a b) := uniqueDiffOn_Icc (by rcases lt_or_gt_of_ne hab with h | h <;> simp [h])
  have d1 : ∀ x ∈ Set.uIcc a b, derivWithin f (Set.uIcc a b) x = D x := fun x hx =>
    (h.first x).hasDerivWithinAt.derivWithin (hu x hx)
  have d2 : ∀ x ∈ Set.uIcc a b, derivWithin (derivWithin f (Set.uIcc a b)) (Set.uIcc a b) x = E x := fun x hx =>
    ((h.second x).hasDerivWithinAt.congr d1 (d1 x hx)).derivWithin (hu x hx)
  have z0 : 0 ≤ ζ := (abs_nonneg _).trans (h.bound a Set.left_mem_uIcc)
  refine trapezoidal_error_le (fun x _ => (h.first x).differentiableAt.differentiableWithinAt)
    (fun x hx => ((h.second x).hasDerivWithinAt.congr d1 (d1 x hx)).differentiableWithinAt) ?_ hN
  intro x
  rw [show (2 : ℕ) = 0 + 1 + 1 from rfl, iteratedDerivWithin_succ,
    show iteratedDerivWithin (0 + 1) f (Set.uIcc a b) = derivWithin f (Set.uIcc a b) from by
      rw [zero_add]; exact iteratedDerivWithin_one]
  by_cases hx : x ∈ Set.uIcc a b
  · rw [d2 x hx]; exact h.bound x hx
  · rw [derivWithin_zero_of_notMem_closure (by rwa [show closure (Set.uIcc a b) = Set.uIcc a b from isClosed_Icc.closure_eq])]; simpa using z0

theorem even_near {f D E : ℝ → ℝ} {a b ζ : ℝ} (h : Curved f D E a b ζ) {k : ℕ} (hk : 2 ≤ k) :
    |compositeSimpson k f a b + 2 / 3 * midpointRule k f a b - 5 / 3 * ∫ x in a..b, f x| ≤
      5 * |b - a| ^ 3 * ζ / (9 * (2 * k) ^ 2) := by
  have hk0 : (0:ℝ) < k := by exact_mod_cast (by omega : 0 < k)
  have t1 := h.trapezoid (N := 2 * k) (by omega)
  have t2 := h.trapezoid (N := k) (by omega)
  rw [rule_trapezoids f a b hk]
  push_cast at t1
  have e : 8 / 3 * (|b - a| ^ 3 * ζ / (12 * (2 * k : ℝ) ^ 2)) + |b - a| ^ 3 * ζ / (12 * (k : ℝ) ^ 2) =
      5 * |b - a| ^ 3 * ζ / (9 * (2 * k) ^ 2) := by field_simp; ring
  rw [← e]
  rw [abs_le] at t1 t2 ⊢
  constructor <;> linarith [t1.1, t1.2, t2.1, t2.2]

/-- C192: on an even number `n` of intervals the result is within `5 * |b - a|^3 * ζ / (9 * n^2)` of five thirds of the
integral, for every integrand with second derivative at most `ζ`. -/
theorem C192_even {f D E : ℝ → ℝ} {a b ζ : ℝ} (h : Curved f D E a b ζ) {n : ℕ} (hn : 4 ≤ n) (he : n % 2 = 0) :
    ∃ r, simpsonsRule n (fun x => .ok (f x)) a b = .ok r ∧
      |r - 5 / 3 * ∫ x in a..b, f x| ≤ 5 * |b - a| ^ 3 * ζ / (9 * n ^ 2) := by
  obtain ⟨k, rfl⟩ : ∃ k, n = 2 * k := ⟨n / 2, by omega⟩
  refine ⟨_, C54_simpson_actual (fun _ => rfl) k (by omega) a b, ?_⟩
  have := even_near h (k := k) (by omega)
  push_cast
  exact this

/-- C192: on an odd number `n` of intervals the points left out cost an error of first order, `2 * |b - a| * B / n` for an
integrand of size at most `B`. -/
theorem C192_odd_near {f D E : ℝ → ℝ} {a b ζ B : ℝ} (h : Curved f D E a b ζ) (hB : ∀ x ∈ Set.uIcc a b, |f x| ≤ B) {n : ℕ}
    (hn : 5 ≤ n) (ho : n % 2 = 1) :
    ∃ r, simpsonsRule n (fun x => .ok (f x)) a b = .ok r ∧
      |r - 5 / 3 * ∫ x in a..b, f x| ≤ 5 * |b - a| ^ 3 * ζ / (9 * (n - 1) ^ 2) + 2 * |b - a| * B / n := by
  obtain ⟨k, rfl⟩ : ∃ k, n = 2 * k + 1 := ⟨n / 2, by omega⟩
  refine ⟨_, C192_odd (fun _ => rfl) k (by omega) a b, ?_⟩
  have hk0 : (0:ℝ) < k := by exact_mod_cast (by omega : 0 < k)
  have hk1 : (0:ℝ) < 2 * k + 1 := by positivity
  set c := b - (b - a) / (2 * k + 1) with hc
  have hcm : c ∈ Set.uIcc a b := by
    have e : c = a + (2 * k / (2 * k + 1)) * (b - a) := by rw [hc]; field_simp; ring
    have t0 : 0 ≤ (2 * k / (2 * k + 1) : ℝ) := by positivity
    have t1 : (2 * k / (2 * k + 1) : ℝ) ≤ 1 := by rw [div_le_one hk1]; linarith
    rw [e]
    rcases le_total a b with hab | hab
    · rw [Set.uIcc_of_le hab]; constructor <;> nlinarith
    · rw [Set.uIcc_of_ge hab]; constructor <;> nlinarith
  have hsub : Set.uIcc a c ⊆ Set.uIcc a b := Set.uIcc_subset_uIcc Set.left_mem_uIcc hcm
  have hsub' : Set.uIcc c b ⊆ Set.uIcc a b := Set.uIcc_subset_uIcc hcm Set.right_mem_uIcc
  have hn1 := even_near (f := f) (D := D) (E := E) (a := a) (b := c) (ζ := ζ)
    ⟨h.first, h.second, fun x hx => h.bound x (hsub hx)⟩ (k := k) (by omega)
  have z0 : 0 ≤ ζ := (abs_nonneg _).trans (h.bound a Set.left_mem_uIcc)
  have hcont : Continuous f := continuous_iff_continuousAt.2 fun x => (h.first x).continuousAt
  have hsplit := intervalIntegral.integral_add_adjacent_intervals (hcont.intervalIntegrable (μ := MeasureTheory.volume) a c)
    (hcont.intervalIntegrable c b)
  have hlast : |∫ x in c..b, f x| ≤ B * |b - c| := by
    rw [← Real.norm_eq_abs]
    exact intervalIntegral.norm_integral_le_of_norm_le_const fun x hx => hB x (hsub' (Set.uIoc_subset_uIcc hx))
  have ebc : |b - c| = |b - a| / (2 * k + 1) := by
    rw [hc, sub_sub_cancel, abs_div, abs_of_pos hk1]
  have hfc : |(b - a) / (2 * k + 1) / 3 * f c| ≤ |b - a| / (2 * k + 1) / 3 * B := by
    rw [abs_mul, abs_div, abs_div, abs_of_pos hk1, abs_of_pos (by norm_num : (0:ℝ) < 3)]
    exact mul_le_mul_of_nonneg_left (hB c hcm) (by positivity)
  have hca : |c - a| ≤ |b - a| := by
    have e : c - a = (2 * k / (2 * k + 1)) * (b - a) := by rw [hc]; field_simp; ring
    rw [e, abs_mul, abs_of_nonneg (by positivity)]
    refine mul_le_of_le_one_left (abs_nonneg _) ?_
    rw [div_le_one hk1]; linarith
  have h3 : 5 * |c - a| ^ 3 * ζ / (9 * (2 * (k : ℝ)) ^ 2) ≤ 5 * |b - a| ^ 3 * ζ / (9 * (2 * k) ^ 2) := by gcongr
  rw [ebc] at hlast
  push_cast
  have e5 : 2 * |b - a| * B / (2 * k + 1) = 5 / 3 * (B * (|b - a| / (2 * k + 1))) + |b - a| / (2 * k + 1) / 3 * B := by ring
  rw [show (2 * (k : ℝ) + 1 - 1) = 2 * k by ring, e5, ← hsplit]
  rw [abs_le] at hn1 hlast hfc ⊢
  constructor <;> linarith [hn1.1, hn1.2, hlast.1, hlast.2, hfc.1, hfc.2]

/-- C192: with more and more intervals, even or odd, the result tends to five thirds of the integral. -/
theorem C192_limit {f D E : ℝ → ℝ} {a b ζ : ℝ} (h : Curved f D E a b ζ) {r : ℕ → ℝ}
    (hr : ∀ n, 4 ≤ n → simpsonsRule n (fun x => .ok (f x)) a b = .ok (r n)) :
    Filter.Tendsto r Filter.atTop (nhds (5 / 3 * ∫ x in a..b, f x)) := by
  have hcont : Continuous f := continuous_iff_continuousAt.2 fun x => (h.first x).continuousAt
  obtain ⟨B, hB⟩ := (isCompact_uIcc (a := a) (b := b)).exists_bound_of_continuousOn hcont.continuousOn
  have z0 : 0 ≤ ζ := (abs_nonneg _).trans (h.bound a Set.left_mem_uIcc)
  have B0 : 0 ≤ B := (norm_nonneg _).trans (hB a Set.left_mem_uIcc)
  set K := 5 * |b - a| ^ 3 * ζ + 2 * |b - a| * B with hK
  have hlim : Filter.Tendsto (fun n : ℕ => K / (n : ℝ)) Filter.atTop (nhds 0) := tendsto_const_div_atTop_nhds_zero_nat K
  rw [tendsto_iff_dist_tendsto_zero]
  refine squeeze_zero' (Filter.Eventually.of_forall fun n => dist_nonneg) ?_ hlim
  filter_upwards [Filter.eventually_ge_atTop 5] with n hn
  rw [Real.dist_eq]
  have n5 : (5:ℝ) ≤ n := by exact_mod_cast hn
  have hA : 0 ≤ 5 * |b - a| ^ 3 * ζ := by positivity
  have hC : 0 ≤ 2 * |b - a| * B := by positivity
  have hnn := hr n (by omega)
  rcases Nat.mod_two_eq_zero_or_one n with he | ho
  · obtain ⟨r', h1, h2⟩ := C192_even h (by omega) he
    rw [h1] at hnn
    injection hnn with hnn
    rw [← hnn]
    refine h2.trans ?_
    rw [div_le_div_iff₀ (by positivity) (by positivity), hK]
    nlinarith [mul_nonneg hA (by linarith : (0:ℝ) ≤ n), mul_nonneg hC (by positivity : (0:ℝ) ≤ 9 * n ^ 2),
      mul_nonneg (mul_nonneg hA (by linarith : (0:ℝ) ≤ n)) (by linarith : (0:ℝ) ≤ 9 * n - 1)]
  · obtain ⟨r', h1, h2⟩ := C192_odd_near h hB hn ho
    rw [h1] at hnn
    injection hnn with hnn
    rw [← hnn]
    refine h2.trans ?_
    rw [hK, add_div]
    gcongr
    nlinarith

/-- C192 in full: the result tends to the integral. -/
def SimpsonConverges : Prop :=
  ∀ (f D E : ℝ → ℝ) (a b ζ : ℝ), Curved f D E a b ζ → ∀ r : ℕ → ℝ,
    (∀ n, 4 ≤ n → simpsonsRule n (fun x => .ok (f x)) a b = .ok (r n)) →
    Filter.Tendsto r Filter.atTop (nhds (∫ x in a..b, f x))

/-- Every number of intervals from four on gives a result. -/
theorem rule_total (f : ℝ → ℝ) (a b : ℝ) : ∃ r : ℕ → ℝ, ∀ n, 4 ≤ n → simpsonsRule n (fun x => .ok (f x)) a b = .ok (r n) := by
  have : ∀ n, ∃ r, 4 ≤ n → simpsonsRule n (fun x => .ok (f x)) a b = .ok r := by
    intro n
    rcases Nat.mod_two_eq_zero_or_one n with he | ho
    · obtain ⟨k, rfl⟩ : ∃ k, n = 2 * k := ⟨n / 2, by omega⟩
      exact ⟨_, fun hn => C54_simpson_actual (fun _ => rfl) k (by omega) a b⟩
    · obtain ⟨k, rfl⟩ : ∃ k, n = 2 * k + 1 := ⟨n / 2, by omega⟩
      exact ⟨_, fun hn => C192_odd (fun _ => rfl) k (by omega) a b⟩
  choose r hr using this
  exact ⟨r, fun n hn => hr n hn⟩

/-- C192: whatever the integrand, unless its integral is zero the result does not tend to it. -/
theorem C192_never {f D E : ℝ → ℝ} {a b ζ : ℝ} (h : Curved f D E a b ζ) (h0 : ∫ x in a..b, f x ≠ 0) {r : ℕ → ℝ}
    (hr : ∀ n, 4 ≤ n → simpsonsRule n (fun x => .ok (f x)) a b = .ok (r n)) :
    ¬ Filter.Tendsto r Filter.atTop (nhds (∫ x in a..b, f x)) := by
  intro ht
  have := tendsto_nhds_unique ht (C192_limit h hr)
  exact h0 (by linarith)

theorem sin_curved (a b : ℝ) : Curved Real.sin Real.cos (fun x => -Real.sin x) a b 1 where
  first := Real.hasDerivAt_sin
  second := Real.hasDerivAt_cos
  bound x _ := by rw [abs_neg]; exact Real.abs_sin_le_one x

theorem C192_refuted : ¬ SimpsonConverges := by
  intro h
  obtain ⟨r, hr⟩ := rule_total Real.sin 0 Real.pi
  refine C192_never (sin_curved 0 Real.pi) ?_ hr (h _ _ _ _ _ _ (sin_curved 0 Real.pi) r hr)
  rw [integral_sin]; simp

/-- C192: the second order is sharp. The square on `[0, 1]` misses five thirds of its integral by exactly `2 / (9 * n^2)`,
where Simpson's rule would be exact. -/
theorem C192_sharp {n : ℕ} (hn : 4 ≤ n) (he : n % 2 = 0) :
    simpsonsRule n (fun x : ℝ => .ok (x ^ 2)) 0 1 = .ok (5 / 3 * (1 / 3) - 2 / (9 * n ^ 2)) := by
  obtain ⟨k, rfl⟩ : ∃ k, n = 2 * k := ⟨n / 2, by omega⟩
  have hk0 : (k : ℝ) ≠ 0 := by exact_mod_cast (by omega : k ≠ 0)
  rw [C54_simpson_actual (g := fun x : ℝ => x ^ 2) (fun _ => rfl) k (by omega)]
  have h1 := compositeSimpson_cubic k (by omega) (0:ℝ) 0 1 0 0 1
  simp only [zero_mul, add_zero, zero_add, one_mul] at h1
  rw [h1]
  have key : ∀ (m : ℕ) (h : ℝ), ∑ j ∈ Finset.range m, (0 + (2 * (j : ℝ) + 1) * h) ^ 2 = h ^ 2 * (4 * m ^ 3 - m) / 3 := by
    intro m h
    induction m with
    | zero => simp
    | succ m ih => rw [Finset.sum_range_succ, ih]; push_cast; ring
  unfold midpointRule
  simp only [key]
  congr 1
  push_cast
  field_simp
  ring

/-- The sine over half a turn with a hundred intervals: 10/3, not 2, to within two thousandths. -/
example : ∃ r, simpsonsRule 100 (fun x => .ok (Real.sin x)) 0 Real.pi = .ok r ∧ |r - 10 / 3| ≤ 2 / 1000 := by
  obtain ⟨r, h1, h2⟩ := C192_even (sin_curved 0 Real.pi) (n := 100) (by norm_num) (by norm_num)
  refine ⟨r, h1, ?_⟩
  rw [integral_sin] at h2
  simp only [Real.cos_zero, Real.cos_pi, sub_neg_eq_add, sub_zero] at h2
  rw [show (10 / 3 : ℝ) = 5 / 3 * (1 + 1) by norm_num]
  refine h2.trans ?_
  rw [abs_of_pos Real.pi_pos]
  have p0 := Real.pi_pos
  have p1 := Real.pi_lt_d2
  have : Real.pi ^ 3 ≤ 3.15 ^ 3 := by gcongr
  push_cast
  rw [div_le_iff₀ (by norm_num)]
  nlinarith

end Verif
