import Mathlib.Analysis.SpecificLimits.Normed
import Mathlib.Analysis.Complex.Polynomial.Basic
import Verif.Spec.Filter
import Verif.F32.More

/-! # C27-C30: `Biquad::process`; and that the gain of Spec.Filter is what `process` does to a sinusoid -/

namespace Verif
open F32

section exact
variable {K : Type} [Field K]

theorem coeffs_stateAt {α : Type} [Add α] [Sub α] [Mul α] (f : Biquad α) (x : ℕ → α) (n : ℕ) :
    (f.stateAt x n).coeffs = f.coeffs := by
  induction n with
  | zero => rfl
  | succ n ih => exact ih

theorem stateAt_congr {α : Type} [Add α] [Sub α] [Mul α] (f : Biquad α) {x u : ℕ → α} {n : ℕ}
    (h : ∀ i < n, x i = u i) : f.stateAt x n = f.stateAt u n := by
  induction n with
  | zero => rfl
  | succ n ih =>
    show ((f.stateAt x n).process (x n)).1 = ((f.stateAt u n).process (u n)).1
    rw [ih (fun i hi => h i (by omega)), h n (by omega)]

/-! ## C27 -/

/-- C27: the outputs of a new filter satisfy the second-order difference equation. -/
theorem C27_difference_equation (co : BiquadCoeffs K) (x : ℕ → K) (n : ℕ) :
    (Biquad.new co).outAt x n = co.b0 * past x n 0 + co.b1 * past x n 1 + co.b2 * past x n 2
      - co.a1 * past ((Biquad.new co).outAt x) n 1 - co.a2 * past ((Biquad.new co).outAt x) n 2 := by
  set f := Biquad.new co with hf
  set y := f.outAt x with hy
  have hc : ∀ m, (f.stateAt x m).coeffs = co := fun m => coeffs_stateAt f x m
  have h1 : ∀ m, (f.stateAt x (m + 1)).z1 = co.b1 * x m + (f.stateAt x m).z2 - co.a1 * y m := by
    intro m; rw [← hc m]; rfl
  have h2 : ∀ m, (f.stateAt x (m + 1)).z2 = co.b2 * x m - co.a2 * y m := by
    intro m; rw [← hc m]; rfl
  have h0 : ∀ m, y m = co.b0 * x m + (f.stateAt x m).z1 := by
    intro m; rw [← hc m]; rfl
  have e1 : (f.stateAt x 0).z1 = 0 := by show (lit 0 : K) = 0; simp [Lit.lit]
  have e2 : (f.stateAt x 0).z2 = 0 := by show (lit 0 : K) = 0; simp [Lit.lit]
  rw [h0 n]
  rcases n with _ | _ | n
  · simp [past, e1]
  · rw [h1, e2]; simp [past]; ring
  · rw [h1, h2]; simp [past]; ring

example : (Biquad.new (⟨1, 2, 3, 4, 5⟩ : BiquadCoeffs ℚ)).outAt (fun n => n + 1) 2 = 5 := by
  norm_num [Biquad.outAt, Biquad.stateAt, Biquad.process, Biquad.new, Lit.lit]

/-! ## C28 -/

/-- Runs from any two states superpose. -/
theorem superpose (co : BiquadCoeffs K) (s t : K) (f g : Biquad K) (hf : f.coeffs = co) (hg : g.coeffs = co)
    (x u : ℕ → K) (n : ℕ) :
    Biquad.outAt ⟨s * f.z1 + t * g.z1, s * f.z2 + t * g.z2, co⟩ (fun m => s * x m + t * u m) n
      = s * f.outAt x n + t * g.outAt u n := by
  have key : ∀ n, Biquad.stateAt ⟨s * f.z1 + t * g.z1, s * f.z2 + t * g.z2, co⟩ (fun m => s * x m + t * u m) n
      = ⟨s * (f.stateAt x n).z1 + t * (g.stateAt u n).z1, s * (f.stateAt x n).z2 + t * (g.stateAt u n).z2, co⟩ := by
    intro n
    induction n with
    | zero => rfl
    | succ n ih =>
      have hf' := (coeffs_stateAt f x n).trans hf
      have hg' := (coeffs_stateAt g u n).trans hg
      simp only [Biquad.stateAt, ih, Biquad.process, hf', hg', Biquad.mk.injEq, and_true]
      constructor <;> ring
  have hf' := (coeffs_stateAt f x n).trans hf
  have hg' := (coeffs_stateAt g u n).trans hg
  simp only [Biquad.outAt, key, Biquad.process, hf', hg']
  ring

/-- C28, linearity. -/
theorem C28_linear (co : BiquadCoeffs K) (s t : K) (x u : ℕ → K) (n : ℕ) :
    (Biquad.new co).outAt (fun m => s * x m + t * u m) n
      = s * (Biquad.new co).outAt x n + t * (Biquad.new co).outAt u n := by
  rw [← superpose co s t _ _ rfl rfl]
  simp [Biquad.new, Lit.lit]

/-- C28, time invariance. -/
theorem C28_time_invariant (co : BiquadCoeffs K) (x : ℕ → K) (k n : ℕ) :
    (Biquad.new co).outAt (delayed x k) n = delayed ((Biquad.new co).outAt x) k n := by
  set f := Biquad.new co with hf
  have hz : ∀ m ≤ k, f.stateAt (delayed x k) m = f := by
    intro m hm
    induction m with
    | zero => rfl
    | succ m ih =>
      show ((f.stateAt (delayed x k) m).process (delayed x k m)).1 = f
      rw [ih (by omega)]
      have : delayed x k m = 0 := if_neg (by omega)
      rw [this]
      simp [hf, Biquad.new, Biquad.process, Lit.lit]
  have hs : ∀ m, f.stateAt (delayed x k) (m + k) = f.stateAt x m := by
    intro m
    induction m with
    | zero => rw [Nat.zero_add]; exact hz k le_rfl
    | succ m ih =>
      rw [show m + 1 + k = (m + k) + 1 by ring]
      show ((f.stateAt (delayed x k) (m + k)).process (delayed x k (m + k))).1 = _
      have : delayed x k (m + k) = x m := by
        unfold delayed past; rw [if_pos (by omega), Nat.add_sub_cancel]
      rw [ih, this]; rfl
  by_cases h : k ≤ n
  · obtain ⟨m, rfl⟩ : ∃ m, n = m + k := ⟨n - k, by omega⟩
    have e : delayed x k (m + k) = x m := by unfold delayed past; rw [if_pos (by omega), Nat.add_sub_cancel]
    rw [show delayed (f.outAt x) k (m + k) = f.outAt x m by
      unfold delayed past; rw [if_pos (by omega), Nat.add_sub_cancel]]
    unfold Biquad.outAt
    rw [hs m, e]
  · rw [show delayed (f.outAt x) k n = 0 from if_neg h]
    unfold Biquad.outAt
    rw [hz n (by omega), show delayed x k n = 0 from if_neg h]
    simp [hf, Biquad.new, Biquad.process, Lit.lit]

example : delayed (fun n => (n + 1 : ℚ)) 2 3 = 2 ∧ delayed (fun n => (n + 1 : ℚ)) 2 1 = 0 := by
  norm_num [delayed, past]

/-! ## The gain -/

/-- Fed `z^n`, from the matching state, the filter outputs `H(z) z^n`. -/
theorem steady_state (co : BiquadCoeffs K) {z : K} (hd : co.den z ≠ 0) (n : ℕ) :
    Biquad.outAt ⟨co.gain z - co.b0, z * (co.gain z - co.b0) - co.b1 + co.a1 * co.gain z, co⟩ (fun m => z ^ m) n
      = co.gain z * z ^ n := by
  set H := co.gain z with hH
  have hHd : H * co.den z = co.num z := div_mul_cancel₀ _ hd
  have key : ∀ n, Biquad.stateAt ⟨H - co.b0, z * (H - co.b0) - co.b1 + co.a1 * H, co⟩ (fun m => z ^ m) n
      = ⟨z ^ n * (H - co.b0), z ^ n * (z * (H - co.b0) - co.b1 + co.a1 * H), co⟩ := by
    intro n
    induction n with
    | zero => simp [Biquad.stateAt]
    | succ n ih =>
      simp only [Biquad.stateAt, ih, Biquad.process, Biquad.mk.injEq, and_true]
      constructor
      · ring
      · have : co.b2 - co.a2 * H = z * (z * (H - co.b0) - co.b1 + co.a1 * H) := by
          unfold BiquadCoeffs.den BiquadCoeffs.num at hHd
          linear_combination -hHd
        rw [pow_succ]
        linear_combination z ^ n * this
  simp only [Biquad.outAt, key, Biquad.process]
  ring

end exact

/-! ## Decay of a stable filter -/

/-- The free response: a linear recurrence of order two whose characteristic roots lie inside the unit circle. -/
theorem recurrence_decays {y : ℕ → ℂ} {p r : ℂ} (hp : ‖p‖ < 1) (hr : ‖r‖ < 1)
    (h : ∀ n, y (n + 2) = (p + r) * y (n + 1) - p * r * y n) : Filter.Tendsto y Filter.atTop (nhds 0) := by
  set ρ := max (max ‖p‖ ‖r‖) (1/2) with hρ
  have hρ1 : ρ < 1 := by simp [hρ, hp, hr]; norm_num
  have hρ0 : 0 < ρ := lt_of_lt_of_le (by norm_num) (le_max_right _ _)
  have hpρ : ‖p‖ ≤ ρ := (le_max_left _ _).trans (le_max_left _ _)
  have hrρ : ‖r‖ ≤ ρ := (le_max_right _ _).trans (le_max_left _ _)
  set U := ‖y 1 - p * y 0‖ with hU
  have hu : ∀ n, y (n + 1) - p * y n = r ^ n * (y 1 - p * y 0) := by
    intro n
    induction n with
    | zero => simp
    | succ n ih => rw [h n]; linear_combination r * ih
  have hb : ∀ n, ‖y n‖ ≤ (‖y 0‖ + n * (U / ρ)) * ρ ^ n := by
    intro n
    induction n with
    | zero => simp
    | succ n ih =>
      have e : y (n + 1) = p * y n + r ^ n * (y 1 - p * y 0) := by linear_combination hu n
      rw [e]
      refine (norm_add_le _ _).trans ?_
      rw [norm_mul, norm_mul, norm_pow]
      have h1 : ‖p‖ * ‖y n‖ ≤ ρ * ((‖y 0‖ + n * (U / ρ)) * ρ ^ n) :=
        mul_le_mul hpρ ih (norm_nonneg _) hρ0.le
      have h2 : ‖r‖ ^ n * U ≤ ρ ^ n * U :=
        mul_le_mul_of_nonneg_right (pow_le_pow_left₀ (norm_nonneg _) hrρ n) (norm_nonneg _)
      refine (add_le_add h1 h2).trans (le_of_eq ?_)
      push_cast; field_simp; ring
  have t1 := tendsto_pow_atTop_nhds_zero_of_lt_one hρ0.le hρ1
  have t2 := tendsto_self_mul_const_pow_of_lt_one hρ0.le hρ1
  have t3 : Filter.Tendsto (fun n : ℕ => (‖y 0‖ + n * (U / ρ)) * ρ ^ n) Filter.atTop (nhds 0) := by
    have := (t1.const_mul ‖y 0‖).add (t2.const_mul (U / ρ))
    simp only [mul_zero, add_zero] at this
    refine this.congr (fun n => ?_)
    ring
  exact squeeze_zero_norm hb t3

/-- Two complex numbers with given sum and product. -/
theorem exists_roots (a b : ℂ) : ∃ p r : ℂ, p + r = -a ∧ p * r = b := by
  obtain ⟨s, hs⟩ := IsAlgClosed.exists_pow_nat_eq (a ^ 2 - 4 * b) (n := 2) (by norm_num)
  exact ⟨(-a + s) / 2, (-a - s) / 2, by ring, by linear_combination -hs / 4⟩

/-- With both poles inside the unit circle, zero input decays to zero from every state. -/
theorem free_response {co : BiquadCoeffs ℂ} (hs : ∀ z, co.den z = 0 → ‖z‖ < 1) (f : Biquad ℂ) (hf : f.coeffs = co) :
    Filter.Tendsto (f.outAt (fun _ => 0)) Filter.atTop (nhds 0) := by
  obtain ⟨p, r, hpr, hpr'⟩ := exists_roots co.a1 co.a2
  have hp : ‖p‖ < 1 := hs p (by unfold BiquadCoeffs.den; rw [← hpr', show co.a1 = -(p + r) by rw [hpr]; ring]; ring)
  have hr : ‖r‖ < 1 := hs r (by unfold BiquadCoeffs.den; rw [← hpr', show co.a1 = -(p + r) by rw [hpr]; ring]; ring)
  refine recurrence_decays hp hr (fun n => ?_)
  have hc : ∀ m, (f.stateAt (fun _ => 0) m).coeffs = co := fun m => (coeffs_stateAt f _ m).trans hf
  set y := f.outAt (fun _ => 0) with hy
  have h1 : ∀ m, (f.stateAt (fun _ => 0) (m + 1)).z1 = (f.stateAt (fun _ => 0) m).z2 - co.a1 * y m := by
    intro m; rw [← hc m, show ∀ a b : ℂ, a - b = (f.stateAt (fun _ => 0) m).coeffs.b1 * 0 + a - b by intros; ring]; rfl
  have h2 : ∀ m, (f.stateAt (fun _ => 0) (m + 1)).z2 = - co.a2 * y m := by
    intro m
    rw [← hc m, show ∀ a b : ℂ, -a * b = (f.stateAt (fun _ => 0) m).coeffs.b2 * 0 - a * b by intros; ring]; rfl
  have h0 : ∀ m, y m = (f.stateAt (fun _ => 0) m).z1 := by
    intro m
    rw [show (f.stateAt (fun _ => 0) m).z1 = (f.stateAt (fun _ => 0) m).coeffs.b0 * 0 + (f.stateAt (fun _ => 0) m).z1
      by ring]; rfl
  rw [h0 (n + 2), h1, h2, hpr, hpr']; ring

/-- For a stable filter, from any state, the response to `z^n` on the unit circle converges to `H(z) z^n`: the gain of
Spec.Filter is the gain a listener measures. -/
theorem gain_measured {co : BiquadCoeffs ℂ} (hs : ∀ z, co.den z = 0 → ‖z‖ < 1) {z : ℂ} (hz : ‖z‖ = 1) (f : Biquad ℂ)
    (hf : f.coeffs = co) :
    Filter.Tendsto (fun n => f.outAt (fun m => z ^ m) n - co.gain z * z ^ n) Filter.atTop (nhds 0) := by
  have hd : co.den z ≠ 0 := fun h => absurd (hs z h) (by rw [hz]; exact lt_irrefl 1)
  set g : Biquad ℂ := ⟨co.gain z - co.b0, z * (co.gain z - co.b0) - co.b1 + co.a1 * co.gain z, co⟩ with hg
  have := free_response hs (⟨1 * f.z1 + (-1) * g.z1, 1 * f.z2 + (-1) * g.z2, co⟩) rfl
  refine this.congr (fun n => ?_)
  have hsup := superpose co 1 (-1) f g hf rfl (fun m => z ^ m) (fun m => z ^ m) n
  have hst := steady_state co hd n
  rw [← hst, ← hg]
  rw [show (fun _ : ℕ => (0:ℂ)) = fun m => 1 * z ^ m + -1 * z ^ m by funext m; ring, hsup]; ring

/-! ## C29 -/

/-- C29: from the sample where the input or `b0` is NaN on, every output is NaN: from any state, whatever the later
inputs and coefficients. -/
theorem C29_nan_poison (f : Biquad F32) (h : ℕ → BiquadCoeffs F32 × F32) {m : ℕ}
    (hm : (h m).2.isNaN = true ∨ (h m).1.b0.isNaN = true) {n : ℕ} (hn : m ≤ n) : (f.outAtVar h n).isNaN = true := by
  have hout : (f.outAtVar h m).isNaN = true := by
    unfold Biquad.outAtVar Biquad.process
    simp only
    have : ((h m).1.b0 * (h m).2).isNaN = true := by
      rcases hm with hm | hm
      · rw [mul_nan_right hm]; exact isNaN_nan
      · rw [mul_nan_left hm]; exact isNaN_nan
    rw [add_nan_left this]; exact isNaN_nan
  have hstep : ∀ i, (f.outAtVar h i).isNaN = true → (f.stateAtVar h (i + 1)).z1.isNaN = true := by
    intro i hi
    show ((h i).1.b1 * (h i).2 + (f.stateAtVar h i).z2 - (h i).1.a1 * (f.outAtVar h i)).isNaN = true
    rw [mul_nan_right hi, sub_nan_right isNaN_nan]; exact isNaN_nan
  have hz : ∀ i, (f.stateAtVar h i).z1.isNaN = true → (f.outAtVar h i).isNaN = true := by
    intro i hi
    show ((h i).1.b0 * (h i).2 + (f.stateAtVar h i).z1).isNaN = true
    rw [add_nan_right hi]; exact isNaN_nan
  induction n, hn using Nat.le_induction with
  | base => exact hout
  | succ i _ ih => exact hz _ (hstep i ih)

-- a NaN arrives at sample 1 of an otherwise ordinary run
example : (((fun n => if n = 1 then (⟨lit 1, lit 0, lit 0, lit 0, lit 0⟩, nan) else
      (⟨lit 1, lit 0, lit 0, lit 0, lit 0⟩, lit 1)) : ℕ → BiquadCoeffs F32 × F32) 1).2.isNaN = true ∧
    (((Biquad.new ⟨lit 1, lit 0, lit 0, lit 0, lit 0⟩ : Biquad F32).outAtVar
      (fun _ => (⟨lit 1, lit 0, lit 0, lit 0, lit 0⟩, lit 1)) 0).isNaN = false) := by decide +kernel

/-! ## C30 -/

theorem mul_zero_val {x y : F32} (hx : x.isFin = true) (hy : y.isFin = true) (h : x.val = 0 ∨ y.val = 0) :
    (x * y).isFin = true ∧ (x * y).val = 0 := by
  have hv : x.val * y.val = 0 := mul_eq_zero.2 h
  have := mul_exact hx hy (by rw [hv]; exact_mod_cast rep_int (n := 0) (by norm_num))
  rw [hv] at this; exact this

theorem add_zero_val {x y : F32} (hx : x.isFin = true ∧ x.val = 0) (hy : y.isFin = true ∧ y.val = 0) :
    (x + y).isFin = true ∧ (x + y).val = 0 := by
  have hv : x.val + y.val = 0 := by rw [hx.2, hy.2, add_zero]
  have := add_exact hx.1 hy.1 (by rw [hv]; exact_mod_cast rep_int (n := 0) (by norm_num))
  rw [hv] at this; exact this

theorem sub_zero_val {x y : F32} (hx : x.isFin = true ∧ x.val = 0) (hy : y.isFin = true ∧ y.val = 0) :
    (x - y).isFin = true ∧ (x - y).val = 0 := by
  have hv : x.val - y.val = 0 := by rw [hx.2, hy.2, sub_zero]
  have := sub_exact hx.1 hy.1 (by rw [hv]; exact_mod_cast rep_int (n := 0) (by norm_num))
  rw [hv] at this; exact this

def BiquadCoeffs.AllFin (co : BiquadCoeffs F32) : Prop :=
  co.b0.isFin = true ∧ co.b1.isFin = true ∧ co.b2.isFin = true ∧ co.a1.isFin = true ∧ co.a2.isFin = true

/-- The run stays at zero when every product of a `b` coefficient and an input is zero. -/
theorem silent_run (co : BiquadCoeffs F32) (hc : co.AllFin) (x : ℕ → F32) (hx : ∀ n, (x n).isFin = true)
    (h : ∀ n, (x n).val = 0 ∨ (co.b0.val = 0 ∧ co.b1.val = 0 ∧ co.b2.val = 0)) (n : ℕ) :
    ((Biquad.new co).outAt x n).isFin = true ∧ ((Biquad.new co).outAt x n).val = 0 := by
  obtain ⟨c0, c1, c2, d1, d2⟩ := hc
  have m0 : ∀ n, (co.b0 * x n).isFin = true ∧ (co.b0 * x n).val = 0 := fun n =>
    mul_zero_val c0 (hx n) ((h n).elim Or.inr fun h => Or.inl h.1)
  have m1 : ∀ n, (co.b1 * x n).isFin = true ∧ (co.b1 * x n).val = 0 := fun n =>
    mul_zero_val c1 (hx n) ((h n).elim Or.inr fun h => Or.inl h.2.1)
  have m2 : ∀ n, (co.b2 * x n).isFin = true ∧ (co.b2 * x n).val = 0 := fun n =>
    mul_zero_val c2 (hx n) ((h n).elim Or.inr fun h => Or.inl h.2.2)
  have hco : ∀ m, ((Biquad.new co).stateAt x m).coeffs = co := fun m => coeffs_stateAt _ x m
  have step : ∀ n, (((Biquad.new co).stateAt x n).z1.isFin = true ∧ ((Biquad.new co).stateAt x n).z1.val = 0) ∧
      (((Biquad.new co).stateAt x n).z2.isFin = true ∧ ((Biquad.new co).stateAt x n).z2.val = 0) := by
    intro n
    induction n with
    | zero => exact ⟨⟨lit0_fin, lit0_val⟩, ⟨lit0_fin, lit0_val⟩⟩
    | succ n ih =>
      simp only [Biquad.stateAt, Biquad.process, hco]
      have ho := add_zero_val (m0 n) ih.1
      exact ⟨sub_zero_val (add_zero_val (m1 n) ih.2) (mul_zero_val d1 ho.1 (Or.inr ho.2)),
        sub_zero_val (m2 n) (mul_zero_val d2 ho.1 (Or.inr ho.2))⟩
  simp only [Biquad.outAt, Biquad.process, hco]
  exact add_zero_val (m0 n) (step n).1

/-- C30: zero coefficients are silent on every finite input. -/
theorem C30_zero_coeffs (x : ℕ → F32) (hx : ∀ n, (x n).isFin = true) (n : ℕ) :
    ((Biquad.new Butterworth.new).outAt x n).isFin = true ∧ ((Biquad.new Butterworth.new).outAt x n).val = 0 := by
  have h : (Butterworth.new : BiquadCoeffs F32).AllFin := ⟨lit0_fin, lit0_fin, lit0_fin, lit0_fin, lit0_fin⟩
  exact silent_run Butterworth.new h x hx (fun _ => Or.inr ⟨lit0_val, lit0_val, lit0_val⟩) n

/-- C30: finite coefficients output zero for zero (of either sign) input from rest. -/
theorem C30_zero_input (co : BiquadCoeffs F32) (hc : co.AllFin) (x : ℕ → F32)
    (hx : ∀ n, (x n).isFin = true ∧ (x n).val = 0) (n : ℕ) :
    ((Biquad.new co).outAt x n).isFin = true ∧ ((Biquad.new co).outAt x n).val = 0 :=
  silent_run co hc x (fun n => (hx n).1) (fun n => Or.inl (hx n).2) n

example : BiquadCoeffs.AllFin ⟨lit 1, lit 2, lit (-1), lit (1/2), maxFin⟩ :=
  ⟨lit1_fin, lit2_fin, litm1_fin, lithalf_fin, maxFin_fin⟩

example : ∀ n : ℕ, ((fun n : ℕ => if n = 0 then -lit 0 else lit 0 : ℕ → F32) n).isFin = true ∧
    ((fun n : ℕ => if n = 0 then -lit 0 else lit 0 : ℕ → F32) n).val = 0 := by
  intro n
  by_cases h : n = 0 <;> simp [h]

end Verif
