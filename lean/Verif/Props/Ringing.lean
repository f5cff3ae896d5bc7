import Verif.Props.Cutoff
import Verif.Props.BiquadStable
import Mathlib.Analysis.SpecialFunctions.Trigonometric.Arctan
import Mathlib.Analysis.SpecialFunctions.Complex.Arg
import Mathlib.Analysis.Complex.ExponentialBounds

/-! # C184: how a filter rings

When the input has ended, a filter of quality above 1/2 goes on as a decaying tone. -/

namespace Verif
open Butterworth

variable {powi : ℝ → ℕ → ℝ} {sqrt : ℝ → ℝ} {fc q gain sr : ℝ}

/-- The cutoff in radians per sample, as the design places it: half of it has the tangent `fast_tan(PI*fc/sr)` (see C107 for how
close that is to `PI*fc/sr`). -/
noncomputable def cutoffAngle (powi : ℝ → ℕ → ℝ) (fc sr : ℝ) : ℝ := 2 * Real.arctan (warp powi fc sr)

/-- A two-term recurrence with complex roots is a decaying tone. -/
theorem decaying_tone {y : ℕ → ℝ} {r w : ℝ} (r0 : 0 < r) (hw : Real.sin w ≠ 0)
    (hy : ∀ n, y (n + 2) = 2 * r * Real.cos w * y (n + 1) - r ^ 2 * y n) :
    ∃ A φ : ℝ, ∀ n : ℕ, y n = A * r ^ n * Real.cos (w * n + φ) := by
  obtain ⟨b, hb⟩ : ∃ b, b = (y 0 * Real.cos w - y 1 / r) / Real.sin w := ⟨_, rfl⟩
  obtain ⟨A, φ, hA, hB⟩ : ∃ A φ : ℝ, A * Real.cos φ = y 0 ∧ A * Real.sin φ = b :=
    ⟨‖(⟨y 0, b⟩ : ℂ)‖, Complex.arg ⟨y 0, b⟩, by simp, by simp⟩
  refine ⟨A, φ, fun n => ?_⟩
  have key : ∀ n : ℕ, y n = A * r ^ n * Real.cos (w * n + φ) ∧ y (n + 1) = A * r ^ (n + 1) * Real.cos (w * (n + 1 : ℕ) + φ) := by
    intro n
    induction n with
    | zero =>
      refine ⟨by simp [hA], ?_⟩
      have : y 1 = r * (y 0 * Real.cos w - b * Real.sin w) := by rw [hb]; field_simp; ring
      simp only [zero_add, pow_one, Nat.cast_one, mul_one, Real.cos_add]
      rw [this, ← hA, ← hB]; ring
    | succ n ih =>
      refine ⟨ih.2, ?_⟩
      rw [hy n, ih.1, ih.2]
      push_cast
      have e1 : w * (n + 1 + 1 : ℝ) + φ = (w * (n + 1) + φ) + w := by ring
      have e2 : w * (n : ℝ) + φ = (w * (n + 1) + φ) - w := by ring
      rw [e1, e2]
      generalize w * (n + 1 : ℝ) + φ = u
      rw [Real.cos_add, Real.cos_sub]; ring
  exact (key n).1

/-- After the last input sample the output obeys the feedback alone. -/
theorem silent_rec {f : Biquad ℝ} {x : ℕ → ℝ} {m : ℕ} (hx : ∀ n ≥ m, x n = 0) (n : ℕ) :
    f.outAt x (m + (n + 2)) = -f.coeffs.a1 * f.outAt x (m + (n + 1)) - f.coeffs.a2 * f.outAt x (m + n) := by
  have hc : ∀ k, (f.stateAt x k).coeffs = f.coeffs := fun k => coeffs_stateAt _ _ _
  have e : ∀ k, f.outAt x (m + k) = (f.stateAt x (m + k)).z1 := by
    intro k
    simp only [Biquad.outAt, Biquad.process, hx (m + k) (by omega), mul_zero, zero_add]
  have s1 : ∀ k, (f.stateAt x (m + k + 1)).z1 = (f.stateAt x (m + k)).z2 - f.coeffs.a1 * (f.stateAt x (m + k)).z1 := by
    intro k
    simp only [Biquad.stateAt, Biquad.process, hx (m + k) (by omega), mul_zero, zero_add, hc]
  have s2 : ∀ k, (f.stateAt x (m + k + 1)).z2 = - f.coeffs.a2 * (f.stateAt x (m + k)).z1 := by
    intro k
    simp only [Biquad.stateAt, Biquad.process, hx (m + k) (by omega), mul_zero, zero_add, hc]; ring
  rw [e, e, e, show m + (n + 2) = m + (n + 1) + 1 by ring, s1, show m + (n + 1) = m + n + 1 by ring, s2]; ring

/-- C184, any filter with complex poles (rounded coefficients too): once the input has ended the output is a tone that decays
by `√a2` every sample. -/
theorem C184_any {f : Biquad ℝ} (hr : f.coeffs.a1 ^ 2 < 4 * f.coeffs.a2) {x : ℕ → ℝ} {m : ℕ} (hx : ∀ n ≥ m, x n = 0) :
    ∃ w A φ : ℝ, 0 < w ∧ w < Real.pi ∧ Real.cos w = -f.coeffs.a1 / (2 * √f.coeffs.a2) ∧
      ∀ n : ℕ, f.outAt x (m + n) = A * √f.coeffs.a2 ^ n * Real.cos (w * n + φ) := by
  have a0 : 0 < f.coeffs.a2 := by nlinarith [sq_nonneg f.coeffs.a1]
  have r0 : 0 < √f.coeffs.a2 := Real.sqrt_pos.2 a0
  have rr : √f.coeffs.a2 ^ 2 = f.coeffs.a2 := Real.sq_sqrt a0.le
  have hlt : |(-f.coeffs.a1 / (2 * √f.coeffs.a2))| < 1 := by
    rw [abs_div, abs_neg, abs_of_pos (by positivity : 0 < 2 * √f.coeffs.a2), div_lt_one (by positivity)]
    apply abs_lt_of_sq_lt_sq _ (by positivity)
    rw [mul_pow, rr]; linarith
  have hlt' := abs_lt.1 hlt
  obtain ⟨w, hw⟩ : ∃ w, w = Real.arccos (-f.coeffs.a1 / (2 * √f.coeffs.a2)) := ⟨_, rfl⟩
  have hcos : Real.cos w = -f.coeffs.a1 / (2 * √f.coeffs.a2) := by rw [hw, Real.cos_arccos hlt'.1.le hlt'.2.le]
  have w0 : 0 < w := by rw [hw]; exact Real.arccos_pos.2 hlt'.2
  have w1 : w < Real.pi := by
    rw [hw, lt_iff_le_and_ne]; refine ⟨Real.arccos_le_pi _, ?_⟩
    rw [Ne, Real.arccos_eq_pi]; linarith [hlt'.1]
  obtain ⟨A, φ, h⟩ := decaying_tone (y := fun n => f.outAt x (m + n)) r0 (Real.sin_pos_of_pos_of_lt_pi w0 w1).ne' (fun n => by
    have := silent_rec (f := f) hx n
    rw [this, rr, hcos]
    field_simp)
  exact ⟨w, A, φ, w0, w1, hcos, h⟩

/-- The designs that boost or leave the level alone share their poles. -/
theorem shared_poles (hp : PowiExact powi) (hfc : 0 < fc) (hsr : 0 < sr) (hq : 0 < q) {co : BiquadCoeffs ℝ}
    (hco : co ∈ [lowpass powi fc q sr, highpass powi fc q sr, allpass powi fc q sr, notch powi fc q sr, bellBoost powi fc q gain sr,
      lowShelfBoost powi sqrt fc q gain sr]) :
    co.a1 = -2 * Real.cos (cutoffAngle powi fc sr) / (1 + Real.sin (cutoffAngle powi fc sr) / (2 * q)) ∧
    co.a2 = (1 - Real.sin (cutoffAngle powi fc sr) / (2 * q)) / (1 + Real.sin (cutoffAngle powi fc sr) / (2 * q)) := by
  have hk := warp_pos hp hfc hsr
  have e1 : Real.sin (cutoffAngle powi fc sr) = 2 * warp powi fc sr / (1 + warp powi fc sr ^ 2) := by
    unfold cutoffAngle
    rw [Real.sin_two_mul, Real.sin_arctan, Real.cos_arctan]
    have : √(1 + warp powi fc sr ^ 2) ^ 2 = 1 + warp powi fc sr ^ 2 := Real.sq_sqrt (by positivity)
    field_simp
    rw [this]
  have e2 : Real.cos (cutoffAngle powi fc sr) = (1 - warp powi fc sr ^ 2) / (1 + warp powi fc sr ^ 2) := by
    unfold cutoffAngle
    rw [Real.cos_two_mul, Real.cos_arctan]
    have : √(1 + warp powi fc sr ^ 2) ^ 2 = 1 + warp powi fc sr ^ 2 := Real.sq_sqrt (by positivity)
    rw [div_pow, this]
    field_simp
    ring
  rw [e1, e2]
  simp only [List.mem_cons, List.not_mem_nil, or_false] at hco
  simp only [lowpass, highpass, allpass, notch, bellBoost, lowShelfBoost, setup_eq, lowpassOf, highpassOf, allpassOf, notchOf, bellBoostOf,
    lowShelfBoostOf, Lit.lit] at hco
  generalize warp powi fc sr = k at *
  push_cast at hco
  have hd : 1 + k / q + k ^ 2 ≠ 0 := by positivity
  rcases hco with rfl | rfl | rfl | rfl | rfl | rfl <;> constructor <;> simp only <;> field_simp <;> ring

/-- C184: with quality above 1/2, once the input has ended, each of these filters goes on as the same tone, whatever it was fed
before: with the cutoff angle `θ` and `α = sin θ/(2q)` it shrinks by `√((1-α)/(1+α))` every sample, and its pitch is `w`, where
`cos w = cos θ/√(1-α²)`. -/
theorem C184_rings (hp : PowiExact powi) (hfc : 0 < fc) (hsr : 0 < sr) (hq : 1 / 2 < q) :
    ∃ θ α w : ℝ, 0 < θ ∧ θ < Real.pi ∧ (fc ≤ 318 / 1000 * sr → |θ - 2 * Real.pi * fc / sr| ≤ 1 / 1000 * (2 * Real.pi * fc / sr)) ∧
      α = Real.sin θ / (2 * q) ∧ 0 < α ∧ α < 1 ∧ 0 < w ∧ w < Real.pi ∧ Real.cos w = Real.cos θ / √(1 - α ^ 2) ∧
      ∀ co ∈ [lowpass powi fc q sr, highpass powi fc q sr, allpass powi fc q sr, notch powi fc q sr, bellBoost powi fc q gain sr,
        lowShelfBoost powi sqrt fc q gain sr], ∀ (z1 z2 : ℝ) (x : ℕ → ℝ) (m : ℕ), (∀ n ≥ m, x n = 0) →
        ∃ A φ : ℝ, ∀ n : ℕ, Biquad.outAt ⟨z1, z2, co⟩ x (m + n) = A * √((1 - α) / (1 + α)) ^ n * Real.cos (w * n + φ) := by
  have hk := warp_pos hp hfc hsr
  have q0 : 0 < q := by linarith
  obtain ⟨θ, hθ⟩ : ∃ θ, θ = cutoffAngle powi fc sr := ⟨_, rfl⟩
  have θ0 : 0 < θ := by rw [hθ, cutoffAngle]; have := Real.arctan_pos.2 hk; linarith
  have θ1 : θ < Real.pi := by rw [hθ, cutoffAngle]; linarith [Real.arctan_lt_pi_div_two (warp powi fc sr)]
  have s0 := Real.sin_pos_of_pos_of_lt_pi θ0 θ1
  obtain ⟨α, hα⟩ : ∃ α, α = Real.sin θ / (2 * q) := ⟨_, rfl⟩
  have α0 : 0 < α := by rw [hα]; positivity
  have α1 : α < Real.sin θ := by rw [hα, div_lt_iff₀ (by positivity)]; nlinarith
  have α2 : α < 1 := α1.trans_le (Real.sin_le_one θ)
  have hsq : α ^ 2 < Real.sin θ ^ 2 := by gcongr
  have hsc := Real.sin_sq_add_cos_sq θ
  have d0 : 0 < 1 - α ^ 2 := by nlinarith
  have r0 : 0 < √(1 - α ^ 2) := Real.sqrt_pos.2 d0
  have rr : √(1 - α ^ 2) ^ 2 = 1 - α ^ 2 := Real.sq_sqrt d0.le
  have hlt : |Real.cos θ / √(1 - α ^ 2)| < 1 := by
    rw [abs_div, abs_of_pos r0, div_lt_one r0]
    refine abs_lt_of_sq_lt_sq ?_ r0.le
    rw [rr]; linarith
  have hlt' := abs_lt.1 hlt
  obtain ⟨w, hw⟩ : ∃ w, w = Real.arccos (Real.cos θ / √(1 - α ^ 2)) := ⟨_, rfl⟩
  have hcos : Real.cos w = Real.cos θ / √(1 - α ^ 2) := by rw [hw, Real.cos_arccos hlt'.1.le hlt'.2.le]
  have w0 : 0 < w := by rw [hw]; exact Real.arccos_pos.2 hlt'.2
  have w1 : w < Real.pi := by
    rw [hw, lt_iff_le_and_ne]; refine ⟨Real.arccos_le_pi _, ?_⟩
    rw [Ne, Real.arccos_eq_pi]; linarith [hlt'.1]
  refine ⟨θ, α, w, θ0, θ1, fun hl => by rw [hθ]; exact cutoff_near hp hfc hsr hl, hα, α0, α2, w0, w1, hcos, ?_⟩
  intro co hco z1 z2 x m hx
  obtain ⟨e1, e2⟩ := shared_poles hp hfc hsr q0 hco
  rw [← hθ, ← hα] at e1 e2
  have g0 : 0 < (1 - α) / (1 + α) := div_pos (by linarith) (by linarith)
  have gg : √((1 - α) / (1 + α)) ^ 2 = (1 - α) / (1 + α) := Real.sq_sqrt g0.le
  refine decaying_tone (y := fun n => Biquad.outAt ⟨z1, z2, co⟩ x (m + n)) (Real.sqrt_pos.2 g0) (Real.sin_pos_of_pos_of_lt_pi w0 w1).ne'
    (fun n => ?_)
  have := silent_rec (f := ⟨z1, z2, co⟩) hx n
  rw [this, gg]
  simp only
  rw [e1, e2, hcos]
  have key : √((1 - α) / (1 + α)) * (1 / √(1 - α ^ 2)) = 1 / (1 + α) := by
    rw [mul_one_div, ← Real.sqrt_div g0.le, show (1 - α) / (1 + α) / (1 - α ^ 2) = (1 / (1 + α)) ^ 2 by
      have : 1 - α ≠ 0 := by linarith
      have : 1 + α ≠ 0 := by linarith
      rw [show 1 - α ^ 2 = (1 - α) * (1 + α) by ring]; field_simp, Real.sqrt_sq (by positivity)]
  have : 2 * √((1 - α) / (1 + α)) * (Real.cos θ / √(1 - α ^ 2)) = 2 * Real.cos θ / (1 + α) := by
    rw [show 2 * √((1 - α) / (1 + α)) * (Real.cos θ / √(1 - α ^ 2)) = 2 * Real.cos θ * (√((1 - α) / (1 + α)) * (1 / √(1 - α ^ 2))) by ring, key]
    ring
  rw [this]; ring

/-- The logarithm of the ratio, between the first term of its series and the geometric series. -/
theorem log_ratio {α : ℝ} (h0 : 0 < α) (h1 : α < 1) :
    2 * α ≤ Real.log (1 + α) - Real.log (1 - α) ∧ Real.log (1 + α) - Real.log (1 - α) ≤ 2 * α / (1 - α ^ 2) := by
  have hs := Real.hasSum_log_sub_log_of_abs_lt_one (show |α| < 1 by rwa [abs_of_pos h0])
  have a2 : α ^ 2 < 1 := by nlinarith
  constructor
  · have := hs.summable.sum_le_tsum {0} (fun i _ => by positivity)
    rw [hs.tsum_eq] at this
    simpa using this
  · have hg := (hasSum_geometric_of_lt_one (sq_nonneg α) a2).mul_left (2 * α)
    rw [← div_eq_mul_inv] at hg
    refine hasSum_le (fun n => ?_) hs hg
    have : α ^ (2 * n + 1) = α * (α ^ 2) ^ n := by rw [pow_succ, pow_mul]; ring
    rw [this]
    have k : (1 : ℝ) / (2 * n + 1) ≤ 1 := by rw [div_le_one (by positivity)]; linarith [Nat.cast_nonneg (α := ℝ) n]
    have := mul_le_mul_of_nonneg_right k (by positivity : 0 ≤ α * (α ^ 2) ^ n)
    linarith

/-- C184, how long: the tone falls by a factor `D` in `log D/α` samples at most, and takes `1 - α²` of that at least. -/
theorem C184_time {α D : ℝ} (h0 : 0 < α) (h1 : α < 1) (hD : 1 < D) (n : ℕ) :
    (Real.log D / α ≤ n → √((1 - α) / (1 + α)) ^ n ≤ 1 / D) ∧
    (n ≤ (1 - α ^ 2) * (Real.log D / α) → 1 / D ≤ √((1 - α) / (1 + α)) ^ n) := by
  obtain ⟨l1, l2⟩ := log_ratio h0 h1
  have g0 : 0 < (1 - α) / (1 + α) := div_pos (by linarith) (by linarith)
  have r0 : 0 < √((1 - α) / (1 + α)) := Real.sqrt_pos.2 g0
  have p0 : 0 < √((1 - α) / (1 + α)) ^ n := pow_pos r0 n
  have D0 : 0 < D := by linarith
  have a2 : 0 < 1 - α ^ 2 := by nlinarith
  have hl : Real.log (√((1 - α) / (1 + α)) ^ n) = -(n * ((Real.log (1 + α) - Real.log (1 - α)) / 2)) := by
    rw [Real.log_pow, Real.log_sqrt g0.le, Real.log_div (by linarith) (by linarith)]; ring
  have hD' : Real.log (1 / D) = -Real.log D := by rw [one_div, Real.log_inv]
  generalize Real.log (1 + α) - Real.log (1 - α) = l at *
  have n0 : (0:ℝ) ≤ n := Nat.cast_nonneg n
  constructor
  · intro h
    rw [← Real.log_le_log_iff p0 (by positivity), hl, hD']
    rw [div_le_iff₀ h0] at h
    have := mul_le_mul_of_nonneg_left l1 n0
    linarith
  · intro h
    rw [← Real.log_le_log_iff (by positivity) p0, hl, hD']
    have e : (1 - α ^ 2) * (Real.log D / α) = Real.log D / (α / (1 - α ^ 2)) := by field_simp
    rw [e, le_div_iff₀ (by positivity)] at h
    have := mul_le_mul_of_nonneg_left l2 n0
    rw [mul_div_assoc] at this
    linarith

/-- C184, the pitch: below a quarter of the sample rate the tone is lower than the cutoff, above it higher, and by less the higher the
quality. -/
theorem C184_pitch {q θ α w : ℝ} (hq : 1 / 2 < q) (h0 : 0 < θ) (h1 : θ < Real.pi) (hα : α = Real.sin θ / (2 * q)) (w0 : 0 < w) (w1 : w < Real.pi)
    (hw : Real.cos w = Real.cos θ / √(1 - α ^ 2)) :
    (θ < Real.pi / 2 → w < θ) ∧ (Real.pi / 2 < θ → θ < w) ∧ |Real.cos w - Real.cos θ| ≤ 1 / (4 * q ^ 2) := by
  have s0 := Real.sin_pos_of_pos_of_lt_pi h0 h1
  have s1 := Real.sin_le_one θ
  have q0 : 0 < q := by linarith
  have α0 : 0 < α := by rw [hα]; positivity
  have α1 : α ≤ 1 / (2 * q) := by rw [hα]; gcongr
  have α2 : α < 1 := α1.trans_lt (by rw [div_lt_one (by positivity)]; linarith)
  have hsq : α ^ 2 ≤ 1 / (4 * q ^ 2) := by
    calc α ^ 2 ≤ (1 / (2 * q)) ^ 2 := by gcongr
      _ = _ := by ring
  have d0 : 0 < 1 - α ^ 2 := by nlinarith
  have r0 : 0 < √(1 - α ^ 2) := Real.sqrt_pos.2 d0
  have rr : √(1 - α ^ 2) ^ 2 = 1 - α ^ 2 := Real.sq_sqrt d0.le
  generalize √(1 - α ^ 2) = r at *
  have r1 : r < 1 := by nlinarith
  have e : Real.cos θ = Real.cos w * r := by rw [hw]; field_simp
  refine ⟨fun h => ?_, fun h => ?_, ?_⟩
  · have c0 := Real.cos_pos_of_mem_Ioo ⟨by linarith, h⟩
    have : Real.cos θ < Real.cos w := by rw [hw, lt_div_iff₀ r0]; nlinarith
    by_contra hn
    exact absurd (Real.cos_le_cos_of_nonneg_of_le_pi h0.le w1.le (not_lt.1 hn)) (not_le.2 this)
  · have c0 := Real.cos_neg_of_pi_div_two_lt_of_lt h (by linarith)
    have : Real.cos w < Real.cos θ := by rw [hw, div_lt_iff₀ r0]; nlinarith
    by_contra hn
    exact absurd (Real.cos_le_cos_of_nonneg_of_le_pi w0.le h1.le (not_lt.1 hn)) (not_le.2 this)
  · rw [e, show Real.cos w - Real.cos w * r = Real.cos w * (1 - r) by ring, abs_mul, abs_of_pos (by linarith : 0 < 1 - r)]
    have := mul_le_mul_of_nonneg_right (Real.abs_cos_le_one w) (by linarith : 0 ≤ 1 - r)
    nlinarith

/-- C184 in floats: any rounded filter with complex poles not too close to the circle, started empty, once its input has ended: the
decaying tone of its coefficients, up to the rounding of C155. -/
theorem C184_float {co : BiquadCoeffs F32} {x : ℕ → F32} {G : ℚ} (hc : co.Fin) (hr : co.a1.val ^ 2 < 4 * co.a2.val)
    (hs : √(co.a2.val : ℝ) ≤ 1 - 1 / 2 ^ 8) (hx : ∀ n, (x n).isFin = true) (G0 : 1 / 2 ^ 120 ≤ G) (G1 : G ≤ 2 ^ 60)
    (hb : ∀ n, co.FeedsAtMost (x n) G) {m : ℕ} (hm : ∀ n ≥ m, (x n).val = 0) :
    ∃ w A φ : ℝ, 0 < w ∧ w < Real.pi ∧ Real.cos w = -(co.a1.val : ℝ) / (2 * √(co.a2.val : ℝ)) ∧
      ∀ n : ℕ, |(((Biquad.new co).outAt x (m + n)).val : ℝ) - A * √(co.a2.val : ℝ) ^ n * Real.cos (w * n + φ)| ≤
        G / (1 - √(co.a2.val : ℝ)) ^ 4 / 2 ^ 13 := by
  have hr' : (co.a1.val : ℝ) ^ 2 < 4 * (co.a2.val : ℝ) := by exact_mod_cast hr
  obtain ⟨w, A, φ, w0, w1, hw, h⟩ := C184_any (f := Biquad.new co.real) hr' (x := fun k => ((x k).val : ℝ)) (m := m)
    (fun n hn => by rw [hm n hn]; norm_num)
  refine ⟨w, A, φ, w0, w1, hw, fun n => ?_⟩
  have h := h n
  change _ = A * √(co.a2.val : ℝ) ^ n * Real.cos (w * n + φ) at h
  change Real.cos w = -(co.a1.val : ℝ) / (2 * √(co.a2.val : ℝ)) at hw
  have a0 : 0 < (co.a2.val : ℝ) := by nlinarith [sq_nonneg (co.a1.val : ℝ)]
  have r0 : 0 < √(co.a2.val : ℝ) := Real.sqrt_pos.2 a0
  have rr : √(co.a2.val : ℝ) * √(co.a2.val : ℝ) = co.a2.val := Real.mul_self_sqrt a0.le
  generalize √(co.a2.val : ℝ) = r at *
  have np : ∀ u : ℝ, ‖(r : ℂ) * Complex.exp (u * Complex.I)‖ = r := fun u => by
    rw [norm_mul, Complex.norm_exp_ofReal_mul_I, mul_one, Complex.norm_real, Real.norm_eq_abs, abs_of_pos r0]
  have hP : Poles co.a1.val co.a2.val ((r : ℂ) * Complex.exp (w * Complex.I)) ((r : ℂ) * Complex.exp ((-w : ℝ) * Complex.I)) := by
    refine ⟨?_, ?_, ?_, ?_⟩
    · have : (co.a1.val : ℝ) = -(2 * r * Real.cos w) := by rw [hw]; field_simp
      rw [this, ← mul_add, Complex.exp_mul_I, Complex.exp_mul_I]
      push_cast [Complex.cos_neg, Complex.sin_neg]
      ring
    · rw [mul_mul_mul_comm, ← Complex.exp_add, ← rr]
      push_cast
      rw [show (w : ℂ) * Complex.I + -w * Complex.I = 0 by ring, Complex.exp_zero, mul_one]
    · rw [np]; norm_num at hs ⊢; linarith
    · rw [np]; norm_num at hs ⊢; linarith
  have hM : circleMargin ((r : ℂ) * Complex.exp (w * Complex.I)) ((r : ℂ) * Complex.exp ((-w : ℝ) * Complex.I)) = (1 - r) ^ 2 := by
    unfold circleMargin; rw [np, np]; ring
  have := C155_tracks hc hP (by
    rw [hM]
    have : 1 / 2 ^ 8 ≤ 1 - r := by linarith
    calc (1 : ℝ) / 2 ^ 16 = (1 / 2 ^ 8) ^ 2 := by norm_num
      _ ≤ (1 - r) ^ 2 := by gcongr) hx G0 G1 hb (m + n)
  rw [hM, h, ← pow_mul] at this
  exact this

/-- The premises of C184_float: poles at `(1 ± i)/2`, a click. -/
example : ∃ co : BiquadCoeffs F32, co.Fin ∧ co.a1.val ^ 2 < 4 * co.a2.val ∧ √(co.a2.val : ℝ) ≤ 1 - 1 / 2 ^ 8 ∧
    ∀ n : ℕ, co.FeedsAtMost (if n = 0 then lit 1 else lit 0) 1 := by
  refine ⟨⟨lit 1, lit 0, lit 0, lit (-1), lit (1/2)⟩, by unfold BiquadCoeffs.Fin; decide +kernel, by decide +kernel, ?_, fun n => ?_⟩
  · rw [show (lit (1/2) : F32).val = 1 / 2 by decide +kernel]
    exact Real.sqrt_le_iff.2 ⟨by norm_num, by norm_num⟩
  · unfold BiquadCoeffs.FeedsAtMost; split_ifs <;> decide +kernel

/-- A click through a low-pass of quality 20 at 480 Hz, 48 kHz: it rings on, and is a thousand times weaker after 4400 samples
(`log 1000/α`, `α = sin θ/40`), not yet ten times weaker after 1000. -/
example : ∃ α : ℝ, 0 < α ∧ α < 1 ∧ √((1 - α) / (1 + α)) ^ 4500 ≤ 1 / 1000 ∧ 1 / 10 ≤ √((1 - α) / (1 + α)) ^ 1000 ∧
    ∃ w A φ : ℝ, ∀ n : ℕ, (Biquad.new (lowpass (fun x n => x ^ n) 480 20 48000)).outAt (fun n => if n = 0 then 1 else 0) (1 + n) =
      A * √((1 - α) / (1 + α)) ^ n * Real.cos (w * n + φ) := by
  obtain ⟨θ, α, w, t0, t1, hθ, hα, α0, α1, w0, w1, hw, h⟩ := C184_rings (powi := fun x n => x ^ n) (sqrt := Real.sqrt) (gain := 1) (fc := 480) (q := 20)
    (sr := 48000) (fun _ _ => rfl) (by norm_num) (by norm_num) (by norm_num)
  have hθ := abs_le.1 (hθ (by norm_num))
  have p1 := Real.pi_gt_d2
  have p2 := Real.pi_lt_d2
  have θl : 6.27 / 100 ≤ θ := by norm_num at *; linarith [hθ.1]
  have θu : θ ≤ 6.31 / 100 := by norm_num at *; linarith [hθ.2]
  have su : Real.sin θ ≤ θ := Real.sin_le t0.le
  have sl : θ - θ ^ 3 / 6 < Real.sin θ := Real.sin_gt_sub_cube t0
  have sl' : 6.26 / 100 ≤ Real.sin θ := by nlinarith [mul_pos t0 t0]
  have αl : 6.26 / 4000 ≤ α := by rw [hα]; linarith
  have αu : α ≤ 6.31 / 4000 := by rw [hα]; linarith
  have l10 : Real.log 1000 ≤ 7 := by
    rw [Real.log_le_iff_le_exp (by norm_num)]
    have := Real.exp_one_gt_d9
    calc (1000:ℝ) ≤ 2.7182818283 ^ 7 := by norm_num
      _ ≤ Real.exp 1 ^ 7 := by gcongr
      _ = Real.exp 7 := by rw [← Real.exp_nat_mul]; norm_num
  have l11 : 2 ≤ Real.log 10 := by
    rw [Real.le_log_iff_exp_le (by norm_num)]
    have := Real.exp_one_lt_d9
    calc Real.exp 2 = Real.exp 1 ^ 2 := by rw [← Real.exp_nat_mul]; norm_num
      _ ≤ 2.7182818286 ^ 2 := by gcongr
      _ ≤ 10 := by norm_num
  refine ⟨α, α0, α1, (C184_time α0 α1 (by norm_num) 4500).1 ?_, (C184_time α0 α1 (by norm_num) 1000).2 ?_, w, ?_⟩
  · rw [div_le_iff₀ α0]; push_cast; linarith
  · push_cast
    rw [← mul_div_assoc, le_div_iff₀ α0]
    have a2 : α ^ 2 ≤ 1 / 100 := by nlinarith
    have := mul_le_mul (by linarith : 99 / 100 ≤ 1 - α ^ 2) l11 (by norm_num) (by linarith)
    linarith
  · exact h (lowpass (fun x n => x ^ n) 480 20 48000) (by simp) (lit 0) (lit 0) (fun n => if n = 0 then 1 else 0) 1 (fun n hn => if_neg (by omega))

end Verif
