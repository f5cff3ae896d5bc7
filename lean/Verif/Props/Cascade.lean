import Mathlib.FieldTheory.KummerExtension
import Mathlib.RingTheory.PowerSeries.NoZeroDivisors
import Mathlib.RingTheory.RootsOfUnity.Complex
import Verif.Props.Magnitude

/-! # C147–C149: the designs fit together, cascades of them, and crossovers made of them

In exact arithmetic, sample by sample and for every input (C147, C149) or over all frequencies (C148). -/

namespace Verif
open Butterworth

/-! ## Filters as quotients of power series -/

section
variable {K : Type} [Field K]
open PowerSeries

/-- Numerator and denominator in powers of the one-sample delay. -/
noncomputable def numS (co : BiquadCoeffs K) : PowerSeries K := C co.b0 * X ^ 0 + C co.b1 * X ^ 1 + C co.b2 * X ^ 2
noncomputable def denS (co : BiquadCoeffs K) : PowerSeries K := 1 + C co.a1 * X ^ 1 + C co.a2 * X ^ 2

theorem coeff_delay (b : K) (k n : ℕ) (x : ℕ → K) : coeff n (C b * X ^ k * mk x) = b * past x n k := by
  rw [mul_assoc, coeff_C_mul, coeff_X_pow_mul']
  simp [past]

theorem series_out (co : BiquadCoeffs K) (x : ℕ → K) : denS co * mk ((Biquad.new co).outAt x) = numS co * mk x := by
  ext n
  unfold denS numS
  rw [add_mul, add_mul, one_mul, add_mul, add_mul]
  simp only [map_add, coeff_delay, coeff_mk]
  rw [C27_difference_equation co x n]
  ring

theorem denS_ne (co : BiquadCoeffs K) : denS co ≠ 0 := by
  intro h
  have := congrArg (coeff 0) h
  simp [denS] at this

theorem series_eq {x y : ℕ → K} (h : mk x = mk y) (n : ℕ) : x n = y n := by
  have := congrArg (coeff n) h
  simpa using this
end

section
variable {powi : ℝ → ℕ → ℝ} {sqrt : ℝ → ℝ} {fc q gain sr : ℝ}
open PowerSeries

/-- Filters with one denominator add up coefficient by coefficient. -/
theorem combine {c d e : BiquadCoeffs ℝ} (h1 : c.a1 = d.a1) (h2 : c.a2 = d.a2) (h3 : c.a1 = e.a1) (h4 : c.a2 = e.a2) {s t r : ℝ}
    (h0 : e.b0 = s * c.b0 + t * d.b0 + r) (h5 : e.b1 = s * c.b1 + t * d.b1 + r * e.a1)
    (h6 : e.b2 = s * c.b2 + t * d.b2 + r * e.a2) (x : ℕ → ℝ) (n : ℕ) :
    (Biquad.new e).outAt x n = s * (Biquad.new c).outAt x n + t * (Biquad.new d).outAt x n + r * x n := by
  have hc := series_out c x
  have hd := series_out d x
  have he := series_out e x
  have d1 : denS c = denS e := by simp only [denS, h3, h4]
  have d2 : denS d = denS e := by simp only [denS, ← h1, ← h2, h3, h4]
  have key : mk ((Biquad.new e).outAt x) =
      mk (fun n => s * (Biquad.new c).outAt x n + t * (Biquad.new d).outAt x n + r * x n) := by
    apply mul_left_cancel₀ (denS_ne e)
    have e1 : mk (fun n => s * (Biquad.new c).outAt x n + t * (Biquad.new d).outAt x n + r * x n) =
        C s * mk ((Biquad.new c).outAt x) + C t * mk ((Biquad.new d).outAt x) + C r * mk x := by
      ext n; simp [coeff_C_mul]
    rw [e1, he]
    rw [d1] at hc
    rw [d2] at hd
    have e2 : numS e = C s * numS c + C t * numS d + C r * denS e := by
      unfold numS denS
      rw [h0, h5, h6]
      simp only [map_add, map_mul]
      ring
    rw [e2]
    linear_combination -C s * hc - C t * hd
  exact series_eq key n

/-! ## C147 -/

/-- C147: for every input, sample by sample, the notch is the sum of the low-pass and the high-pass of the same frequency
and quality. -/
theorem C147_notch (hp : PowiExact powi) (hfc : 0 < fc) (hq : 0 < q) (hsr : 0 < sr) (x : ℕ → ℝ) (n : ℕ) :
    (Biquad.new (notch powi fc q sr)).outAt x n =
      (Biquad.new (lowpass powi fc q sr)).outAt x n + (Biquad.new (highpass powi fc q sr)).outAt x n := by
  have hk := warp_pos hp hfc hsr
  have hn := nondegenerate hq hk
  have := combine (c := lowpass powi fc q sr) (d := highpass powi fc q sr) (e := notch powi fc q sr) (s := 1) (t := 1) (r := 0)
    (by simp [lowpass, highpass, lowpassOf, highpassOf, setup_eq, Lit.lit]; ring)
    (by simp [lowpass, highpass, lowpassOf, highpassOf, setup_eq, Lit.lit])
    (by simp [lowpass, notch, lowpassOf, notchOf, setup_eq, Lit.lit]; ring)
    (by simp [lowpass, notch, lowpassOf, notchOf, setup_eq, Lit.lit])
    (by simp [lowpass, highpass, notch, lowpassOf, highpassOf, notchOf, setup_eq, Lit.lit]; ring)
    (by simp [lowpass, highpass, notch, lowpassOf, highpassOf, notchOf, setup_eq, Lit.lit]; ring)
    (by simp [lowpass, highpass, notch, lowpassOf, highpassOf, notchOf, setup_eq, Lit.lit]; ring) x n
  rw [this]; ring

/-- C147: the all-pass is twice the notch less the input. -/
theorem C147_allpass (hp : PowiExact powi) (hfc : 0 < fc) (hq : 0 < q) (hsr : 0 < sr) (x : ℕ → ℝ) (n : ℕ) :
    (Biquad.new (allpass powi fc q sr)).outAt x n = 2 * (Biquad.new (notch powi fc q sr)).outAt x n - x n := by
  have hk := warp_pos hp hfc hsr
  have hn := nondegenerate hq hk
  have := combine (c := notch powi fc q sr) (d := notch powi fc q sr) (e := allpass powi fc q sr) (s := 2) (t := 0) (r := -1)
    rfl rfl
    (by simp [allpass, notch, allpassOf, notchOf, setup_eq, Lit.lit])
    (by simp [allpass, notch, allpassOf, notchOf, setup_eq, Lit.lit])
    (by simp [allpass, notch, allpassOf, notchOf, setup_eq, Lit.lit]; field_simp; ring)
    (by simp [allpass, notch, allpassOf, notchOf, setup_eq, Lit.lit]; field_simp; ring)
    (by simp [allpass, notch, allpassOf, notchOf, setup_eq, Lit.lit]; field_simp; ring) x n
  rw [this]; ring

/-- C147: the boosting bell adds `gain - 1` times what the notch takes away. -/
theorem C147_bell (hp : PowiExact powi) (hfc : 0 < fc) (hq : 0 < q) (hsr : 0 < sr) (gain : ℝ) (x : ℕ → ℝ) (n : ℕ) :
    (Biquad.new (bellBoost powi fc q gain sr)).outAt x n =
      x n + (gain - 1) * (x n - (Biquad.new (notch powi fc q sr)).outAt x n) := by
  have hk := warp_pos hp hfc hsr
  have hn := nondegenerate hq hk
  have := combine (c := notch powi fc q sr) (d := notch powi fc q sr) (e := bellBoost powi fc q gain sr) (s := 1 - gain) (t := 0)
    (r := gain) rfl rfl
    (by simp [bellBoost, notch, bellBoostOf, notchOf, setup_eq, Lit.lit])
    (by simp [bellBoost, notch, bellBoostOf, notchOf, setup_eq, Lit.lit])
    (by simp [bellBoost, notch, bellBoostOf, notchOf, setup_eq, Lit.lit]; field_simp; ring)
    (by simp [bellBoost, notch, bellBoostOf, notchOf, setup_eq, Lit.lit]; field_simp; ring)
    (by simp [bellBoost, notch, bellBoostOf, notchOf, setup_eq, Lit.lit]; field_simp; ring) x n
  rw [this]; ring

/-! ## C148 -/

/-- The factors of `u^{2n} + v^{2n}`. -/
theorem prod_cos {n : ℕ} (hn : 0 < n) (u v : ℝ) :
    ∏ i ∈ Finset.range n, (u ^ 2 + v ^ 2 + 2 * u * v * Real.cos ((2 * i + 1) * Real.pi / (2 * n))) = u ^ (2 * n) + v ^ (2 * n) := by
  have hn' : (n : ℂ) ≠ 0 := by exact_mod_cast hn.ne'
  have hnr : (n : ℝ) ≠ 0 := by exact_mod_cast hn.ne'
  set φ : ℕ → ℝ := fun i => (2 * i + 1) * Real.pi / (2 * n) with hφ
  let f : ℕ → ℂ := fun i => u + v * Complex.exp (φ i * Complex.I)
  have hall : ∏ i ∈ Finset.range (2 * n), f i = (u : ℂ) ^ (2 * n) + (v : ℂ) ^ (2 * n) := by
    have hz := Complex.isPrimitiveRoot_exp (2 * n) (by omega)
    have := X_pow_sub_C_eq_prod hz (show 0 < 2 * n by omega) (α := -(v * Complex.exp (Real.pi / (2 * n) * Complex.I)))
      (a := -(v : ℂ) ^ (2 * n)) (by
        rw [neg_pow, mul_pow, ← Complex.exp_nat_mul, Even.neg_one_pow (even_two_mul n)]
        rw [show ((2 * n : ℕ) : ℂ) * (Real.pi / (2 * n) * Complex.I) = Real.pi * Complex.I by push_cast; field_simp,
          Complex.exp_pi_mul_I]; ring)
    have := congrArg (Polynomial.eval (u : ℂ)) this
    rw [Polynomial.eval_prod] at this
    simp only [Polynomial.eval_sub, Polynomial.eval_pow, Polynomial.eval_X, Polynomial.eval_C] at this
    rw [sub_neg_eq_add] at this
    rw [this]
    refine Finset.prod_congr rfl fun i _ => ?_
    show (u : ℂ) + v * Complex.exp (φ i * Complex.I) = _
    rw [← Complex.exp_nat_mul, mul_neg, sub_neg_eq_add, mul_left_comm, ← Complex.exp_add]
    congr 3
    simp only [hφ]
    push_cast
    field_simp
  rw [two_mul n, Finset.prod_range_add, ← Finset.prod_range_reflect (fun i => f (n + i)), ← Finset.prod_mul_distrib] at hall
  have : ((∏ i ∈ Finset.range n, (u ^ 2 + v ^ 2 + 2 * u * v * Real.cos (φ i)) : ℝ) : ℂ) = (u : ℂ) ^ (n + n) + (v : ℂ) ^ (n + n) := by
    rw [← hall]
    push_cast
    refine Finset.prod_congr rfl fun i hi => ?_
    have hi := Finset.mem_range.1 hi
    have e1 : φ (n + (n - 1 - i)) = 2 * Real.pi - φ i := by
      simp only [hφ]
      have : ((n + (n - 1 - i) : ℕ) : ℝ) = 2 * n - 1 - i := by
        rw [show n + (n - 1 - i) = 2 * n - (1 + i) by omega, Nat.cast_sub (by omega)]; push_cast; ring
      rw [this]; field_simp; ring
    show _ = ((u : ℂ) + v * Complex.exp (φ i * Complex.I)) * (u + v * Complex.exp (φ (n + (n - 1 - i)) * Complex.I))
    rw [e1, show ((2 * Real.pi - φ i : ℝ) : ℂ) * Complex.I = 2 * Real.pi * Complex.I + -(φ i * Complex.I) by push_cast; ring,
      Complex.exp_add, Complex.exp_two_pi_mul_I, one_mul, Complex.exp_neg]
    have h0 := Complex.exp_ne_zero (φ i * Complex.I)
    rw [Complex.cos, neg_mul, Complex.exp_neg]
    field_simp
    ring
  rw [← two_mul] at this
  have h2 : ∏ i ∈ Finset.range n, (u ^ 2 + v ^ 2 + 2 * u * v * Real.cos (φ i)) = u ^ (2 * n) + v ^ (2 * n) := by exact_mod_cast this
  exact h2

/-- The quality of section `i` of `n`. -/
noncomputable def sectionQ (n i : ℕ) : ℝ := 1 / (2 * Real.cos ((2 * i + 1) * Real.pi / (4 * n)))

theorem sectionQ_pos {n i : ℕ} (h : i < n) : 0 < sectionQ n i := by
  unfold sectionQ
  have hn : (0:ℝ) < n := by exact_mod_cast (by omega : 0 < n)
  have hi : (i : ℝ) + 1 ≤ n := by exact_mod_cast h
  have : 0 < Real.cos ((2 * i + 1) * Real.pi / (4 * n)) := by
    apply Real.cos_pos_of_mem_Ioo
    constructor
    · have : 0 < (2 * i + 1) * Real.pi / (4 * n) := by have := Real.pi_pos; positivity
      linarith [Real.pi_pos]
    · rw [div_lt_div_iff₀ (by positivity) (by norm_num)]
      nlinarith [Real.pi_pos]
  positivity

theorem section_prod {n : ℕ} (hn : 0 < n) (k : ℝ) (z : ℂ) :
    ∏ i ∈ Finset.range n, ((k ^ 2 * (1 + z.re) - (1 - z.re)) ^ 2 + (k / sectionQ n i) ^ 2 * ((1 - z.re) * (1 + z.re))) =
      (k ^ 2 * (1 + z.re)) ^ (2 * n) + (1 - z.re) ^ (2 * n) := by
  rw [← prod_cos hn]
  refine Finset.prod_congr rfl fun i hi => ?_
  have hn' : (n : ℝ) ≠ 0 := by exact_mod_cast hn.ne'
  rw [show (2 * (i:ℝ) + 1) * Real.pi / (2 * n) = 2 * ((2 * i + 1) * Real.pi / (4 * n)) by field_simp; ring, Real.cos_two_mul]
  unfold sectionQ
  rw [one_div, div_inv_eq_mul]
  ring

theorem half_one_add (θ : ℝ) : 1 + Real.cos θ = 2 * Real.cos (θ / 2) ^ 2 := by
  have := Real.cos_two_mul (θ / 2); rw [show 2 * (θ / 2) = θ by ring] at this; linarith

theorem half_one_sub (θ : ℝ) : 1 - Real.cos θ = 2 * Real.sin (θ / 2) ^ 2 := by
  have := half_one_add θ
  have := Real.sin_sq_add_cos_sq (θ / 2); linarith

theorem half_pow (k c : ℝ) (n : ℕ) : (k ^ 2 * (2 * c ^ 2)) ^ (2 * n) = 2 ^ (2 * n) * (k * c) ^ (4 * n) := by
  rw [show 4 * n = 2 * (2 * n) by ring, pow_mul (k * _), ← mul_pow]; congr 1; ring

theorem half_pow' (c : ℝ) (n : ℕ) : (2 * c ^ 2) ^ (2 * n) = 2 ^ (2 * n) * c ^ (4 * n) := by
  rw [show 4 * n = 2 * (2 * n) by ring, pow_mul c, ← mul_pow]

/-- C148: `n` low-pass sections with the qualities of `sectionQ` in series are the Butterworth low-pass of order `2n`: at
every angle `θ` per sample, with `r` the ratio of the warped frequencies, the squared gain is `1/(1 + r^{4n})`. -/
theorem C148_lowpass (hp : PowiExact powi) (hfc : 0 < fc) (hsr : 0 < sr) {n : ℕ} (hn : 0 < n) {θ : ℝ} (h0 : -Real.pi < θ)
    (h1 : θ < Real.pi) :
    (∏ i ∈ Finset.range n, ‖(lowpass powi fc (sectionQ n i) sr).cgain (tone θ)‖) ^ 2 =
      1 / (1 + (Real.tan (θ / 2) / warp powi fc sr) ^ (4 * n)) := by
  have hk := warp_pos hp hfc hsr
  have hc : 0 < Real.cos (θ / 2) := Real.cos_pos_of_mem_Ioo ⟨by linarith, by linarith⟩
  have e : ∏ i ∈ Finset.range n, ‖(lowpass powi fc (sectionQ n i) sr).cgain (tone θ)‖ ^ 2 =
      (warp powi fc sr ^ 2 * (1 + (tone θ).re)) ^ (2 * n) /
        ((warp powi fc sr ^ 2 * (1 + (tone θ).re)) ^ (2 * n) + (1 - (tone θ).re) ^ (2 * n)) := by
    rw [← section_prod hn _ (tone θ), pow_mul, ← Finset.card_range n, ← Finset.prod_const, Finset.card_range, ← Finset.prod_div_distrib]
    exact Finset.prod_congr rfl fun i hi =>
      (lowpass_magnitude hp hfc (sectionQ_pos (Finset.mem_range.1 hi)) hsr (tone_norm θ)).2
  rw [← Finset.prod_pow, e, tone_re, half_one_add, half_one_sub, Real.tan_eq_sin_div_cos]
  set k := warp powi fc sr
  rw [half_pow, half_pow', div_div, div_pow, mul_comm (Real.cos _)]
  have : 0 < (k * Real.cos (θ / 2)) ^ (4 * n) := by positivity
  have h4 : 0 ≤ Real.sin (θ / 2) ^ (4 * n) := by rw [show 4 * n = 2 * (2 * n) by ring, pow_mul]; positivity
  field_simp

/-- C148: and `n` high-pass sections the Butterworth high-pass: the squared gain is `r^{4n}/(1 + r^{4n})`. -/
theorem C148_highpass (hp : PowiExact powi) (hfc : 0 < fc) (hsr : 0 < sr) {n : ℕ} (hn : 0 < n) {θ : ℝ} (h0 : -Real.pi < θ)
    (h1 : θ < Real.pi) :
    (∏ i ∈ Finset.range n, ‖(highpass powi fc (sectionQ n i) sr).cgain (tone θ)‖) ^ 2 =
      (Real.tan (θ / 2) / warp powi fc sr) ^ (4 * n) / (1 + (Real.tan (θ / 2) / warp powi fc sr) ^ (4 * n)) := by
  have hk := warp_pos hp hfc hsr
  have hc : 0 < Real.cos (θ / 2) := Real.cos_pos_of_mem_Ioo ⟨by linarith, by linarith⟩
  have e : ∏ i ∈ Finset.range n, ‖(highpass powi fc (sectionQ n i) sr).cgain (tone θ)‖ ^ 2 =
      (1 - (tone θ).re) ^ (2 * n) /
        ((warp powi fc sr ^ 2 * (1 + (tone θ).re)) ^ (2 * n) + (1 - (tone θ).re) ^ (2 * n)) := by
    rw [← section_prod hn _ (tone θ), pow_mul, ← Finset.card_range n, ← Finset.prod_const, Finset.card_range, ← Finset.prod_div_distrib]
    exact Finset.prod_congr rfl fun i hi =>
      (highpass_magnitude hp hfc (sectionQ_pos (Finset.mem_range.1 hi)) hsr (tone_norm θ)).2
  rw [← Finset.prod_pow, e, tone_re, half_one_add, half_one_sub, Real.tan_eq_sin_div_cos]
  set k := warp powi fc sr
  rw [half_pow, half_pow', div_div, div_pow, mul_comm (Real.cos _)]
  have : 0 < (k * Real.cos (θ / 2)) ^ (4 * n) := by positivity
  have h4 : 0 ≤ Real.sin (θ / 2) ^ (4 * n) := by rw [show 4 * n = 2 * (2 * n) by ring, pow_mul]; positivity
  field_simp

/-- A first-order recurrence with its pole inside the circle, driven by something that dies away, dies away. -/
theorem one_pole_decays {p : ℂ} (hp : ‖p‖ < 1) {u v : ℕ → ℂ} (hv : Filter.Tendsto v Filter.atTop (nhds 0))
    (h : ∀ n, u n = v n + p * past u n 1) : Filter.Tendsto u Filter.atTop (nhds 0) := by
  have h1 : 0 < 1 - ‖p‖ := by linarith
  rw [NormedAddGroup.tendsto_nhds_zero]
  intro ε hε
  have hv' := (NormedAddGroup.tendsto_nhds_zero.1 hv) (ε / 2 * (1 - ‖p‖)) (by positivity)
  obtain ⟨N, hN⟩ := Filter.eventually_atTop.1 hv'
  have key : ∀ m, ‖u (N + m)‖ ≤ ‖p‖ ^ m * ‖u N‖ + ε / 2 := by
    intro m
    induction m with
    | zero => simp; positivity
    | succ m ih =>
      rw [h (N + (m + 1))]
      simp only [past, show 1 ≤ N + (m + 1) by omega, if_true, show N + (m + 1) - 1 = N + m by omega]
      refine (norm_add_le _ _).trans ?_
      rw [norm_mul]
      have h2 := mul_le_mul_of_nonneg_left ih (norm_nonneg p)
      have h3 := (hN (N + (m + 1)) (by omega)).le
      rw [pow_succ]
      nlinarith
  have hpow : Filter.Tendsto (fun m => ‖p‖ ^ m * ‖u N‖) Filter.atTop (nhds 0) := by
    simpa using (tendsto_pow_atTop_nhds_zero_of_lt_one (norm_nonneg p) hp).mul_const ‖u N‖
  have := hpow.eventually (gt_mem_nhds (show (0:ℝ) < ε / 2 by positivity))
  obtain ⟨M, hM⟩ := Filter.eventually_atTop.1 this
  refine Filter.eventually_atTop.2 ⟨N + M, fun n hn => ?_⟩
  obtain ⟨m, rfl⟩ : ∃ m, n = N + m := ⟨n - N, by omega⟩
  have := key m
  have := hM m (by omega)
  linarith

theorem past_tendsto {x : ℕ → ℂ} (hx : Filter.Tendsto x Filter.atTop (nhds 0)) (k : ℕ) :
    Filter.Tendsto (fun n => past x n k) Filter.atTop (nhds 0) := by
  refine (Filter.tendsto_add_atTop_iff_nat k).1 (hx.congr fun n => ?_)
  simp [past]

/-- A stable filter fed with something that dies away dies away. -/
theorem decaying_input {co : BiquadCoeffs ℂ} (hs : ∀ z, co.den z = 0 → ‖z‖ < 1) {x : ℕ → ℂ}
    (hx : Filter.Tendsto x Filter.atTop (nhds 0)) : Filter.Tendsto ((Biquad.new co).outAt x) Filter.atTop (nhds 0) := by
  obtain ⟨p, r, hpr, hpr'⟩ := exists_roots co.a1 co.a2
  have ha : co.a1 = -(p + r) := by rw [hpr]; ring
  have hp : ‖p‖ < 1 := hs p (by unfold BiquadCoeffs.den; rw [← hpr', ha]; ring)
  have hr : ‖r‖ < 1 := hs r (by unfold BiquadCoeffs.den; rw [← hpr', ha]; ring)
  set y := (Biquad.new co).outAt x with hy
  set v : ℕ → ℂ := fun n => co.b0 * past x n 0 + co.b1 * past x n 1 + co.b2 * past x n 2 with hv
  have hv0 : Filter.Tendsto v Filter.atTop (nhds 0) := by
    have := (((past_tendsto hx 0).const_mul co.b0).add ((past_tendsto hx 1).const_mul co.b1)).add
      ((past_tendsto hx 2).const_mul co.b2)
    simpa using this
  have hd : ∀ n, y n = v n + (p + r) * past y n 1 - p * r * past y n 2 := by
    intro n
    have := C27_difference_equation co x n
    rw [← hy] at this
    rw [this, ha, ← hpr']; ring
  set w : ℕ → ℂ := fun n => y n - p * past y n 1 with hw
  have hw1 : ∀ n, w n = v n + r * past w n 1 := by
    intro n
    simp only [hw]
    rw [hd n]
    rcases n with _ | _ | n <;> simp [past] <;> ring
  have hw0 := one_pole_decays hr hv0 hw1
  exact one_pole_decays hp hw0 (fun n => by simp only [hw]; ring)

/-- Filters in series: each is fed with what the one before puts out. -/
def chain : List (Biquad ℝ) → (ℕ → ℝ) → ℕ → ℝ
  | [], x => x
  | f :: fs, x => chain fs (f.outAt x)

theorem chain_settles {z : ℂ} (hz : ‖z‖ = 1) : ∀ (fs : List (Biquad ℝ)) (_ : ∀ f ∈ fs, f.coeffs.Stable) (G : ℂ) (x : ℕ → ℝ),
    Filter.Tendsto (fun n => x n - (G * z ^ n).re) Filter.atTop (nhds 0) →
    Filter.Tendsto (fun n => chain fs x n - ((G * (fs.map fun f => f.coeffs.cgain z).prod) * z ^ n).re) Filter.atTop (nhds 0)
  | [], _, G, x, h => by simpa [chain] using h
  | f :: fs, hs, G, x, h => by
    have ih := chain_settles hz fs (fun g hg => hs g (List.mem_cons_of_mem _ hg)) (G * f.coeffs.cgain z) (f.outAt x)
    simp only [List.map_cons, List.prod_cons, ← mul_assoc]
    refine ih ?_
    have hst : ∀ w, (f.coeffs.map (fun r : ℝ => (r : ℂ))).den w = 0 → ‖w‖ < 1 := hs f List.mem_cons_self
    set co := f.coeffs.map (fun r : ℝ => (r : ℂ)) with hco
    set g : Biquad ℂ := ⟨(f.z1 : ℂ), f.z2, co⟩ with hg
    -- the input is the settled sinusoid and something that dies away
    have e1 : ∀ n, f.outAt x n = f.outAt (fun m => (G * z ^ m).re) n + (Biquad.new f.coeffs).outAt (fun m => x m - (G * z ^ m).re) n := by
      intro n
      have s1 := superpose f.coeffs 1 1 f (Biquad.new f.coeffs) rfl rfl (fun m => (G * z ^ m).re) (fun m => x m - (G * z ^ m).re) n
      simp only [Biquad.new, Lit.lit, Rat.cast_zero, mul_zero, add_zero, one_mul, add_sub_cancel] at s1 ⊢
      rw [← s1]
    have e2 : ∀ n, f.outAt (fun m => (G * z ^ m).re) n =
        (g.outAt (fun _ => 0) n + G * (Biquad.new co).outAt (fun m => z ^ m) n).re := by
      intro n
      rw [← outAt_re f (fun m => G * z ^ m) n, ← hco, ← hg]
      have s1 := superpose co 1 G g (Biquad.new co) rfl rfl (fun _ => 0) (fun m => z ^ m) n
      simp only [Biquad.new, Lit.lit, Rat.cast_zero, mul_zero, add_zero, one_mul, zero_add] at s1 ⊢
      rw [← s1]
    have t1 : Filter.Tendsto ((Biquad.new f.coeffs).outAt (fun m => x m - (G * z ^ m).re)) Filter.atTop (nhds 0) := by
      have := decaying_input hst (x := fun m => ((x m - (G * z ^ m).re : ℝ) : ℂ))
        (by have := (Complex.continuous_ofReal.tendsto _).comp h; simpa [Function.comp_def] using this)
      have := (Complex.continuous_re.tendsto _).comp this
      rw [Complex.zero_re] at this
      refine this.congr fun n => ?_
      have e := outAt_ofReal (Biquad.new f.coeffs) (fun m => x m - (G * z ^ m).re) n
      rw [Function.comp_apply, ← Complex.ofReal_re ((Biquad.new f.coeffs).outAt _ n), e]
      simp [Biquad.new, Lit.lit, hco]
    have t2 := free_response hst g rfl
    have t3 := (gain_measured hst hz (Biquad.new co) rfl).const_mul G
    have t4 := (Complex.continuous_re.tendsto _).comp (t2.add t3)
    rw [mul_zero, add_zero, Complex.zero_re] at t4
    have t5 := t4.add t1
    rw [add_zero] at t5
    refine t5.congr fun n => ?_
    rw [e1, e2]
    have : co.gain z = f.coeffs.cgain z := rfl
    rw [Function.comp_apply, this]
    simp only [Complex.add_re, mul_sub, Complex.sub_re, mul_assoc]
    ring

/-- C148: what the product of the gains says is what the chain does: from any states, stable filters in series turn a cosine
into the cosine of the same frequency scaled by the product of their gains and shifted by its argument. -/
theorem C148_chain (fs : List (Biquad ℝ)) (hs : ∀ f ∈ fs, f.coeffs.Stable) (θ : ℝ) :
    Filter.Tendsto (fun n : ℕ => chain fs (fun m => Real.cos (θ * m)) n -
      ‖(fs.map fun f => f.coeffs.cgain (tone θ)).prod‖ *
        Real.cos (θ * n + (fs.map fun f : Biquad ℝ => f.coeffs.cgain (tone θ)).prod.arg)) Filter.atTop (nhds 0) := by
  have hpow : ∀ m : ℕ, tone θ ^ m = Complex.exp (((θ * m : ℝ) : ℂ) * Complex.I) := by
    intro m; unfold tone; rw [← Complex.exp_nat_mul]; congr 1; push_cast; ring
  have := chain_settles (tone_norm θ) fs hs 1 (fun m => Real.cos (θ * m)) (by
    refine tendsto_const_nhds.congr fun n => ?_
    rw [one_mul, hpow, Complex.exp_ofReal_mul_I_re, sub_self])
  refine this.congr fun n => ?_
  congr 1
  rw [one_mul]
  generalize (fs.map fun f : Biquad ℝ => f.coeffs.cgain (tone θ)).prod = P
  conv_lhs => rw [← Complex.norm_mul_exp_arg_mul_I P]
  rw [hpow, mul_assoc, ← Complex.exp_add, ← add_mul, ← Complex.ofReal_add, Complex.re_ofReal_mul, Complex.exp_ofReal_mul_I_re,
    add_comm]

/-- One section has quality `1/√2`; the two of the fourth order have 0.5412 and 1.3066. -/
example : sectionQ 1 0 = 1 / Real.sqrt 2 := by
  unfold sectionQ
  rw [show (2 * ((0:ℕ):ℝ) + 1) * Real.pi / (4 * ((1:ℕ):ℝ)) = Real.pi / 4 by norm_num, Real.cos_pi_div_four]
  congr 1; ring

example : sectionQ 2 0 * sectionQ 2 1 = 1 / Real.sqrt 2 := by
  unfold sectionQ
  rw [show (2 * ((0:ℕ):ℝ) + 1) * Real.pi / (4 * ((2:ℕ):ℝ)) = Real.pi / 8 by norm_num,
    show (2 * ((1:ℕ):ℝ) + 1) * Real.pi / (4 * ((2:ℕ):ℝ)) = Real.pi / 2 - Real.pi / 8 by ring, Real.cos_pi_div_two_sub]
  have := Real.sin_two_mul (Real.pi / 8)
  rw [show 2 * (Real.pi / 8) = Real.pi / 4 by ring, Real.sin_pi_div_four] at this
  have hs := Real.sqrt_pos.2 (show (0:ℝ) < 2 by norm_num)
  rw [one_div_mul_one_div, show 2 * Real.cos (Real.pi / 8) * (2 * Real.sin (Real.pi / 8)) = Real.sqrt 2 by linarith]

/-- At the cutoff every order has the gain `1/√2`. -/
example (n : ℕ) (hn : 0 < n) : (∏ i ∈ Finset.range n,
    ‖(lowpass (fun x n => x ^ n) 1000 (sectionQ n i) 48000).cgain (tone (2 * Real.arctan (warp (fun x n => x ^ n) 1000 48000)))‖) ^ 2
      = 1 / 2 := by
  have h0 := Real.neg_pi_div_two_lt_arctan (warp (fun x n => x ^ n) 1000 48000)
  have h1 := Real.arctan_lt_pi_div_two (warp (fun x n => x ^ n) 1000 48000)
  rw [C148_lowpass (fun _ _ => rfl) (by norm_num) (by norm_num) hn (by linarith) (by linarith),
    mul_div_cancel_left₀ _ (two_ne_zero), Real.tan_arctan, div_self demo_warp_pos.ne', one_pow]
  norm_num

/-! ## C147, C149, concretely -/

/-- Of an impulse, the three filters pass: low-pass and high-pass add up to the notch. -/
example : (Biquad.new (notch (fun x n => x ^ n) 1000 1 48000)).outAt (fun n => if n = 0 then 1 else 0) 0 =
    (1 + warp (fun x n => x ^ n) 1000 48000 ^ 2) / (1 + warp (fun x n => x ^ n) 1000 48000 + warp (fun x n => x ^ n) 1000 48000 ^ 2) := by
  simp [Biquad.outAt, Biquad.stateAt, Biquad.process, Biquad.new, notch, notchOf, setup_eq, Lit.lit]
  field_simp

/-! ## C149 -/

/-- C149: the crossover of fourth order (two low-passes in series, two high-passes in series, each of quality `1/√2`) adds up
to the all-pass of the same frequency and quality: for every input, sample by sample. -/
theorem C149_crossover (hp : PowiExact powi) (hfc : 0 < fc) (hq : 0 < q) (hq2 : q ^ 2 = 1 / 2) (hsr : 0 < sr) (x : ℕ → ℝ) (n : ℕ) :
    (Biquad.new (lowpass powi fc q sr)).outAt ((Biquad.new (lowpass powi fc q sr)).outAt x) n +
      (Biquad.new (highpass powi fc q sr)).outAt ((Biquad.new (highpass powi fc q sr)).outAt x) n =
    (Biquad.new (allpass powi fc q sr)).outAt x n := by
  have hk := warp_pos hp hfc hsr
  have hn := nondegenerate hq hk
  set L := lowpass powi fc q sr with hL
  set H := highpass powi fc q sr with hH
  set A := allpass powi fc q sr with hA
  have l1 := series_out L x
  have l2 := series_out L ((Biquad.new L).outAt x)
  have h1 := series_out H x
  have h2 := series_out H ((Biquad.new H).outAt x)
  have a := series_out A x
  have dH : denS H = denS L := by
    simp [denS, hL, hH, lowpass, highpass, lowpassOf, highpassOf, setup_eq, Lit.lit]; ring
  have dA : denS A = denS L := by
    simp [denS, hL, hA, lowpass, allpass, lowpassOf, allpassOf, setup_eq, Lit.lit]; ring
  have key : numS L * numS L + numS H * numS H = numS A * denS L := by
    have two : (C (2 : ℝ) : PowerSeries ℝ) = 2 := map_ofNat C 2
    set k := warp powi fc sr with hkk
    set N : PowerSeries ℝ := C (1 / (1 + k / q + k ^ 2)) with hN
    set k2 : PowerSeries ℝ := C (k ^ 2) with hk2
    set r : PowerSeries ℝ := C (k / q) with hr
    have u : N * (1 + r + k2) = 1 := by
      rw [hN, hr, hk2, show (1 : PowerSeries ℝ) = C 1 from (map_one _).symm, ← map_add, ← map_add, ← map_mul]
      congr 1; field_simp
    have rr : r * r = 2 * k2 := by
      rw [hr, hk2, show (2 : PowerSeries ℝ) = C 2 from (map_ofNat C 2).symm, ← map_mul, ← map_mul]
      congr 1; field_simp; rw [hq2]; ring
    have nL : numS L = N * k2 * (1 + X) ^ 2 := by
      simp [numS, hL, lowpass, lowpassOf, setup_eq, Lit.lit, ← hkk, two, hN, hk2]; ring
    have nH : numS H = N * (1 - X) ^ 2 := by
      simp [numS, hH, highpass, highpassOf, setup_eq, Lit.lit, ← hkk, two, hN]; ring
    have nA : numS A = N * ((1 - r + k2) + 2 * (k2 - 1) * X + (1 + r + k2) * X ^ 2) := by
      have : numS A = N * (1 - r + k2) + N * (2 * (k2 - 1)) * X + X ^ 2 := by
        simp [numS, hA, allpass, allpassOf, setup_eq, Lit.lit, ← hkk, two, hN, hr, hk2]
      rw [this]; linear_combination -X ^ 2 * u
    have nD : denS L = N * ((1 + r + k2) + 2 * (k2 - 1) * X + (1 - r + k2) * X ^ 2) := by
      have : denS L = 1 + N * 2 * (k2 - 1) * X + N * (1 - r + k2) * X ^ 2 := by
        simp [denS, hL, lowpass, lowpassOf, setup_eq, Lit.lit, ← hkk, two, hN, hr, hk2]
      rw [this]; linear_combination -u
    rw [nL, nH, nA, nD]
    linear_combination N ^ 2 * (1 - X ^ 2) ^ 2 * rr
  have : mk (fun n => (Biquad.new L).outAt ((Biquad.new L).outAt x) n + (Biquad.new H).outAt ((Biquad.new H).outAt x) n) =
      mk ((Biquad.new A).outAt x) := by
    apply mul_left_cancel₀ (mul_ne_zero (denS_ne L) (denS_ne L))
    have e : mk (fun n => (Biquad.new L).outAt ((Biquad.new L).outAt x) n + (Biquad.new H).outAt ((Biquad.new H).outAt x) n) =
        mk ((Biquad.new L).outAt ((Biquad.new L).outAt x)) + mk ((Biquad.new H).outAt ((Biquad.new H).outAt x)) := by
      ext n; simp
    rw [e]
    rw [dH] at h1 h2
    rw [dA] at a
    linear_combination denS L * l2 + numS L * l1 + denS L * h2 + numS H * h1 - denS L * a + mk x * key
  exact series_eq this n

/-- C149: the one of second order (one low-pass less one high-pass, each of quality `1/2`) passes every frequency with gain
one. -/
theorem C149_second_order (hp : PowiExact powi) (hfc : 0 < fc) (hsr : 0 < sr) {z : ℂ} (hz : ‖z‖ = 1) :
    ‖(lowpass powi fc (1 / 2) sr).cgain z - (highpass powi fc (1 / 2) sr).cgain z‖ = 1 := by
  have hk := warp_pos hp hfc hsr
  set k := warp powi fc sr with hkk
  have hs := (C35_stable (sqrt := fun x => x) (gain := 1) hp hfc (show (0:ℝ) < 1 / 2 by norm_num) hsr).1
  have hd : ((lowpass powi fc (1 / 2) sr).map (fun r : ℝ => (r : ℂ))).den z ≠ 0 :=
    fun h => absurd (hs z h) (by rw [hz]; exact lt_irrefl 1)
  have hn : (1 + k) ≠ 0 := by positivity
  have hnc : (1 + (k : ℂ)) ≠ 0 := by exact_mod_cast hn
  have e0 : 1 + k * 2 + k ^ 2 = (1 + k) ^ 2 := by ring
  have e0c : 1 + (k : ℂ) * 2 + (k : ℂ) ^ 2 = (1 + (k : ℂ)) ^ 2 := by ring
  have ed : ((lowpass powi fc (1 / 2) sr).map (fun r : ℝ => (r : ℂ))).den z = ((k + 1) * z + (k - 1)) ^ 2 / (1 + (k : ℂ)) ^ 2 := by
    simp [BiquadCoeffs.den, BiquadCoeffs.map, lowpass, lowpassOf, setup_eq, Lit.lit, ← hkk, e0c]; field_simp; ring
  have ed' : ((highpass powi fc (1 / 2) sr).map (fun r : ℝ => (r : ℂ))).den z = ((k + 1) * z + (k - 1)) ^ 2 / (1 + (k : ℂ)) ^ 2 := by
    simp [BiquadCoeffs.den, BiquadCoeffs.map, highpass, highpassOf, setup_eq, Lit.lit, ← hkk, e0c]; field_simp; ring
  have en : ((lowpass powi fc (1 / 2) sr).map (fun r : ℝ => (r : ℂ))).num z = (k * (z + 1)) ^ 2 / (1 + (k : ℂ)) ^ 2 := by
    simp [BiquadCoeffs.num, BiquadCoeffs.map, lowpass, lowpassOf, setup_eq, Lit.lit, ← hkk, e0c]; field_simp; ring
  have en' : ((highpass powi fc (1 / 2) sr).map (fun r : ℝ => (r : ℂ))).num z = (z - 1) ^ 2 / (1 + (k : ℂ)) ^ 2 := by
    simp [BiquadCoeffs.num, BiquadCoeffs.map, highpass, highpassOf, setup_eq, Lit.lit, ← hkk, e0c]; field_simp; ring
  have hw : ((k + 1) * z + (k - 1) : ℂ) ≠ 0 := by
    intro h; apply hd; rw [ed, h]; simp
  have : (lowpass powi fc (1 / 2) sr).cgain z - (highpass powi fc (1 / 2) sr).cgain z =
      ((k - 1) * z + (k + 1)) / ((k + 1) * z + (k - 1)) := by
    unfold BiquadCoeffs.cgain BiquadCoeffs.gain
    rw [ed, ed', en, en']
    have hp2 : (1 + (k : ℂ)) ^ 2 ≠ 0 := pow_ne_zero _ hnc
    rw [div_div_div_cancel_right₀ hp2, div_div_div_cancel_right₀ hp2, ← sub_div, div_eq_div_iff (pow_ne_zero _ hw) hw]
    ring
  rw [this, norm_div, div_eq_one_iff_eq (norm_ne_zero_iff.2 hw)]
  have q1 := quad_norm hz 0 (k - 1) (k + 1)
  have q2 := quad_norm hz 0 (k + 1) (k - 1)
  have : ‖((k - 1) * z + (k + 1) : ℂ)‖ ^ 2 = ‖((k + 1) * z + (k - 1) : ℂ)‖ ^ 2 := by
    push_cast at q1 q2
    rw [zero_mul, zero_add] at q1 q2
    rw [q1, q2]; ring
  exact (sq_eq_sq₀ (norm_nonneg _) (norm_nonneg _)).1 this

end
end Verif
