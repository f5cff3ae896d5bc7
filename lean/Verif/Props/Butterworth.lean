import Verif.Props.Biquad

/-! # C31-C37: the filter designs, in exact (real) arithmetic -/

namespace Verif
open Butterworth

/-! ## Helpers -/

/-- The warped frequency `k` computed by `setup_coeffs`. -/
noncomputable def warp (powi : ℝ → ℕ → ℝ) (fc sr : ℝ) : ℝ := FMath.fastTan powi (lit FMath.piQ * fc / sr)

/-- In exact arithmetic `powi` is the power. -/
def PowiExact (powi : ℝ → ℕ → ℝ) : Prop := ∀ x n, powi x n = x ^ n

theorem setup_eq (powi : ℝ → ℕ → ℝ) (fc q sr : ℝ) :
    setupCoeffs powi fc q sr = (warp powi fc sr ^ 2, warp powi fc sr / q) := by
  simp only [setupCoeffs, warp, sq]

theorem warp_pos {powi : ℝ → ℕ → ℝ} (hp : PowiExact powi) {fc sr : ℝ} (h1 : 0 < fc) (h2 : 0 < sr) : 0 < warp powi fc sr := by
  have hpi : (0:ℝ) < lit FMath.piQ := by
    show (0:ℝ) < ((FMath.piQ : ℚ) : ℝ)
    exact_mod_cast (by norm_num [FMath.piQ] : (0:ℚ) < FMath.piQ)
  have hx : 0 < lit FMath.piQ * fc / sr := by positivity
  unfold warp
  set x := lit FMath.piQ * fc / sr
  unfold FMath.fastTan
  simp only [hp x, Lit.lit]
  push_cast
  positivity

/-- The stability triangle (Jury's criterion for order two). -/
theorem stable_of_triangle {co : BiquadCoeffs ℝ} (h1 : 0 < 1 + co.a1 + co.a2) (h2 : 0 < 1 - co.a1 + co.a2)
    (h3 : co.a2 < 1) : co.Stable := by
  intro z hz
  simp only [BiquadCoeffs.den, BiquadCoeffs.map] at hz
  have hre := congrArg Complex.re hz
  have him := congrArg Complex.im hz
  simp [sq] at hre him
  rw [← sq_lt_one_iff₀ (norm_nonneg z), Complex.sq_norm, Complex.normSq_apply]
  by_cases hi : z.im = 0
  · rw [hi] at hre ⊢
    simp at hre ⊢
    by_contra hcon
    have h4 : 1 ≤ z.re * z.re := not_lt.1 hcon
    rcases le_total 0 z.re with h0 | h0
    · have : 1 ≤ z.re := by nlinarith
      nlinarith [mul_nonneg (sub_nonneg.2 this) (by linarith : 0 ≤ z.re + 1 + co.a1)]
    · have : z.re ≤ -1 := by nlinarith
      nlinarith [mul_nonneg (by linarith : 0 ≤ -1 - z.re) (by linarith : 0 ≤ -z.re + 1 - co.a1)]
  · have ha : co.a1 = -2 * z.re := by
      have : z.im * (2 * z.re + co.a1) = 0 := by linarith
      rcases mul_eq_zero.1 this with h | h
      · exact absurd h hi
      · linarith
    rw [ha] at hre
    nlinarith

/-- Denominators of the shape all designs share are stable. -/
theorem stable_of_shape {co : BiquadCoeffs ℝ} {k2 kq : ℝ} (hk : 0 < k2) (hq : 0 < kq)
    (h1 : co.a1 = 1 / (1 + kq + k2) * (2 * (k2 - 1))) (h2 : co.a2 = 1 / (1 + kq + k2) * (1 - kq + k2)) : co.Stable := by
  have h0 : 0 < 1 + kq + k2 := by linarith
  apply stable_of_triangle
  · rw [h1, h2, show 1 + 1 / (1 + kq + k2) * (2 * (k2 - 1)) + 1 / (1 + kq + k2) * (1 - kq + k2)
      = 4 * k2 / (1 + kq + k2) by field_simp; ring]
    positivity
  · rw [h1, h2, show 1 - 1 / (1 + kq + k2) * (2 * (k2 - 1)) + 1 / (1 + kq + k2) * (1 - kq + k2)
      = 4 / (1 + kq + k2) by field_simp; ring]
    positivity
  · rw [h2, one_div_mul_eq_div, div_lt_one h0]; linarith

/-- A real run is the complex run of the same numbers. -/
theorem outAt_ofReal (f : Biquad ℝ) (x : ℕ → ℝ) (n : ℕ) :
    ((f.outAt x n : ℝ) : ℂ) = Biquad.outAt ⟨(f.z1 : ℂ), f.z2, f.coeffs.map (fun r : ℝ => (r : ℂ))⟩ (fun m => (x m : ℂ)) n := by
  have key : ∀ n, Biquad.stateAt ⟨(f.z1 : ℂ), f.z2, f.coeffs.map (fun r : ℝ => (r : ℂ))⟩ (fun m => (x m : ℂ)) n
      = ⟨((f.stateAt x n).z1 : ℂ), (f.stateAt x n).z2, f.coeffs.map (fun r : ℝ => (r : ℂ))⟩ := by
    intro n
    induction n with
    | zero => rfl
    | succ n ih =>
      have hc := coeffs_stateAt f x n
      rw [Biquad.stateAt, ih]
      simp only [Biquad.stateAt, Biquad.process, hc, BiquadCoeffs.map, Biquad.mk.injEq, and_true]
      constructor <;> push_cast <;> ring
  have hc := coeffs_stateAt f x n
  rw [Biquad.outAt, Biquad.outAt, key]
  simp only [Biquad.process, hc, BiquadCoeffs.map]
  push_cast; ring

/-- For a stable design: the output from any state on `s^n` (`s = 1`: constant, `s = -1`: Nyquist) settles on
`gain s * s^n`. -/
theorem settles {co : BiquadCoeffs ℝ} (hs : co.Stable) {s : ℝ} (h1 : |s| = 1) {g : ℝ} (hg : co.cgain s = g) (f : Biquad ℝ)
    (hf : f.coeffs = co) :
    Filter.Tendsto (fun n => f.outAt (fun m => s ^ m) n - g * s ^ n) Filter.atTop (nhds 0) := by
  have := gain_measured (co := co.map (fun r : ℝ => (r : ℂ))) hs (z := (s : ℂ)) (by rw [Complex.norm_real]; exact h1)
    ⟨(f.z1 : ℂ), f.z2, f.coeffs.map (fun r : ℝ => (r : ℂ))⟩ (by rw [hf])
  have h2 : Filter.Tendsto (fun n => ((f.outAt (fun m => s ^ m) n - g * s ^ n : ℝ) : ℂ)) Filter.atTop (nhds ((0 : ℝ) : ℂ)) := by
    refine this.congr (fun n => ?_)
    have e := outAt_ofReal f (fun m => s ^ m) n
    push_cast at e ⊢
    rw [e]
    congr 2
  exact (Complex.continuous_re.tendsto _).comp h2

section designs
variable {powi : ℝ → ℕ → ℝ} {sqrt : ℝ → ℝ} {fc q gain sr : ℝ}

theorem nondegenerate {k : ℝ} (hq : 0 < q) (hk : 0 < k) : 1 + k / q + k ^ 2 ≠ 0 := by positivity

theorem cgain_one (co : BiquadCoeffs ℝ) : co.cgain 1 = (((co.b0 + co.b1 + co.b2) / (1 + co.a1 + co.a2) : ℝ) : ℂ) := by
  simp only [BiquadCoeffs.cgain, BiquadCoeffs.gain, BiquadCoeffs.num, BiquadCoeffs.den, BiquadCoeffs.map]
  push_cast; simp

theorem cgain_neg_one (co : BiquadCoeffs ℝ) :
    co.cgain (-1) = (((co.b0 - co.b1 + co.b2) / (1 - co.a1 + co.a2) : ℝ) : ℂ) := by
  simp only [BiquadCoeffs.cgain, BiquadCoeffs.gain, BiquadCoeffs.num, BiquadCoeffs.den, BiquadCoeffs.map]
  push_cast
  congr 1 <;> ring

/-! ## C31 -/

/-- C31: unit gain at DC, zero at Nyquist, whenever nothing is divided by zero. -/
theorem C31_lowpass (hk : warp powi fc sr ≠ 0) (ha : 1 + warp powi fc sr / q + warp powi fc sr ^ 2 ≠ 0) :
    (lowpass powi fc q sr).cgain 1 = 1 ∧ (lowpass powi fc q sr).cgain (-1) = 0 := by
  rw [cgain_one, cgain_neg_one]
  simp only [lowpass, setup_eq, lowpassOf, Lit.lit]
  generalize warp powi fc sr = k at *
  generalize hr : k / q = r at *
  constructor
  · norm_cast
    rw [div_eq_one_iff_eq]
    · field_simp; ring
    · rw [show 1 + 1 / (1 + r + k ^ 2) * 2 * (k ^ 2 - 1) + 1 / (1 + r + k ^ 2) * (1 - r + k ^ 2)
        = 4 * k ^ 2 / (1 + r + k ^ 2) by field_simp; ring]
      positivity
  · norm_cast
    rw [div_eq_zero_iff]; left; ring

/-! ## C32 -/

/-- C32: zero gain at DC, unit gain at Nyquist. -/
theorem C32_highpass (ha : 1 + warp powi fc sr / q + warp powi fc sr ^ 2 ≠ 0) :
    (highpass powi fc q sr).cgain 1 = 0 ∧ (highpass powi fc q sr).cgain (-1) = 1 := by
  rw [cgain_one, cgain_neg_one]
  simp only [highpass, setup_eq, highpassOf, Lit.lit]
  generalize warp powi fc sr = k at *
  generalize hr : k / q = r at *
  constructor
  · norm_cast
    push_cast
    rw [div_eq_zero_iff]; left; ring
  · norm_cast
    push_cast
    rw [div_eq_one_iff_eq]
    · field_simp; ring
    · rw [show 1 - 1 / (1 + r + k ^ 2) * (2 * (k ^ 2 - 1)) + 1 / (1 + r + k ^ 2) * (1 - r + k ^ 2)
        = 4 / (1 + r + k ^ 2) by field_simp; ring]
      positivity

/-! ## C35 -/

/-- C35: every design is stable for positive parameters (cuts included, for a negative `gain` argument). -/
theorem C35_stable (hp : PowiExact powi) (hfc : 0 < fc) (hq : 0 < q) (hsr : 0 < sr) :
    (lowpass powi fc q sr).Stable ∧ (highpass powi fc q sr).Stable ∧ (allpass powi fc q sr).Stable ∧
    (notch powi fc q sr).Stable ∧ (bellBoost powi fc q gain sr).Stable ∧ (lowShelfBoost powi sqrt fc q gain sr).Stable ∧
    (gain < 0 → (bellCut powi fc q gain sr).Stable) ∧
    (gain < 0 → 0 < sqrt (-gain * 2 * warp powi fc sr ^ 2) → (lowShelfCut powi sqrt fc q gain sr).Stable) := by
  have hk := warp_pos hp hfc hsr
  have hk2 : 0 < warp powi fc sr ^ 2 := by positivity
  have hkq : 0 < warp powi fc sr / q := by positivity
  simp only [lowpass, highpass, allpass, notch, bellBoost, lowShelfBoost, bellCut, lowShelfCut, setup_eq]
  refine ⟨?_, ?_, ?_, ?_, ?_, ?_, fun hg => ?_, fun hg hs => ?_⟩
  · exact stable_of_shape hk2 hkq (by simp [lowpassOf, Lit.lit]; ring) (by simp [lowpassOf, Lit.lit])
  · exact stable_of_shape hk2 hkq (by simp [highpassOf, Lit.lit]) (by simp [highpassOf, Lit.lit])
  · exact stable_of_shape hk2 hkq (by simp [allpassOf, Lit.lit]) (by simp [allpassOf, Lit.lit])
  · exact stable_of_shape hk2 hkq (by simp [notchOf, Lit.lit]) (by simp [notchOf, Lit.lit])
  · exact stable_of_shape hk2 hkq (by simp [bellBoostOf, Lit.lit]) (by simp [bellBoostOf, Lit.lit])
  · exact stable_of_shape hk2 hkq (by simp [lowShelfBoostOf, Lit.lit]) (by simp [lowShelfBoostOf, Lit.lit])
  · exact stable_of_shape hk2 (mul_pos (neg_pos.2 hg) hkq) (by simp [bellCutOf, Lit.lit]) (by simp [bellCutOf, Lit.lit])
  · exact stable_of_shape (mul_pos (neg_pos.2 hg) hk2) hs (by simp [lowShelfCutOf, Lit.lit])
      (by simp [lowShelfCutOf, Lit.lit])

/-- C35: so the free response decays to zero from every state. -/
theorem C35_decays {co : BiquadCoeffs ℝ} (h : co.Stable) (z1 z2 : ℝ) :
    Filter.Tendsto (Biquad.outAt ⟨z1, z2, co⟩ (fun _ => 0)) Filter.atTop (nhds 0) := by
  have := free_response (co := co.map (fun r : ℝ => (r : ℂ))) h ⟨z1, z2, co.map (fun r : ℝ => (r : ℂ))⟩ rfl
  have h2 : Filter.Tendsto (fun n => ((Biquad.outAt ⟨z1, z2, co⟩ (fun _ => 0) n : ℝ) : ℂ)) Filter.atTop
      (nhds ((0 : ℝ) : ℂ)) := by
    refine this.congr (fun n => ?_)
    rw [outAt_ofReal]; simp
  exact (Complex.continuous_re.tendsto _).comp h2

/-- C31 and C32 as heard: from any state, a constant settles on itself (low-pass) or on silence (high-pass), and a
full-scale Nyquist tone on silence or on itself. -/
theorem C31_lowpass_measured (hp : PowiExact powi) (hfc : 0 < fc) (hq : 0 < q) (hsr : 0 < sr) (z1 z2 : ℝ) :
    Filter.Tendsto (Biquad.outAt ⟨z1, z2, lowpass powi fc q sr⟩ (fun _ => 1)) Filter.atTop (nhds 1) ∧
    Filter.Tendsto (Biquad.outAt ⟨z1, z2, lowpass powi fc q sr⟩ (fun n => (-1) ^ n)) Filter.atTop (nhds 0) := by
  have hs := (C35_stable (sqrt := fun x => x) (gain := 1) hp hfc hq hsr).1
  have hk := warp_pos hp hfc hsr
  obtain ⟨g1, g2⟩ := C31_lowpass hk.ne' (nondegenerate hq hk)
  constructor
  · have := settles hs (s := 1) (by simp) (g := 1) (by simpa using g1) ⟨z1, z2, lowpass powi fc q sr⟩ rfl
    simpa using this.add_const 1
  · have := settles hs (s := -1) (by simp) (g := 0) (by simpa using g2) ⟨z1, z2, lowpass powi fc q sr⟩ rfl
    simpa using this

theorem C32_highpass_measured (hp : PowiExact powi) (hfc : 0 < fc) (hq : 0 < q) (hsr : 0 < sr) (z1 z2 : ℝ) :
    Filter.Tendsto (Biquad.outAt ⟨z1, z2, highpass powi fc q sr⟩ (fun _ => 1)) Filter.atTop (nhds 0) ∧
    Filter.Tendsto (fun n => Biquad.outAt ⟨z1, z2, highpass powi fc q sr⟩ (fun n => (-1) ^ n) n - (-1) ^ n)
      Filter.atTop (nhds 0) := by
  have hs := (C35_stable (sqrt := fun x => x) (gain := 1) hp hfc hq hsr).2.1
  have hk := warp_pos hp hfc hsr
  obtain ⟨g1, g2⟩ := C32_highpass (nondegenerate hq hk)
  constructor
  · have := settles hs (s := 1) (by simp) (g := 0) (by simpa using g1) ⟨z1, z2, highpass powi fc q sr⟩ rfl
    simpa using this
  · have := settles hs (s := -1) (by simp) (g := 1) (by simpa using g2) ⟨z1, z2, highpass powi fc q sr⟩ rfl
    simpa using this

/-! ## C33 -/

/-- C33: the all-pass design has magnitude 1 at every point of the unit circle (where it is defined at all). -/
theorem C33_allpass {z : ℂ} (hz : ‖z‖ = 1) (hd : ((allpass powi fc q sr).map (fun r : ℝ => (r : ℂ))).den z ≠ 0) :
    ‖(allpass powi fc q sr).cgain z‖ = 1 := by
  have hzz : z * (starRingEnd ℂ) z = 1 := by rw [Complex.mul_conj, Complex.normSq_eq_norm_sq, hz]; simp
  set co := allpass powi fc q sr with hco
  have hb0 : co.b0 = co.a2 := rfl
  have hb1 : co.b1 = co.a1 := rfl
  have hb2 : co.b2 = 1 := by simp [hco, allpass, allpassOf, Lit.lit]
  have hnum : (co.map (fun r : ℝ => (r : ℂ))).num z = z ^ 2 * (starRingEnd ℂ) ((co.map (fun r : ℝ => (r : ℂ))).den z) := by
    simp only [BiquadCoeffs.num, BiquadCoeffs.den, BiquadCoeffs.map, hb0, hb1, hb2, map_add, map_mul, map_pow,
      Complex.conj_ofReal]
    push_cast
    linear_combination (-(co.a1 : ℂ) * z - z * (starRingEnd ℂ) z - 1) * hzz
  unfold BiquadCoeffs.cgain BiquadCoeffs.gain
  rw [hnum, norm_div, norm_mul, norm_pow, hz, RCLike.norm_conj, one_pow, one_mul, div_self (norm_ne_zero_iff.2 hd)]

/-- C33, at positive parameters: every frequency. -/
theorem C33_allpass_everywhere (hp : PowiExact powi) (hfc : 0 < fc) (hq : 0 < q) (hsr : 0 < sr) {z : ℂ} (hz : ‖z‖ = 1) :
    ‖(allpass powi fc q sr).cgain z‖ = 1 := by
  have hs := (C35_stable (sqrt := fun x => x) (gain := 1) hp hfc hq hsr).2.2.1
  exact C33_allpass hz (fun h => absurd (hs z h) (by rw [hz]; exact lt_irrefl 1))

/-! ## C34 -/

/-- On the unit circle at the centre frequency, `(1+k²)(z²+1) + 2(k²-1)z = 0`. -/
theorem centre_eq {z : ℂ} {k : ℝ} (hz : ‖z‖ = 1) (hre : z.re = (1 - k ^ 2) / (1 + k ^ 2)) :
    ((1:ℂ) + k ^ 2) * (z ^ 2 + 1) + 2 * (k ^ 2 - 1) * z = 0 := by
  have hzz : z.re ^ 2 + z.im ^ 2 = 1 := by
    have := Complex.normSq_eq_norm_sq z; rw [hz, Complex.normSq_apply] at this; nlinarith
  have h1 : (1 + k ^ 2) * z.re = 1 - k ^ 2 := by rw [hre]; field_simp
  apply Complex.ext
  · simp [sq, ← Complex.ofReal_mul]
    linear_combination 2 * z.re * h1 - (1 + k ^ 2) * hzz
  · simp [sq, ← Complex.ofReal_mul]
    linear_combination 2 * z.im * h1

/-- C34: the notch has gain 1 at DC and Nyquist and 0 at its centre. -/
theorem C34_notch (ha : 1 + warp powi fc sr / q + warp powi fc sr ^ 2 ≠ 0) :
    (warp powi fc sr ≠ 0 → (notch powi fc q sr).cgain 1 = 1) ∧ (notch powi fc q sr).cgain (-1) = 1 ∧
    ∀ z : ℂ, ‖z‖ = 1 → z.re = (1 - warp powi fc sr ^ 2) / (1 + warp powi fc sr ^ 2) →
      (notch powi fc q sr).cgain z = 0 := by
  refine ⟨fun hk => ?_, ?_, fun z hz hre => ?_⟩
  · rw [cgain_one]
    simp only [notch, setup_eq, notchOf, Lit.lit]
    generalize warp powi fc sr = k at *
    generalize hr : k / q = r at *
    norm_cast
    rw [div_eq_one_iff_eq]
    · field_simp; ring
    · rw [show 1 + 1 / (1 + r + k ^ 2) * (2 * (k ^ 2 - 1)) + 1 / (1 + r + k ^ 2) * (1 - r + k ^ 2)
        = 4 * k ^ 2 / (1 + r + k ^ 2) by field_simp; ring]
      positivity
  · rw [cgain_neg_one]
    simp only [notch, setup_eq, notchOf, Lit.lit]
    generalize warp powi fc sr = k at *
    generalize hr : k / q = r at *
    norm_cast
    rw [div_eq_one_iff_eq]
    · field_simp; ring
    · rw [show 1 - 1 / (1 + r + k ^ 2) * (2 * (k ^ 2 - 1)) + 1 / (1 + r + k ^ 2) * (1 - r + k ^ 2)
        = 4 / (1 + r + k ^ 2) by field_simp; ring]
      positivity
  · unfold BiquadCoeffs.cgain BiquadCoeffs.gain
    rw [div_eq_zero_iff]; left
    have := centre_eq hz hre
    simp only [notch, setup_eq, notchOf, Lit.lit, BiquadCoeffs.num, BiquadCoeffs.map]
    push_cast
    linear_combination (1 / (1 + (warp powi fc sr : ℂ) / q + (warp powi fc sr : ℂ) ^ 2)) * this

/-! ## C36 -/

/-- Filtering with the reciprocal transfer function undoes a filter, from rest. -/
theorem inverse_filter {K : Type} [Field K] {co inv : BiquadCoeffs K} (h0 : inv.b0 * co.b0 = 1)
    (h1 : inv.b1 * co.b0 = co.a1) (h2 : inv.b2 * co.b0 = co.a2) (h3 : inv.a1 * co.b0 = co.b1) (h4 : inv.a2 * co.b0 = co.b2)
    (x : ℕ → K) (n : ℕ) : (Biquad.new inv).outAt ((Biquad.new co).outAt x) n = x n := by
  induction n using Nat.strong_induction_on with
  | _ n ih =>
    have hb : co.b0 ≠ 0 := right_ne_zero_of_mul_eq_one h0
    set y := (Biquad.new co).outAt x with hy
    have e1 := C27_difference_equation co x n
    rw [← hy] at e1
    have e2 := C27_difference_equation inv y n
    have p1 : past ((Biquad.new inv).outAt y) n 1 = past x n 1 := by
      unfold past; split
      · exact ih _ (by omega)
      · rfl
    have p2 : past ((Biquad.new inv).outAt y) n 2 = past x n 2 := by
      unfold past; split
      · exact ih _ (by omega)
      · rfl
    rw [p1, p2] at e2
    rw [e2]
    have px : past x n 0 = x n := by simp [past]
    have py : past y n 0 = y n := by simp [past]
    rw [px] at e1
    rw [py]
    apply mul_left_cancel₀ hb
    linear_combination y n * h0 + past y n 1 * h1 + past y n 2 * h2 - past x n 1 * h3 - past x n 2 * h4 + e1

/-- C36: bell cut undoes bell boost. `pos` is the sign test (`is_sign_positive`). -/
theorem C36_bell {pos : ℝ → Bool} (hpos : pos gain = true) (hneg : pos (-gain) = false)
    (ha : 1 + warp powi fc sr / q + warp powi fc sr ^ 2 ≠ 0)
    (hb : 1 + gain * (warp powi fc sr / q) + warp powi fc sr ^ 2 ≠ 0) (x : ℕ → ℝ) (n : ℕ) :
    (Biquad.new (bell powi fc q (-gain) sr pos)).outAt ((Biquad.new (bell powi fc q gain sr pos)).outAt x) n = x n := by
  simp only [bell, hpos, hneg, if_true, Bool.false_eq_true, if_false]
  apply inverse_filter <;> simp only [bellBoost, bellCut, setup_eq, bellBoostOf, bellCutOf, Lit.lit] <;>
    push_cast <;> simp only [neg_neg] <;> generalize warp powi fc sr = k at * <;> generalize k / q = r at * <;>
    field_simp

/-- C36: low-shelf cut undoes low-shelf boost, for any square root routine. -/
theorem C36_low_shelf {pos : ℝ → Bool} (hpos : pos gain = true) (hneg : pos (-gain) = false)
    (ha : 1 + warp powi fc sr / q + warp powi fc sr ^ 2 ≠ 0)
    (hb : 1 + sqrt (gain * 2 * warp powi fc sr ^ 2) + gain * warp powi fc sr ^ 2 ≠ 0) (x : ℕ → ℝ) (n : ℕ) :
    (Biquad.new (lowShelf powi sqrt fc q (-gain) sr pos)).outAt
      ((Biquad.new (lowShelf powi sqrt fc q gain sr pos)).outAt x) n = x n := by
  simp only [lowShelf, hpos, hneg, if_true, Bool.false_eq_true, if_false]
  apply inverse_filter <;> simp only [lowShelfBoost, lowShelfCut, setup_eq, lowShelfBoostOf, lowShelfCutOf, Lit.lit] <;>
    push_cast <;> simp only [neg_neg] <;> generalize sqrt (gain * 2 * warp powi fc sr ^ 2) = s at * <;>
    generalize warp powi fc sr = k at * <;> generalize k / q = r at * <;> field_simp

/-! ## C37 -/

/-- C37: low shelf gain at DC and Nyquist. -/
theorem C37_low_shelf {pos : ℝ → Bool} (hpos : pos gain = true) (hk : warp powi fc sr ≠ 0)
    (ha : 1 + warp powi fc sr / q + warp powi fc sr ^ 2 ≠ 0) :
    (lowShelf powi sqrt fc q gain sr pos).cgain 1 = gain ∧ (lowShelf powi sqrt fc q gain sr pos).cgain (-1) = 1 := by
  rw [cgain_one, cgain_neg_one]
  simp only [lowShelf, hpos, if_true, lowShelfBoost, setup_eq, lowShelfBoostOf, Lit.lit]
  generalize hs : sqrt _ = s at *
  clear hs
  generalize warp powi fc sr = k at *
  generalize hr : k / q = r at *
  constructor
  · norm_cast
    rw [show 1 + 1 / (1 + r + k ^ 2) * (2 * (k ^ 2 - 1)) + 1 / (1 + r + k ^ 2) * (1 - r + k ^ 2)
        = 4 * k ^ 2 / (1 + r + k ^ 2) by field_simp; ring]
    field_simp; ring
  · norm_cast
    rw [show 1 - 1 / (1 + r + k ^ 2) * (2 * (k ^ 2 - 1)) + 1 / (1 + r + k ^ 2) * (1 - r + k ^ 2)
        = 4 / (1 + r + k ^ 2) by field_simp; ring]
    field_simp; ring

/-- C37: bell gain at DC, Nyquist and centre. -/
theorem C37_bell {pos : ℝ → Bool} (hpos : pos gain = true) (hk : warp powi fc sr ≠ 0) (hq : q ≠ 0)
    (ha : 1 + warp powi fc sr / q + warp powi fc sr ^ 2 ≠ 0) :
    (bell powi fc q gain sr pos).cgain 1 = 1 ∧ (bell powi fc q gain sr pos).cgain (-1) = 1 ∧
    ∀ z : ℂ, ‖z‖ = 1 → z.re = (1 - warp powi fc sr ^ 2) / (1 + warp powi fc sr ^ 2) →
      (bell powi fc q gain sr pos).cgain z = gain := by
  refine ⟨?_, ?_, fun z hz hre => ?_⟩
  · rw [cgain_one]
    simp only [bell, hpos, if_true, bellBoost, setup_eq, bellBoostOf, Lit.lit]
    generalize warp powi fc sr = k at *
    generalize hr : k / q = r at *
    norm_cast
    rw [show 1 + 1 / (1 + r + k ^ 2) * (2 * (k ^ 2 - 1)) + 1 / (1 + r + k ^ 2) * (1 - r + k ^ 2)
        = 4 * k ^ 2 / (1 + r + k ^ 2) by field_simp; ring]
    field_simp; ring
  · rw [cgain_neg_one]
    simp only [bell, hpos, if_true, bellBoost, setup_eq, bellBoostOf, Lit.lit]
    generalize warp powi fc sr = k at *
    generalize hr : k / q = r at *
    norm_cast
    rw [show 1 - 1 / (1 + r + k ^ 2) * (2 * (k ^ 2 - 1)) + 1 / (1 + r + k ^ 2) * (1 - r + k ^ 2)
        = 4 / (1 + r + k ^ 2) by field_simp; ring]
    field_simp; ring
  · have hc := centre_eq hz hre
    have hz1 : z ^ 2 - 1 ≠ 0 := by
      intro h
      have : z = 1 ∨ z = -1 := by
        have h' : (z - 1) * (z + 1) = 0 := by linear_combination h
        rcases mul_eq_zero.1 h' with h' | h'
        · left; linear_combination h'
        · right; linear_combination h'
      have hk2 : 0 < warp powi fc sr ^ 2 := by positivity
      rcases this with rfl | rfl
      · have hk0 : ((4:ℂ) * (warp powi fc sr : ℂ) ^ 2) = 0 := by linear_combination hc
        norm_cast at hk0
        simp at hk0
        exact hk hk0
      · have : (4:ℂ) = 0 := by linear_combination hc
        norm_num at this
    have hkq : ((warp powi fc sr : ℂ) / q) ≠ 0 := by
      rw [div_ne_zero_iff]; exact ⟨by exact_mod_cast hk, by exact_mod_cast hq⟩
    have haC : (1 + (warp powi fc sr : ℂ) / q + (warp powi fc sr : ℂ) ^ 2) ≠ 0 := by exact_mod_cast ha
    simp only [BiquadCoeffs.cgain, BiquadCoeffs.gain, bell, hpos, if_true, bellBoost, setup_eq, bellBoostOf, Lit.lit,
      BiquadCoeffs.num, BiquadCoeffs.den, BiquadCoeffs.map]
    push_cast
    generalize hr : (warp powi fc sr : ℂ) / q = r at *
    generalize (warp powi fc sr : ℂ) = k at *
    have hden : z ^ 2 + 1 / (1 + r + k ^ 2) * (2 * (k ^ 2 - 1)) * z + 1 / (1 + r + k ^ 2) * (1 - r + k ^ 2)
        = r * (z ^ 2 - 1) / (1 + r + k ^ 2) := by
      field_simp; linear_combination hc
    rw [hden]
    have hne : r * (z ^ 2 - 1) / (1 + r + k ^ 2) ≠ 0 := div_ne_zero (mul_ne_zero hkq hz1) haC
    rw [div_eq_iff hne]
    field_simp
    linear_combination hc

end designs

/-! ## The hypotheses are met: 1 kHz, Q = 1/√2-ish, 48 kHz, +6 dB -/

example : PowiExact (fun x n => x ^ n) ∧ (0:ℝ) < 1000 ∧ (0:ℝ) < 7/10 ∧ (0:ℝ) < 48000 :=
  ⟨fun _ _ => rfl, by norm_num, by norm_num, by norm_num⟩

theorem demo_warp_pos : 0 < warp (fun x n => x ^ n) 1000 48000 := warp_pos (fun _ _ => rfl) (by norm_num) (by norm_num)

example : warp (fun x n => x ^ n) 1000 48000 ≠ 0 ∧
    1 + warp (fun x n => x ^ n) 1000 48000 / (7/10) + warp (fun x n => x ^ n) 1000 48000 ^ 2 ≠ 0 ∧
    1 + 2 * (warp (fun x n => x ^ n) 1000 48000 / (7/10)) + warp (fun x n => x ^ n) 1000 48000 ^ 2 ≠ 0 ∧
    1 + Real.sqrt (2 * 2 * warp (fun x n => x ^ n) 1000 48000 ^ 2) + 2 * warp (fun x n => x ^ n) 1000 48000 ^ 2 ≠ 0 ∧
    decide ((0:ℝ) < 2) = true ∧ decide ((0:ℝ) < -2) = false ∧
    0 < Real.sqrt (-(-2) * 2 * warp (fun x n => x ^ n) 1000 48000 ^ 2) := by
  have h := demo_warp_pos
  refine ⟨h.ne', ?_, ?_, ?_, ?_, ?_, ?_⟩
  · positivity
  · positivity
  · positivity
  · simp
  · simp
  · apply Real.sqrt_pos.2; norm_num; positivity

-- a point of the unit circle at the centre frequency exists for every `k`
example (k : ℝ) : ∃ z : ℂ, ‖z‖ = 1 ∧ z.re = (1 - k ^ 2) / (1 + k ^ 2) := by
  refine ⟨⟨(1 - k ^ 2) / (1 + k ^ 2), 2 * k / (1 + k ^ 2)⟩, ?_, rfl⟩
  have h : ‖(⟨(1 - k ^ 2) / (1 + k ^ 2), 2 * k / (1 + k ^ 2)⟩ : ℂ)‖ ^ 2 = 1 := by
    rw [Complex.sq_norm, Complex.normSq_apply]; field_simp; ring
  exact (pow_eq_one_iff_of_nonneg (norm_nonneg _) two_ne_zero).1 h

end Verif
