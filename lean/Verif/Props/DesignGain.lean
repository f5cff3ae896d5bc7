import Verif.F32.Scale
import Verif.Props.DesignFloat

/-! # C140, C141: what rounding does to the gains of the designs

C31 to C33 give the gains of the designs in exact arithmetic. Here the coefficients are the rounded ones the code computes. -/

namespace Verif
namespace F32

theorem rnd_double {s t : Bool} {q : ℚ} (h : 1 / 2 ^ 126 ≤ q) (hb : q ≤ 2 ^ 100) : (rnd s (2 * q)).val = 2 * (rnd t q).val := by
  have q0 : 0 < q := lt_of_lt_of_le (by norm_num) h
  have hf : (rnd t (2 ^ 1 * q)).isFin = true := rnd_fin_of_lt (by rw [abs_of_pos (by positivity)]; norm_num at hb ⊢; linarith)
  have := (rnd_scale 1 (by rwa [abs_of_pos q0]) hf).2
  rw [pow_one] at this
  rw [rnd_sign_irrel (t := t) (by positivity), this]

end F32
open F32 Butterworth

theorem mul_double {x y z : F32} (hx : x.isFin = true) (hz : z.isFin = true) (hy : y.isFin = true) (e : y.val = 2 * x.val)
    (h : 1 / 2 ^ 126 ≤ x.val * z.val) (hb : x.val * z.val ≤ 2 ^ 100) : (y * z).val = 2 * (x * z).val := by
  rw [mul_fin hy hz, mul_fin hx hz, e, mul_assoc]
  exact rnd_double h hb

theorem double_val {x : F32} (hx : x.isFin = true) (h : |x.val| ≤ 2 ^ 100) :
    (x * lit 2).isFin = true ∧ (x * lit 2).val = 2 * x.val ∧ (lit 2 * x).isFin = true ∧ (lit 2 * x).val = 2 * x.val ∧
    (x * lit (-2)).isFin = true ∧ (x * lit (-2)).val = -2 * x.val := by
  have r : Rep (2 * x.val) := by
    have := rep_scale hx 1 (by rw [pow_one, abs_mul, abs_two]; norm_num at h ⊢; linarith)
    rwa [pow_one, mul_comm] at this
  have m2f : (lit (-2) : F32).isFin = true := by decide +kernel
  have m2v : (lit (-2) : F32).val = -2 := by decide +kernel
  obtain ⟨a1, a2⟩ := mul_exact hx lit2_fin (by rw [lit2_val, mul_comm]; exact r)
  obtain ⟨b1, b2⟩ := mul_exact lit2_fin hx (by rw [lit2_val]; exact r)
  obtain ⟨c1, c2⟩ := mul_exact hx m2f (by rw [m2v]; have := r.neg; rwa [show -(2 * x.val) = x.val * -2 by ring] at this)
  rw [lit2_val] at a2 b2
  rw [m2v] at c2
  exact ⟨a1, by rw [a2]; ring, b1, b2, c1, by rw [c2]; ring⟩

/-- The numerators the rounded designs end up with. -/
theorem numerators {k2 kq : F32} (h2 : k2.isFin = true) (hq : kq.isFin = true) (p2 : 1 / 2 ^ 21 ≤ k2.val) (pq : 0 < kq.val)
    (hb : 1 + kq.val + k2.val ≤ 2 ^ 6) :
    (lowpassOf k2 kq).b1.val = 2 * (lowpassOf k2 kq).b0.val ∧ (highpassOf k2 kq).b1.val = -2 * (highpassOf k2 kq).b0.val ∧
    |(notchOf k2 kq).b1.val| ≤ 2 * (notchOf k2 kq).b0.val ∧ 0 < (notchOf k2 kq).b0.val ∧
    Near (lowpassOf k2 kq).b0 (k2.val / (1 + kq.val + k2.val)) (44 / 10 / 2 ^ 24 * (k2.val / (1 + kq.val + k2.val))) := by
  obtain ⟨nn, -⟩ := design_near h2 hq (le_trans (by norm_num) p2) pq.le (hb.trans (by norm_num))
  have k0 : 0 < k2.val := lt_of_lt_of_le (by norm_num) p2
  simp only [lowpassOf, highpassOf, notchOf]
  set N := lit 1 / (lit 1 + kq + k2) with hN
  set a := 1 + kq.val + k2.val with ha
  have a0 : 1 < a := by linarith
  obtain ⟨i, hi⟩ : ∃ i, i = 1 / a := ⟨_, rfl⟩
  have ai : a * i = 1 := by rw [hi]; field_simp
  have i0 : 0 < i := by rw [hi]; positivity
  have i1 : i ≤ 1 := by nlinarith
  have i2 : 1 / 2 ^ 6 ≤ i := by rw [hi]; exact one_div_le_one_div_of_le (by linarith) hb
  rw [← hi] at nn
  obtain ⟨nf, nv⟩ := nn
  obtain ⟨nv1, nv2⟩ := abs_le.1 nv
  have t1 : N.val ≤ 2 := by norm_num at nv2; linarith
  have t0 : 1 / 2 ^ 7 ≤ N.val := by norm_num at nv1 i2 ⊢; linarith
  have N0 : 0 < N.val := lt_of_lt_of_le (by norm_num) t0
  have nB : |N.val| ≤ 2 ^ 100 := by rw [abs_of_pos N0]; norm_num; linarith
  obtain ⟨d1, d2, -, -, -, d6⟩ := double_val nf nB
  have k4 : k2.val ≤ 2 ^ 6 := by linarith
  have m1 : 1 / 2 ^ 28 ≤ N.val * k2.val := by
    have := mul_le_mul t0 p2 (by norm_num) N0.le
    norm_num at this ⊢; linarith
  have m2 : N.val * k2.val ≤ 2 ^ 10 := by
    have := mul_le_mul t1 k4 k0.le (by norm_num)
    norm_num at this ⊢; linarith
  -- the notch
  have s1 : (lit 1 + k2).isFin = true ∧ |(lit 1 + k2).val - (1 + k2.val)| ≤ 1 / 2 ^ 150 + 2 ^ 7 / 2 ^ 24 := by
    have := add_near (B := 2 ^ 7) lit1_fin h2 (by rw [lit1_val, abs_of_pos (by linarith)]; norm_num at k4 ⊢; linarith) (by norm_num)
    rwa [lit1_val] at this
  have s2 : (k2 - lit 1).isFin = true ∧ |(k2 - lit 1).val| ≤ (lit 1 + k2).val := by
    rw [sub_fin h2 lit1_fin, add_fin lit1_fin h2, lit1_val]
    refine ⟨rnd_fin_of_lt ?_, rnd_abs_mono ?_⟩
    · rw [abs_lt]; constructor <;> norm_num at k4 ⊢ <;> linarith
    · rw [abs_le]; constructor <;> linarith
  obtain ⟨s1a, s1b⟩ := abs_le.1 s1.2
  have S0 : 1 / 2 ≤ (lit 1 + k2).val := by norm_num at s1a ⊢; linarith
  have S1 : (lit 1 + k2).val ≤ 2 ^ 7 := by norm_num at s1b k4 ⊢; linarith
  obtain ⟨-, -, e3, e4, -, -⟩ := double_val s2.1 (s2.2.trans (S1.trans (by norm_num)))
  have w1 : 1 / 2 ^ 28 ≤ N.val * (lit 1 + k2).val := by
    have := mul_le_mul t0 S0 (by norm_num) N0.le
    norm_num at this ⊢; linarith
  have w2 : N.val * (lit 1 + k2).val ≤ 2 ^ 10 := by
    have := mul_le_mul t1 S1 (by linarith) (by norm_num)
    norm_num at this ⊢; linarith
  refine ⟨mul_double nf h2 d1 d2 (le_trans (by norm_num) m1) (m2.trans (by norm_num)), d6, ?_, ?_, ?_⟩
  · rw [mul_fin nf e3, e4, mul_fin nf s1.1]
    have := rnd_double (s := false) (t := N.neg != (lit 1 + k2 : F32).neg) (q := N.val * (lit 1 + k2).val) (le_trans (by norm_num) w1) (w2.trans (by norm_num))
    rw [← this]
    apply rnd_abs_mono
    rw [abs_mul, abs_of_pos N0, abs_mul, abs_two]
    nlinarith [s2.2]
  · rw [mul_fin nf s1.1]
    refine lt_of_lt_of_le ?_ (le_rnd (y := lit (1 / 2 ^ 28)) (by decide +kernel) ?_)
    · decide +kernel
    · rw [show (lit (1 / 2 ^ 28) : F32).val = 1 / 2 ^ 28 by decide +kernel]; exact w1
  · have hm := mul_near (B := N.val * k2.val) nf h2 (by rw [abs_of_pos (by positivity)]) (m2.trans (by norm_num))
    refine ⟨hm.1, ?_⟩
    rw [show k2.val / a = i * k2.val by rw [hi]; ring]
    obtain ⟨u1, u2⟩ := abs_le.1 hm.2
    have v1 : N.val * k2.val ≤ i * k2.val * (1 + 33 / 10 / 2 ^ 24) := by nlinarith
    have v2 : i * k2.val * (1 - 33 / 10 / 2 ^ 24) ≤ N.val * k2.val := by nlinarith
    have tiny : (1:ℚ) / 2 ^ 150 ≤ i * k2.val / 2 ^ 100 := by
      have := mul_le_mul i2 p2 (by norm_num) i0.le
      norm_num at this ⊢; linarith
    generalize i * k2.val = y at *
    norm_num at u1 u2 v1 v2 tiny ⊢
    rw [abs_le]; constructor <;> linarith

theorem k2kq_range {powi : F32 → ℕ → F32} {fc q sr : F32} (k0 : 1 / 2 ^ 10 ≤ (warpF powi fc sr).val) (k1 : (warpF powi fc sr).val ≤ 17 / 10)
    (q0 : 1 / 16 ≤ q.val) (q1 : q.val ≤ 64) :
    (warpF powi fc sr * warpF powi fc sr).isFin = true ∧ (warpF powi fc sr / q).isFin = true ∧
    1 / 2 ^ 21 ≤ (warpF powi fc sr * warpF powi fc sr).val ∧ 0 < (warpF powi fc sr / q).val ∧
    1 + (warpF powi fc sr / q).val + (warpF powi fc sr * warpF powi fc sr).val ≤ 2 ^ 6 := by
  obtain ⟨f1, f2, l1, u1, l2, u2⟩ := setup_near k0 (k1.trans (by norm_num)) q0 q1
  have kp : 0 < (warpF powi fc sr).val := lt_of_lt_of_le (by norm_num) k0
  have qp : 0 < q.val := lt_of_lt_of_le (by norm_num) q0
  have b1 : 1 / 2 ^ 20 ≤ (warpF powi fc sr).val ^ 2 := by
    have := mul_le_mul k0 k0 (by norm_num) kp.le
    rw [sq]; refine le_trans (by norm_num) this
  have b2 : (warpF powi fc sr).val ^ 2 ≤ 3 := by nlinarith
  have b3 : (warpF powi fc sr).val / q.val ≤ 28 := by rw [div_le_iff₀ qp]; linarith
  have b4 : 0 < (warpF powi fc sr).val / q.val := div_pos kp qp
  refine ⟨f1, f2, ?_, by linarith, ?_⟩ <;> norm_num at b1 ⊢ <;> linarith

/-- C140: over the whole range of C116 rounding leaves the zeros of the designs where they belong. The rounded low-pass has gain exactly 0 at
half the sample rate and the rounded high-pass exactly 0 on constants, so the two die away on these signals from any state; the rounded
notch still cancels some frequency completely; the rounded all-pass has magnitude exactly 1 at every frequency. -/
theorem C140_zeros {powi : F32 → ℕ → F32} (hp : PowiNear powi) {fc q sr : F32} (s0 : 1 ≤ sr.val) (s1 : sr.val ≤ 2 ^ 30)
    (r0 : 1 / 3200 ≤ fc.val / sr.val) (r1 : fc.val / sr.val ≤ 318 / 1000) (q0 : 1 / 16 ≤ q.val) (q1 : q.val ≤ 64) (z1 z2 : ℝ) :
    (lowpass powi fc q sr).real.cgain (-1) = 0 ∧
    Filter.Tendsto (fun n => Biquad.outAt ⟨z1, z2, (lowpass powi fc q sr).real⟩ (fun m => (-1) ^ m) n) Filter.atTop (nhds 0) ∧
    (highpass powi fc q sr).real.cgain 1 = 0 ∧
    Filter.Tendsto (fun n => Biquad.outAt ⟨z1, z2, (highpass powi fc q sr).real⟩ (fun _ => 1) n) Filter.atTop (nhds 0) ∧
    (∃ z : ℂ, ‖z‖ = 1 ∧ (notch powi fc q sr).real.cgain z = 0) ∧
    ∀ z : ℂ, ‖z‖ = 1 → ‖(allpass powi fc q sr).real.cgain z‖ = 1 := by
  obtain ⟨k0, k1⟩ := warpF_range hp s0 s1 (by norm_num) r0 r1
  obtain ⟨S1, S2, S3, S4, -⟩ := C116_stable hp s0 s1 r0 r1 q0 q1 id (lit 1)
  obtain ⟨f1, f2, p2, pq, hb⟩ := k2kq_range (le_trans (by norm_num) k0) k1 q0 q1
  obtain ⟨n1, n2, n3, n4, -⟩ := numerators f1 f2 p2 pq hb
  change (lowpass powi fc q sr).b1.val = 2 * (lowpass powi fc q sr).b0.val at n1
  change (highpass powi fc q sr).b1.val = -2 * (highpass powi fc q sr).b0.val at n2
  change |(notch powi fc q sr).b1.val| ≤ 2 * (notch powi fc q sr).b0.val at n3
  change 0 < (notch powi fc q sr).b0.val at n4
  have e1 : (lowpass powi fc q sr).b2 = (lowpass powi fc q sr).b0 := rfl
  have e2 : (highpass powi fc q sr).b2 = (highpass powi fc q sr).b0 := rfl
  have e3 : (notch powi fc q sr).b2 = (notch powi fc q sr).b0 := rfl
  have g1 : (lowpass powi fc q sr).real.cgain (-1) = 0 := by
    rw [cgain_neg_one]
    simp only [BiquadCoeffs.real, BiquadCoeffs.map, e1, n1]
    push_cast
    rw [show ∀ u : ℂ, u - 2 * u + u = 0 from fun u => by ring, zero_div]
  have g2 : (highpass powi fc q sr).real.cgain 1 = 0 := by
    rw [cgain_one]
    simp only [BiquadCoeffs.real, BiquadCoeffs.map, e2, n2]
    push_cast
    rw [show ∀ u : ℂ, u + -2 * u + u = 0 from fun u => by ring, zero_div]
  refine ⟨g1, ?_, g2, ?_, ?_, ?_⟩
  · have := settles S1 (s := -1) (by simp) (g := 0) (by simpa using g1) ⟨z1, z2, (lowpass powi fc q sr).real⟩ rfl
    simpa using this
  · have := settles S2 (s := 1) (by simp) (g := 0) (by simpa using g2) ⟨z1, z2, (highpass powi fc q sr).real⟩ rfl
    simpa using this
  · set b0 : ℝ := (((notch powi fc q sr).b0.val : ℚ) : ℝ) with hb0
    set b1 : ℝ := (((notch powi fc q sr).b1.val : ℚ) : ℝ) with hb1
    have m4 : 0 < b0 := by have := (Rat.cast_lt (K := ℝ)).2 n4; push_cast at this; exact this
    have m3 : |b1| ≤ 2 * b0 := by have := (Rat.cast_le (K := ℝ)).2 n3; push_cast at this; exact this
    set c : ℝ := - b1 / (2 * b0) with hc
    have hcb : 2 * b0 * c = -b1 := by rw [hc]; field_simp
    have hc1 : c ^ 2 ≤ 1 := by
      rw [sq_le_one_iff_abs_le_one, hc, abs_div, abs_neg, abs_of_pos (show 0 < 2 * b0 by linarith), div_le_one (by linarith)]
      exact m3
    set s : ℝ := Real.sqrt (1 - c ^ 2) with hs
    have hss : s ^ 2 = 1 - c ^ 2 := Real.sq_sqrt (by linarith)
    refine ⟨⟨c, s⟩, ?_, ?_⟩
    · rw [← sq_eq_sq₀ (norm_nonneg _) zero_le_one, Complex.sq_norm, Complex.normSq_apply]
      simp only; nlinarith
    · unfold BiquadCoeffs.cgain BiquadCoeffs.gain
      have : ((notch powi fc q sr).real.map (fun r : ℝ => (r : ℂ))).num ⟨c, s⟩ = 0 := by
        simp only [BiquadCoeffs.num, BiquadCoeffs.real, BiquadCoeffs.map, e3]
        rw [← hb0, ← hb1]
        apply Complex.ext <;> simp [sq]
        · linear_combination c * hcb - b0 * hss
        · linear_combination s * hcb
      rw [this, zero_div]
  · intro z hz
    have hzz : z * (starRingEnd ℂ) z = 1 := by rw [Complex.mul_conj, Complex.normSq_eq_norm_sq, hz]; simp
    have hd : ((allpass powi fc q sr).real.map (fun r : ℝ => (r : ℂ))).den z ≠ 0 :=
      fun h => absurd (S3 z h) (by rw [hz]; exact lt_irrefl 1)
    set co := (allpass powi fc q sr).real with hco
    have hb0 : co.b0 = co.a2 := rfl
    have hb1 : co.b1 = co.a1 := rfl
    have hb2 : co.b2 = 1 := by
      have : (allpass powi fc q sr).b2 = lit 1 := rfl
      simp only [hco, BiquadCoeffs.real, BiquadCoeffs.map, this, lit1_val]; norm_num
    have hnum : (co.map (fun r : ℝ => (r : ℂ))).num z = z ^ 2 * (starRingEnd ℂ) ((co.map (fun r : ℝ => (r : ℂ))).den z) := by
      simp only [BiquadCoeffs.num, BiquadCoeffs.den, BiquadCoeffs.map, hb0, hb1, hb2, map_add, map_mul, map_pow,
        Complex.conj_ofReal]
      push_cast
      linear_combination (-(co.a1 : ℂ) * z - z * (starRingEnd ℂ) z - 1) * hzz
    unfold BiquadCoeffs.cgain BiquadCoeffs.gain
    rw [hnum, norm_div, norm_mul, norm_pow, hz, RCLike.norm_conj, one_pow, one_mul, div_self (norm_ne_zero_iff.2 hd)]

/-- The size of the gain error on constants, in terms of what `setup_coeffs` returns. -/
theorem dc_gain {k2 kq : F32} (h2 : k2.isFin = true) (hq : kq.isFin = true) (p2 : 1 / 2 ^ 21 ≤ k2.val) (pq : 0 < kq.val)
    (hb : 1 + kq.val + k2.val ≤ 2 ^ 6) {δ : ℚ} (hδ : 0 ≤ δ) (hδ1 : δ ≤ 1 / 20) (h : 41 / 2 ^ 24 * (1 + kq.val + k2.val) ≤ 4 * k2.val * δ) :
    |((lowpassOf k2 kq).b0.val + (lowpassOf k2 kq).b1.val + (lowpassOf k2 kq).b2.val) /
      (1 + (lowpassOf k2 kq).a1.val + (lowpassOf k2 kq).a2.val) - 1| ≤ δ := by
  obtain ⟨-, m1, -, m2⟩ := design_near h2 hq (le_trans (by norm_num) p2) pq.le (hb.trans (by norm_num))
  obtain ⟨n1, -, -, -, n5⟩ := numerators h2 hq p2 pq hb
  have e : (lowpassOf k2 kq).b2 = (lowpassOf k2 kq).b0 := rfl
  change Near (lowpassOf k2 kq).a1 _ _ at m1
  change Near (lowpassOf k2 kq).a2 _ _ at m2
  rw [n1, e]
  have k0 : 0 < k2.val := lt_of_lt_of_le (by norm_num) p2
  have a0 : 0 < 1 + kq.val + k2.val := by linarith
  have ee : 1 + 2 * (k2.val - 1) / (1 + kq.val + k2.val) + (1 - kq.val + k2.val) / (1 + kq.val + k2.val) = 4 * (k2.val / (1 + kq.val + k2.val)) := by
    field_simp; ring
  obtain ⟨m1a, m1b⟩ := abs_le.1 m1.2
  obtain ⟨m2a, m2b⟩ := abs_le.1 m2.2
  obtain ⟨n5a, n5b⟩ := abs_le.1 n5.2
  have h' : 41 / 2 ^ 24 ≤ 4 * (k2.val / (1 + kq.val + k2.val)) * δ := by
    rw [← mul_div_assoc, div_mul_eq_mul_div, le_div_iff₀ a0]; exact h
  have t0 : 0 < k2.val / (1 + kq.val + k2.val) := by positivity
  have t1 : k2.val / (1 + kq.val + k2.val) ≤ 1 := by rw [div_le_one a0]; linarith
  generalize k2.val / (1 + kq.val + k2.val) = t at *
  generalize (lowpassOf k2 kq).b0.val = b at *
  generalize (lowpassOf k2 kq).a1.val = x at *
  generalize (lowpassOf k2 kq).a2.val = y at *
  have tδ : t * δ ≤ t := by nlinarith
  norm_num at m1a m1b m2a m2b n5a n5b h'
  have D0 : 0 < 1 + x + y := by linarith
  have : (b + 2 * b + b) / (1 + x + y) - 1 = (4 * b - (1 + x + y)) / (1 + x + y) := by field_simp; ring
  rw [this, abs_div, abs_of_pos D0, div_le_iff₀ D0]
  have D1 : 4 * t * δ - 22 / 2 ^ 24 * δ ≤ δ * (1 + x + y) := by
    have : 4 * t - 22 / 2 ^ 24 ≤ 1 + x + y := by norm_num; linarith
    nlinarith
  norm_num at D1
  rw [abs_le]; constructor <;> linarith

/-- The gain of the rounded low-pass on constants. -/
def dcGain (co : BiquadCoeffs F32) : ℚ := (co.b0.val + co.b1.val + co.b2.val) / (1 + co.a1.val + co.a2.val)

/-- C141: on constants the rounded low-pass has gain 1 within 2.5 percent from fc = sr/600 up, and within 1/4000 from sr/60 up (q from 0.6
to 2); that is where its output settles from any state. -/
theorem C141_dc {powi : F32 → ℕ → F32} (hp : PowiNear powi) {fc q sr : F32} (s0 : 1 ≤ sr.val) (s1 : sr.val ≤ 2 ^ 30)
    (r0 : 1 / 600 ≤ fc.val / sr.val) (r1 : fc.val / sr.val ≤ 318 / 1000) (q0 : 3 / 5 ≤ q.val) (q1 : q.val ≤ 2) (z1 z2 : ℝ) :
    |dcGain (lowpass powi fc q sr) - 1| ≤ 1 / 40 ∧ (1 / 60 ≤ fc.val / sr.val → |dcGain (lowpass powi fc q sr) - 1| ≤ 1 / 4000) ∧
    Filter.Tendsto (fun n => Biquad.outAt ⟨z1, z2, (lowpass powi fc q sr).real⟩ (fun _ => 1) n) Filter.atTop
      (nhds (dcGain (lowpass powi fc q sr) : ℝ)) := by
  have main : ∀ {l δ : ℚ}, 1 / 600 ≤ l → l ≤ fc.val / sr.val → 0 ≤ δ → δ ≤ 1 / 20 →
      (∀ K : ℚ, 3141 / 1000 * l ≤ K → K ≤ 17 / 10 → 41 / 2 ^ 24 * (1 + 101 / 60 * K) ≤ (4 * δ - 41 / 2 ^ 24) * (99 / 100 * K ^ 2)) →
      41 / 2 ^ 24 ≤ 4 * δ →
      |dcGain (lowpass powi fc q sr) - 1| ≤ δ := by
    intro l δ l0 l1 d0 d1 hK d2
    obtain ⟨k0, k1⟩ := warpF_range hp s0 s1 (l := l) (le_trans (by norm_num) l0) l1 r1
    have k00 : 1 / 2 ^ 10 ≤ (warpF powi fc sr).val := le_trans (by norm_num; linarith) k0
    obtain ⟨f1, f2, p2, pq, hb⟩ := k2kq_range k00 k1 (show 1 / 16 ≤ q.val by linarith) (show q.val ≤ 64 by linarith)
    obtain ⟨-, -, e1, e2, e3, e4⟩ := setup_near k00 (k1.trans (by norm_num)) (show 1 / 16 ≤ q.val by linarith) (show q.val ≤ 64 by linarith)
    refine dc_gain f1 f2 p2 pq hb d0 d1 ?_
    have := hK _ k0 k1
    have kp : 0 < (warpF powi fc sr).val := lt_of_lt_of_le (by norm_num) k00
    have c1 : (warpF powi fc sr).val / q.val ≤ 5 / 3 * (warpF powi fc sr).val := by
      rw [div_le_iff₀ (by linarith)]; nlinarith
    have c2 := mul_le_mul_of_nonneg_left e1 (sub_nonneg.2 d2)
    have c3 : 41 / 2 ^ 24 * (1 + (warpF powi fc sr / q).val) ≤ 41 / 2 ^ 24 * (1 + 101 / 60 * (warpF powi fc sr).val) := by
      apply mul_le_mul_of_nonneg_left _ (by norm_num); linarith
    linarith
  refine ⟨main (l := 1 / 600) le_rfl r0 (by norm_num) (by norm_num) (fun K h1 h2 => ?_) (by norm_num),
    fun h => main (l := 1 / 60) (by norm_num) h (by norm_num) (by norm_num) (fun K h1 h2 => ?_) (by norm_num), ?_⟩
  · have : 3141 / 1000 * (1 / 600) * K ≤ K ^ 2 := by nlinarith
    norm_num at h1 this ⊢; linarith
  · have : 3141 / 1000 * (1 / 60) * K ≤ K ^ 2 := by nlinarith
    norm_num at h1 this ⊢; linarith
  · have S := (C116_stable hp s0 s1 (le_trans (by norm_num) r0) r1 (show 1 / 16 ≤ q.val by linarith) (show q.val ≤ 64 by linarith) id (lit 1)).1
    have := settles S (s := 1) (by simp) (g := (dcGain (lowpass powi fc q sr) : ℝ)) (by
      push_cast
      rw [cgain_one]
      simp only [BiquadCoeffs.real, BiquadCoeffs.map, dcGain]; push_cast; rfl) ⟨z1, z2, (lowpass powi fc q sr).real⟩ rfl
    have h2 := this.add_const (dcGain (lowpass powi fc q sr) : ℝ)
    simpa using h2

/-- C141: the bounds are of the right size. At 48 kHz and q = 0.7 the low-pass at 93 Hz loses more than a thousandth on constants and the one
at 16 Hz gains more than 4.9 percent. -/
theorem C141_off : dcGain (lowpass powiMul (lit 93) (lit (7 / 10)) (lit 48000)) < 1 - 1 / 1000 ∧
    1049 / 1000 < dcGain (lowpass powiMul (lit 16) (lit (7 / 10)) (lit 48000)) := by
  constructor <;> decide +kernel

-- C140 and C141: settings in range
example : PowiNear powiMul ∧ 1 ≤ (lit 48000 : F32).val ∧ (lit 48000 : F32).val ≤ 2 ^ 30 ∧ 1 / 600 ≤ (lit 93 : F32).val / (lit 48000 : F32).val ∧
    1 / 60 ≤ (lit 1000 : F32).val / (lit 48000 : F32).val ∧ 1 / 3200 ≤ (lit 16 : F32).val / (lit 48000 : F32).val ∧
    (lit 1000 : F32).val / (lit 48000 : F32).val ≤ 318 / 1000 ∧ 3 / 5 ≤ (lit (7 / 10) : F32).val ∧ (lit (7 / 10) : F32).val ≤ 2 := by
  refine ⟨powiMul_near, ?_, ?_, ?_, ?_, ?_, ?_, ?_, ?_⟩ <;> decide +kernel

-- at 1 kHz: the numerator 1, 2, 1 times b0, and the gain off by two parts in a million
example : (lowpass powiMul (lit 1000) (lit (7 / 10)) (lit 48000)).b1.val = 2 * (lowpass powiMul (lit 1000) (lit (7 / 10)) (lit 48000)).b0.val ∧
    |dcGain (lowpass powiMul (lit 1000) (lit (7 / 10)) (lit 48000)) - 1| < 1 / 10 ^ 5 ∧
    dcGain (lowpass powiMul (lit 1000) (lit (7 / 10)) (lit 48000)) ≠ 1 := by
  refine ⟨?_, ?_, ?_⟩ <;> decide +kernel

end Verif
