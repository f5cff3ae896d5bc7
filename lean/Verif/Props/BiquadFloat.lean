import Verif.Props.Biquad
import Verif.Props.Si
import Mathlib.Analysis.Complex.Norm

/-! # C114, C115: the float biquad, rounding included, over infinitely many samples

For coefficients with complex poles `p`, `conj p` the quantity `z2 + p * z1` is multiplied by `p` in each step, plus what the
sample and the rounding add. `poleMargin` measures how far the poles are from the unit circle and from the real axis. -/

namespace Verif

open F32

/-- Distance of the poles from the unit circle, times their distance from the real axis (0 if they are real). -/
noncomputable def poleMargin (a1 a2 : ℝ) : ℝ := √(a2 - a1 ^ 2 / 4) * (1 - √a2)

/-- The real numbers a float biquad's coefficients stand for. -/
noncomputable def BiquadCoeffs.real (c : BiquadCoeffs F32) : BiquadCoeffs ℝ := c.map fun v => (v.val : ℝ)

def BiquadCoeffs.Fin (c : BiquadCoeffs F32) : Prop :=
  c.b0.isFin = true ∧ c.b1.isFin = true ∧ c.b2.isFin = true ∧ c.a1.isFin = true ∧ c.a2.isFin = true

/-- One step: what rounding adds to the output and to the two states. -/
theorem process_error {f : Biquad F32} {x : F32} (hc : f.coeffs.Fin) (hx : x.isFin = true) (h1 : f.z1.isFin = true)
    (h2 : f.z2.isFin = true) {S : ℚ} (hS : S ≤ 2 ^ 90)
    (a1 : |f.coeffs.a1.val| ≤ 2) (a2 : |f.coeffs.a2.val| ≤ 1)
    (g0 : |f.coeffs.b0.val * x.val| + |f.z1.val| ≤ S) (g1 : |f.coeffs.b1.val * x.val| + |f.z2.val| ≤ S)
    (g2 : |f.coeffs.b2.val * x.val| ≤ S) :
    (f.process x).2.isFin = true ∧ (f.process x).1.z1.isFin = true ∧ (f.process x).1.z2.isFin = true ∧
    |(f.process x).2.val - (f.coeffs.b0.val * x.val + f.z1.val)| ≤ 3 / 2 ^ 150 + 3 * S / 2 ^ 24 ∧
    |(f.process x).1.z1.val - (f.coeffs.b1.val * x.val + f.z2.val - f.coeffs.a1.val * (f.coeffs.b0.val * x.val + f.z1.val))| ≤
      13 / 2 ^ 150 + 21 * S / 2 ^ 24 ∧
    |(f.process x).1.z2.val - (f.coeffs.b2.val * x.val - f.coeffs.a2.val * (f.coeffs.b0.val * x.val + f.z1.val))| ≤
      8 / 2 ^ 150 + 11 * S / 2 ^ 24 := by
  obtain ⟨c0, c1, c2, c3, c4⟩ := hc
  simp only [Biquad.process]
  generalize f.coeffs.b0 = B0 at *
  generalize f.coeffs.b1 = B1 at *
  generalize f.coeffs.b2 = B2 at *
  generalize f.coeffs.a1 = A1 at *
  generalize f.coeffs.a2 = A2 at *
  generalize f.z1 = Z1 at *
  generalize f.z2 = Z2 at *
  have S0 : 0 ≤ S := (abs_nonneg _).trans g2
  have hS' : S ≤ 1237940039285380274899124224 := by norm_num at hS; exact hS
  have hη : (1:ℚ) / 2 ^ 150 ≤ 1 / 2 ^ 100 := by norm_num
  have hη0 : (0:ℚ) < 1 / 2 ^ 150 := by norm_num
  have e3 : (3:ℚ) / 2 ^ 150 = 3 * (1 / 2 ^ 150) := by ring
  have e13 : (13:ℚ) / 2 ^ 150 = 13 * (1 / 2 ^ 150) := by ring
  have e8 : (8:ℚ) / 2 ^ 150 = 8 * (1 / 2 ^ 150) := by ring
  have z1n := abs_nonneg Z1.val
  have z2n := abs_nonneg Z2.val
  have p0n := abs_nonneg (B0.val * x.val)
  have p1n := abs_nonneg (B1.val * x.val)
  obtain ⟨f0, k0⟩ := mul_near (B := S) c0 hx (by linarith) (by norm_num; linarith)
  obtain ⟨f1, k1⟩ := mul_near (B := S) c1 hx (by linarith) (by norm_num; linarith)
  obtain ⟨f2, k2⟩ := mul_near (B := S) c2 hx (by linarith) (by norm_num; linarith)
  rw [e3, e13, e8]
  generalize B0 * x = P0 at *
  generalize B1 * x = P1 at *
  generalize B2 * x = P2 at *
  generalize hη' : (1:ℚ) / 2 ^ 150 = η at *
  obtain ⟨k0a, k0b⟩ := abs_le.1 k0
  obtain ⟨k1a, k1b⟩ := abs_le.1 k1
  obtain ⟨k2a, k2b⟩ := abs_le.1 k2
  have q0 := le_abs_self (B0.val * x.val)
  have q0' := neg_abs_le (B0.val * x.val)
  have q1 := le_abs_self (B1.val * x.val)
  have q1' := neg_abs_le (B1.val * x.val)
  have q2 := le_abs_self (B2.val * x.val)
  have q2' := neg_abs_le (B2.val * x.val)
  have w1 := le_abs_self Z1.val
  have w1' := neg_abs_le Z1.val
  have w2 := le_abs_self Z2.val
  have w2' := neg_abs_le Z2.val
  obtain ⟨fo, ko⟩ := add_near (B := 2 * S + η) f0 h1 (by rw [abs_le]; constructor <;> linarith) (by norm_num at hη ⊢; linarith)
  obtain ⟨fs, ks⟩ := add_near (B := 2 * S + η) f1 h2 (by rw [abs_le]; constructor <;> linarith) (by norm_num at hη ⊢; linarith)
  rw [hη'] at ko ks
  generalize P0 + Z1 = O at *
  generalize P1 + Z2 = S1 at *
  obtain ⟨koa, kob⟩ := abs_le.1 ko
  obtain ⟨ksa, ksb⟩ := abs_le.1 ks
  have eo : |O.val - (B0.val * x.val + Z1.val)| ≤ 3 * η + 3 * S / 2 ^ 24 := by
    rw [abs_le]; constructor <;> linarith
  have oB : |O.val| ≤ 2 * S + 3 * η := by
    obtain ⟨u, v⟩ := abs_le.1 eo
    rw [abs_le]; constructor <;> linarith
  have m1 : |A1.val * O.val| ≤ 4 * S + 6 * η := by
    rw [abs_mul]
    have := mul_le_mul a1 oB (abs_nonneg _) (by norm_num)
    linarith
  have m2 : |A2.val * O.val| ≤ 2 * S + 3 * η := by
    rw [abs_mul]
    have := mul_le_mul a2 oB (abs_nonneg _) (by norm_num)
    linarith
  obtain ⟨ft1, kt1⟩ := mul_near (B := 4 * S + 6 * η) c3 fo m1 (by norm_num at hη ⊢; linarith)
  obtain ⟨ft2, kt2⟩ := mul_near (B := 2 * S + 3 * η) c4 fo m2 (by norm_num at hη ⊢; linarith)
  rw [hη'] at kt1 kt2
  generalize A1 * O = T1 at *
  generalize A2 * O = T2 at *
  obtain ⟨kt1a, kt1b⟩ := abs_le.1 kt1
  obtain ⟨kt2a, kt2b⟩ := abs_le.1 kt2
  obtain ⟨m1a, m1b⟩ := abs_le.1 m1
  obtain ⟨m2a, m2b⟩ := abs_le.1 m2
  have d1 : (S1 - T1).isFin = true ∧ |(S1 - T1).val - (S1.val - T1.val)| ≤ η + (8 * S + 12 * η) / 2 ^ 24 := by
    rw [sub_fin fs ft1, ← hη']
    exact rnd_near (by rw [hη', abs_le]; constructor <;> linarith) (by rw [hη']; norm_num at hη ⊢; linarith)
  have d2 : (P2 - T2).isFin = true ∧ |(P2 - T2).val - (P2.val - T2.val)| ≤ η + (5 * S + 7 * η) / 2 ^ 24 := by
    rw [sub_fin f2 ft2, ← hη']
    exact rnd_near (by rw [hη', abs_le]; constructor <;> linarith) (by rw [hη']; norm_num at hη ⊢; linarith)
  obtain ⟨fd1, kd1⟩ := d1
  obtain ⟨fd2, kd2⟩ := d2
  obtain ⟨kd1a, kd1b⟩ := abs_le.1 kd1
  obtain ⟨kd2a, kd2b⟩ := abs_le.1 kd2
  have r1 : |A1.val * O.val - A1.val * (B0.val * x.val + Z1.val)| ≤ 6 * η + 6 * S / 2 ^ 24 := by
    rw [← mul_sub, abs_mul]
    have := mul_le_mul a1 eo (abs_nonneg _) (by norm_num)
    linarith
  have r2 : |A2.val * O.val - A2.val * (B0.val * x.val + Z1.val)| ≤ 3 * η + 3 * S / 2 ^ 24 := by
    rw [← mul_sub, abs_mul]
    have := mul_le_mul a2 eo (abs_nonneg _) (by norm_num)
    linarith
  obtain ⟨r1a, r1b⟩ := abs_le.1 r1
  obtain ⟨r2a, r2b⟩ := abs_le.1 r2
  refine ⟨fo, fd1, fd2, eo, ?_, ?_⟩
  · rw [abs_le]; constructor <;> linarith
  · rw [abs_le]; constructor <;> linarith

/-! ## The modal quantity -/

/-- The upper pole. -/
noncomputable def pole (a1 a2 : ℝ) : ℂ := ⟨-a1 / 2, √(a2 - a1 ^ 2 / 4)⟩

/-- What a positive margin says about the coefficients. -/
theorem margin_facts {a1 a2 : ℝ} (h : 0 < poleMargin a1 a2) :
    0 < √(a2 - a1 ^ 2 / 4) ∧ 0 < 1 - √a2 ∧ √(a2 - a1 ^ 2 / 4) ≤ √a2 ∧ |a1| ≤ 2 ∧ |a2| ≤ 1 ∧ ‖pole a1 a2‖ = √a2 ∧
    (pole a1 a2) ^ 2 + a1 * pole a1 a2 + a2 = 0 ∧ poleMargin a1 a2 ≤ 1 / 4 := by
  unfold poleMargin at *
  have s0 : 0 < √(a2 - a1 ^ 2 / 4) := by
    rcases (Real.sqrt_nonneg (a2 - a1 ^ 2 / 4)).eq_or_lt with e | e
    · rw [← e, zero_mul] at h; exact absurd h (lt_irrefl _)
    · exact e
  have r1 : 0 < 1 - √a2 := by
    by_contra hc
    exact absurd h (not_lt.2 (mul_nonpos_of_nonneg_of_nonpos s0.le (not_lt.1 hc)))
  have hd : 0 < a2 - a1 ^ 2 / 4 := Real.sqrt_pos.1 s0
  have ha2 : 0 < a2 := by nlinarith [sq_nonneg a1]
  have hs2 := Real.sq_sqrt hd.le
  have hr2 := Real.sq_sqrt ha2.le
  have hr0 := Real.sqrt_nonneg a2
  have hsr : √(a2 - a1 ^ 2 / 4) ≤ √a2 := Real.sqrt_le_sqrt (by nlinarith [sq_nonneg a1])
  have ha2' : a2 < 1 := by nlinarith
  refine ⟨s0, r1, hsr, ?_, ?_, ?_, ?_, ?_⟩
  · rw [← sq_le_sq₀ (abs_nonneg _) (by norm_num), sq_abs]; linarith
  · rw [abs_of_pos ha2]; exact ha2'.le
  · rw [Complex.norm_def, Complex.normSq_apply]
    congr 1
    simp only [pole]
    nlinarith
  · apply Complex.ext
    · rw [pow_two (pole a1 a2)]
      simp only [pole, Complex.add_re, Complex.mul_re, Complex.ofReal_re, Complex.ofReal_im, Complex.zero_re]
      nlinarith
    · rw [pow_two (pole a1 a2)]
      simp only [pole, Complex.add_im, Complex.mul_im, Complex.ofReal_re, Complex.ofReal_im, Complex.zero_im]
      ring
  · nlinarith [mul_le_mul_of_nonneg_right hsr r1.le, sq_nonneg (√a2 - 1 / 2)]

/-- The modal quantity of a state. -/
noncomputable def modal (a1 a2 z1 z2 : ℝ) : ℂ := z2 + pole a1 a2 * z1

theorem modal_z1 {a1 a2 : ℝ} (h : 0 < poleMargin a1 a2) (z1 z2 : ℝ) :
    |z1| ≤ ‖modal a1 a2 z1 z2‖ / √(a2 - a1 ^ 2 / 4) := by
  obtain ⟨s0, -⟩ := margin_facts h
  rw [le_div_iff₀ s0, ← abs_of_pos s0, ← abs_mul]
  have := Complex.abs_im_le_norm (modal a1 a2 z1 z2)
  have e : (modal a1 a2 z1 z2).im = z1 * √(a2 - a1 ^ 2 / 4) := by
    simp only [modal, pole, Complex.add_im, Complex.mul_im, Complex.ofReal_re, Complex.ofReal_im]; ring
  rwa [e] at this

theorem modal_z2 {a1 a2 : ℝ} (h : 0 < poleMargin a1 a2) (z1 z2 : ℝ) :
    |z2| ≤ 2 * (‖modal a1 a2 z1 z2‖ / √(a2 - a1 ^ 2 / 4)) := by
  obtain ⟨s0, r1, hsr, -, -, hp, -⟩ := margin_facts h
  have h1 := modal_z1 h z1 z2
  have e : (z2 : ℂ) = modal a1 a2 z1 z2 - pole a1 a2 * z1 := by simp [modal]
  have h2 : |z2| ≤ ‖modal a1 a2 z1 z2‖ + √a2 * |z1| := by
    have := norm_sub_le (modal a1 a2 z1 z2) (pole a1 a2 * z1)
    rw [← e, norm_mul, hp, Complex.norm_real, Complex.norm_real, Real.norm_eq_abs, Real.norm_eq_abs] at this
    exact this
  have h3 : ‖modal a1 a2 z1 z2‖ ≤ ‖modal a1 a2 z1 z2‖ / √(a2 - a1 ^ 2 / 4) := by
    rw [le_div_iff₀ s0]
    exact mul_le_of_le_one_right (norm_nonneg _) (by linarith)
  have h4 : √a2 * |z1| ≤ |z1| := mul_le_of_le_one_left (abs_nonneg _) (by linarith)
  linarith

theorem modal_step {a1 a2 : ℝ} (h : 0 < poleMargin a1 a2) (z1 z2 u0 u1 u2 e1 e2 : ℝ) :
    ‖modal a1 a2 (u1 + z2 - a1 * (u0 + z1) + e1) (u2 - a2 * (u0 + z1) + e2)‖ ≤
      √a2 * ‖modal a1 a2 z1 z2‖ + (3 * |u0| + |u1| + |u2|) + (|e1| + |e2|) := by
  obtain ⟨s0, r1, hsr, b1, b2, hp, hq, -⟩ := margin_facts h
  have hp1 : ‖pole a1 a2‖ ≤ 1 := by linarith
  have e : modal a1 a2 (u1 + z2 - a1 * (u0 + z1) + e1) (u2 - a2 * (u0 + z1) + e2) =
      pole a1 a2 * modal a1 a2 z1 z2 + (u2 - (a2 : ℂ) * u0 + pole a1 a2 * u1 - pole a1 a2 * (a1 * u0)) + (e2 + pole a1 a2 * e1) := by
    simp only [modal]; push_cast
    linear_combination (-(z1 : ℂ)) * hq
  rw [e]
  have n1 : ∀ t : ℝ, ‖pole a1 a2 * (t : ℂ)‖ ≤ |t| := by
    intro t
    rw [norm_mul, Complex.norm_real, Real.norm_eq_abs]
    exact mul_le_of_le_one_left (abs_nonneg _) hp1
  have n2 : ‖(u2 - (a2 : ℂ) * u0 + pole a1 a2 * u1 - pole a1 a2 * (a1 * u0))‖ ≤ 3 * |u0| + |u1| + |u2| := by
    have k1 := norm_sub_le ((u2 : ℂ) - (a2 : ℂ) * u0 + pole a1 a2 * u1) (pole a1 a2 * ((a1 : ℂ) * u0))
    have k2 := norm_add_le ((u2 : ℂ) - (a2 : ℂ) * u0) (pole a1 a2 * u1)
    have k3 := norm_sub_le (u2 : ℂ) ((a2 : ℂ) * u0)
    have k4 := n1 (a1 * u0)
    have k5 := n1 u1
    rw [abs_mul] at k4
    push_cast at k4
    rw [norm_mul, Complex.norm_real, Complex.norm_real, Complex.norm_real, Real.norm_eq_abs, Real.norm_eq_abs, Real.norm_eq_abs] at k3
    have k6 := mul_le_mul_of_nonneg_right b1 (abs_nonneg u0)
    have k7 := mul_le_mul_of_nonneg_right b2 (abs_nonneg u0)
    linarith
  have n3 : ‖(e2 : ℂ) + pole a1 a2 * e1‖ ≤ |e1| + |e2| := by
    have k1 := norm_add_le (e2 : ℂ) (pole a1 a2 * e1)
    rw [Complex.norm_real, Real.norm_eq_abs] at k1
    have := n1 e1
    linarith
  have k1 := norm_add_le (pole a1 a2 * modal a1 a2 z1 z2 + (u2 - (a2 : ℂ) * u0 + pole a1 a2 * u1 - pole a1 a2 * (a1 * u0)))
    ((e2 : ℂ) + pole a1 a2 * e1)
  have k2 := norm_add_le (pole a1 a2 * modal a1 a2 z1 z2) (u2 - (a2 : ℂ) * u0 + pole a1 a2 * u1 - pole a1 a2 * (a1 * u0))
  have k3 : ‖pole a1 a2 * modal a1 a2 z1 z2‖ = √a2 * ‖modal a1 a2 z1 z2‖ := by rw [norm_mul, hp]
  linarith

/-! ## The float filter -/

/-- The margin of a float coefficient set. -/
noncomputable def BiquadCoeffs.margin (c : BiquadCoeffs F32) : ℝ := poleMargin c.a1.val c.a2.val

/-- No feed-forward product exceeds `G`. -/
def BiquadCoeffs.FeedsAtMost (c : BiquadCoeffs F32) (x : F32) (G : ℚ) : Prop :=
  |c.b0.val * x.val| ≤ G ∧ |c.b1.val * x.val| ≤ G ∧ |c.b2.val * x.val| ≤ G

/-- The modal quantity of a float state. -/
noncomputable def Biquad.modal (f : Biquad F32) : ℂ := Verif.modal f.coeffs.a1.val f.coeffs.a2.val f.z1.val f.z2.val

theorem float_step {f : Biquad F32} {x : F32} {G : ℚ} (hc : f.coeffs.Fin) (hM : 1 / 2 ^ 17 ≤ f.coeffs.margin)
    (hx : x.isFin = true) (h1 : f.z1.isFin = true) (h2 : f.z2.isFin = true) (G0 : 1 / 2 ^ 120 ≤ G) (G1 : G ≤ 2 ^ 60)
    (hb : f.coeffs.FeedsAtMost x G) (hw : ‖f.modal‖ ≤ 121 / 10 * (G / (1 - √(f.coeffs.a2.val : ℝ)))) :
    ∃ e0 e1 e2 : ℝ, (f.process x).2.isFin = true ∧ (f.process x).1.z1.isFin = true ∧ (f.process x).1.z2.isFin = true ∧
      ((f.process x).2.val : ℝ) = f.coeffs.b0.val * x.val + f.z1.val + e0 ∧
      ((f.process x).1.z1.val : ℝ) =
        f.coeffs.b1.val * x.val + f.z2.val - f.coeffs.a1.val * (f.coeffs.b0.val * x.val + f.z1.val) + e1 ∧
      ((f.process x).1.z2.val : ℝ) = f.coeffs.b2.val * x.val - f.coeffs.a2.val * (f.coeffs.b0.val * x.val + f.z1.val) + e2 ∧
      |e0| ≤ 75 * (G / f.coeffs.margin) / 2 ^ 24 ∧ |e1| + |e2| ≤ 785 * (G / f.coeffs.margin) / 2 ^ 24 ∧
      |(f.z1.val : ℝ)| ≤ 121 / 10 * (G / f.coeffs.margin) := by
  have hM0 : 0 < f.coeffs.margin := lt_of_lt_of_le (by norm_num) hM
  obtain ⟨s0, r1, hsr, b1, b2, hp, hq, hM4⟩ := margin_facts hM0
  have z1 := modal_z1 hM0 f.z1.val f.z2.val
  have z2 := modal_z2 hM0 f.z1.val f.z2.val
  have hG0 : (0:ℝ) < G := by exact_mod_cast lt_of_lt_of_le (by norm_num) G0
  have hW : ‖f.modal‖ / √((f.coeffs.a2.val : ℝ) - (f.coeffs.a1.val : ℝ) ^ 2 / 4) ≤ 121 / 10 * (G / f.coeffs.margin) := by
    refine (div_le_div_of_nonneg_right hw s0.le).trans (le_of_eq ?_)
    rw [BiquadCoeffs.margin, poleMargin]
    have := r1.ne'
    have := s0.ne'
    field_simp
  have hGM : (G : ℝ) ≤ 1 / 4 * (G / f.coeffs.margin) := by
    rw [← mul_div_assoc, le_div_iff₀ hM0]
    nlinarith [show f.coeffs.margin ≤ 1 / 4 from hM4]
  have hGM' : (G : ℝ) / f.coeffs.margin ≤ 2 ^ 17 * 2 ^ 60 := by
    rw [div_le_iff₀ hM0]
    have k1 : (G:ℝ) ≤ 2 ^ 60 := by exact_mod_cast G1
    nlinarith
  have hZ1 : |(f.z1.val : ℝ)| ≤ 121 / 10 * (G / f.coeffs.margin) := z1.trans hW
  have hZ2 : |(f.z2.val : ℝ)| ≤ 242 / 10 * (G / f.coeffs.margin) := by
    refine z2.trans ?_
    change 2 * (‖f.modal‖ / _) ≤ _
    linarith
  obtain ⟨g0, g1, g2⟩ := hb
  have hS : ((G + max |f.z1.val| |f.z2.val| : ℚ) : ℝ) ≤ 2445 / 100 * (G / f.coeffs.margin) := by
    push_cast
    have : max |(f.z1.val : ℝ)| |(f.z2.val : ℝ)| ≤ 242 / 10 * (G / f.coeffs.margin) := max_le (by linarith [abs_nonneg (f.z1.val : ℝ)]) hZ2
    linarith
  have hS' : G + max |f.z1.val| |f.z2.val| ≤ 2 ^ 90 := by
    have : ((G + max |f.z1.val| |f.z2.val| : ℚ) : ℝ) ≤ 2 ^ 90 := hS.trans (by norm_num at hGM' ⊢; linarith)
    exact_mod_cast this
  obtain ⟨o1, o2, o3, k0, k1, k2⟩ := process_error hc hx h1 h2 hS' (by exact_mod_cast b1) (by exact_mod_cast b2)
    (add_le_add g0 (le_max_left _ _)) (add_le_add g1 (le_max_right _ _))
    (by linarith [le_max_left |f.z1.val| |f.z2.val|, abs_nonneg f.z1.val])
  have hη : (1:ℝ) / 2 ^ 150 ≤ 1 / 2 ^ 30 * G := by
    have : ((1:ℝ) / 2 ^ 120) ≤ G := by
      have := (Rat.cast_le (K := ℝ)).2 G0; push_cast at this; exact this
    nlinarith
  replace k0 := (Rat.cast_le (K := ℝ)).2 k0
  replace k1 := (Rat.cast_le (K := ℝ)).2 k1
  replace k2 := (Rat.cast_le (K := ℝ)).2 k2
  generalize hSg : G + max |f.z1.val| |f.z2.val| = S at *
  push_cast at k0 k1 k2
  have e3 : (3:ℝ) / 2 ^ 150 = 3 * (1 / 2 ^ 150) := by ring
  have e13 : (13:ℝ) / 2 ^ 150 = 13 * (1 / 2 ^ 150) := by ring
  have e8 : (8:ℝ) / 2 ^ 150 = 8 * (1 / 2 ^ 150) := by ring
  rw [e3] at k0
  rw [e13] at k1
  rw [e8] at k2
  generalize (1:ℝ) / 2 ^ 150 = η at *
  refine ⟨_, _, _, o1, o2, o3, (add_sub_cancel _ _).symm, (add_sub_cancel _ _).symm, (add_sub_cancel _ _).symm, k0.trans ?_,
    (add_le_add k1 k2).trans ?_, hZ1⟩
  · linarith
  · linarith

/-- The invariant of both theorems. -/
theorem float_inv {co : BiquadCoeffs F32} {x : ℕ → F32} {G : ℚ} (hc : co.Fin) (hM : 1 / 2 ^ 17 ≤ co.margin)
    (hx : ∀ n, (x n).isFin = true) (G0 : 1 / 2 ^ 120 ≤ G) (G1 : G ≤ 2 ^ 60) (hb : ∀ n, co.FeedsAtMost (x n) G) (n : ℕ) :
    ((Biquad.new co).stateAt x n).z1.isFin = true ∧ ((Biquad.new co).stateAt x n).z2.isFin = true ∧
    ‖((Biquad.new co).stateAt x n).modal‖ ≤ 121 / 10 * (G / (1 - √(co.a2.val : ℝ))) ∧
    ‖modal co.a1.val co.a2.val
        (((Biquad.new co).stateAt x n).z1.val - ((Biquad.new co.real).stateAt (fun k => ((x k).val : ℝ)) n).z1)
        (((Biquad.new co).stateAt x n).z2.val - ((Biquad.new co.real).stateAt (fun k => ((x k).val : ℝ)) n).z2)‖ ≤
      785 * (G / co.margin) / 2 ^ 24 / (1 - √(co.a2.val : ℝ)) := by
  have hM0 : 0 < co.margin := lt_of_lt_of_le (by norm_num) hM
  obtain ⟨s0, r1, hsr, b1, b2, hp, hq, hM4⟩ := margin_facts hM0
  have hG0 : (0:ℝ) < G := by exact_mod_cast lt_of_lt_of_le (by norm_num) G0
  have hGM : (G : ℝ) / co.margin ≤ 2 ^ 17 * G := by
    rw [div_le_iff₀ hM0]
    nlinarith
  have hGM0 : 0 < (G : ℝ) / co.margin := div_pos hG0 hM0
  induction n with
  | zero =>
    refine ⟨lit0_fin, lit0_fin, ?_, ?_⟩
    · simp only [Biquad.stateAt, Biquad.modal, Biquad.new, lit0_val, modal, Rat.cast_zero, Complex.ofReal_zero, mul_zero, add_zero,
        norm_zero]
      exact mul_nonneg (by norm_num) (div_nonneg hG0.le r1.le)
    · have hz : (lit 0 : ℝ) = 0 := Rat.cast_zero
      simp only [Biquad.stateAt, Biquad.new, lit0_val, modal, hz, Rat.cast_zero, sub_zero, Complex.ofReal_zero, mul_zero, add_zero,
        norm_zero]
      exact div_nonneg (by positivity) r1.le
  | succ n ih =>
    obtain ⟨i1, i2, i3, i4⟩ := ih
    have hco : ((Biquad.new co).stateAt x n).coeffs = co := coeffs_stateAt _ _ _
    have hcr : ((Biquad.new co.real).stateAt (fun k => ((x k).val : ℝ)) n).coeffs = co.real := coeffs_stateAt _ _ _
    obtain ⟨e0, e1, e2, o1, o2, o3, v0, v1, v2, k0, k1, kz⟩ := float_step (f := (Biquad.new co).stateAt x n) (x := x n) (G := G)
      (by rw [hco]; exact hc) (by rw [hco]; exact hM) (hx n) i1 i2 G0 G1 (by rw [hco]; exact hb n) (by rw [hco]; exact i3)
    have hco' : ((Biquad.new co).stateAt x (n + 1)).coeffs = co := coeffs_stateAt _ _ _
    rw [hco] at v0 v1 v2 k0 k1 kz
    obtain ⟨g0, g1, g2⟩ := hb n
    replace g0 := (Rat.cast_le (K := ℝ)).2 g0
    replace g1 := (Rat.cast_le (K := ℝ)).2 g1
    replace g2 := (Rat.cast_le (K := ℝ)).2 g2
    push_cast at g0 g1 g2
    refine ⟨o2, o3, ?_, ?_⟩
    · have st := modal_step hM0 ((Biquad.new co).stateAt x n).z1.val ((Biquad.new co).stateAt x n).z2.val
        (co.b0.val * (x n).val) (co.b1.val * (x n).val) (co.b2.val * (x n).val) e1 e2
      rw [← v1, ← v2] at st
      simp only [Biquad.modal, hco, hco'] at i3 ⊢
      refine st.trans ?_
      have k3 := mul_le_mul_of_nonneg_left i3 (Real.sqrt_nonneg (co.a2.val : ℝ))
      have k4 : √(co.a2.val : ℝ) * (121 / 10 * (G / (1 - √(co.a2.val : ℝ)))) = 121 / 10 * (G / (1 - √(co.a2.val : ℝ))) - 121 / 10 * G := by
        have := r1.ne'
        field_simp
        ring
      rw [k4] at k3
      linarith
    · have st := modal_step hM0
        (((Biquad.new co).stateAt x n).z1.val - ((Biquad.new co.real).stateAt (fun k => ((x k).val : ℝ)) n).z1)
        (((Biquad.new co).stateAt x n).z2.val - ((Biquad.new co.real).stateAt (fun k => ((x k).val : ℝ)) n).z2) 0 0 0 e1 e2
      have w1 : (((Biquad.new co).stateAt x (n + 1)).z1.val : ℝ) - ((Biquad.new co.real).stateAt (fun k => ((x k).val : ℝ)) (n + 1)).z1 =
          0 + (((Biquad.new co).stateAt x n).z2.val - ((Biquad.new co.real).stateAt (fun k => ((x k).val : ℝ)) n).z2) -
          co.a1.val * (0 + (((Biquad.new co).stateAt x n).z1.val - ((Biquad.new co.real).stateAt (fun k => ((x k).val : ℝ)) n).z1)) + e1 := by
        simp only [Biquad.stateAt]
        rw [v1]
        simp only [Biquad.process, hcr]
        simp only [BiquadCoeffs.real, BiquadCoeffs.map]
        ring
      have w2 : (((Biquad.new co).stateAt x (n + 1)).z2.val : ℝ) - ((Biquad.new co.real).stateAt (fun k => ((x k).val : ℝ)) (n + 1)).z2 =
          0 - co.a2.val * (0 + (((Biquad.new co).stateAt x n).z1.val - ((Biquad.new co.real).stateAt (fun k => ((x k).val : ℝ)) n).z1)) + e2 := by
        simp only [Biquad.stateAt]
        rw [v2]
        simp only [Biquad.process, hcr]
        simp only [BiquadCoeffs.real, BiquadCoeffs.map]
        ring
      rw [← w1, ← w2] at st
      refine st.trans ?_
      have k3 := mul_le_mul_of_nonneg_left i4 (Real.sqrt_nonneg (co.a2.val : ℝ))
      have k4 : ∀ t : ℝ, √(co.a2.val : ℝ) * (t / (1 - √(co.a2.val : ℝ))) = t / (1 - √(co.a2.val : ℝ)) - t := by
        intro t
        have := r1.ne'
        field_simp
        ring
      rw [k4] at k3
      simp only [abs_zero, mul_zero, add_zero]
      linarith

/-- C114: from rest, and whatever the infinite input, the float biquad never produces an infinity or a NaN and its output stays below
a fixed multiple of the largest feed-forward product. -/
theorem C114_bounded {co : BiquadCoeffs F32} {x : ℕ → F32} {G : ℚ} (hc : co.Fin) (hM : 1 / 2 ^ 17 ≤ co.margin)
    (hx : ∀ n, (x n).isFin = true) (G0 : 1 / 2 ^ 120 ≤ G) (G1 : G ≤ 2 ^ 60) (hb : ∀ n, co.FeedsAtMost (x n) G) (n : ℕ) :
    ((Biquad.new co).outAt x n).isFin = true ∧ |(((Biquad.new co).outAt x n).val : ℝ)| ≤ 13 * (G / co.margin) := by
  have hM0 : 0 < co.margin := lt_of_lt_of_le (by norm_num) hM
  have hM4 : co.margin ≤ 1 / 4 := (margin_facts hM0).2.2.2.2.2.2.2
  have hG0 : (0:ℝ) < G := by exact_mod_cast lt_of_lt_of_le (by norm_num) G0
  have hGM : (G : ℝ) ≤ 1 / 4 * (G / co.margin) := by
    rw [← mul_div_assoc, le_div_iff₀ hM0]
    nlinarith
  obtain ⟨i1, i2, i3, -⟩ := float_inv hc hM hx G0 G1 hb n
  have hco : ((Biquad.new co).stateAt x n).coeffs = co := coeffs_stateAt _ _ _
  obtain ⟨e0, e1, e2, o1, o2, o3, v0, v1, v2, k0, k1, kz⟩ := float_step (f := (Biquad.new co).stateAt x n) (x := x n) (G := G)
    (by rw [hco]; exact hc) (by rw [hco]; exact hM) (hx n) i1 i2 G0 G1 (by rw [hco]; exact hb n) (by rw [hco]; exact i3)
  rw [hco] at v0 k0 kz
  have g0 := (Rat.cast_le (K := ℝ)).2 (hb n).1
  push_cast at g0
  refine ⟨o1, ?_⟩
  unfold Biquad.outAt
  rw [v0]
  refine (abs_add_three _ _ _).trans ?_
  linarith

/-- C115: the float output follows the output of the same filter in exact arithmetic for ever. -/
theorem C115_tracks {co : BiquadCoeffs F32} {x : ℕ → F32} {G : ℚ} (hc : co.Fin) (hM : 1 / 2 ^ 17 ≤ co.margin)
    (hx : ∀ n, (x n).isFin = true) (G0 : 1 / 2 ^ 120 ≤ G) (G1 : G ≤ 2 ^ 60) (hb : ∀ n, co.FeedsAtMost (x n) G) (n : ℕ) :
    |(((Biquad.new co).outAt x n).val : ℝ) - (Biquad.new co.real).outAt (fun k => ((x k).val : ℝ)) n| ≤
      G / co.margin ^ 2 / 2 ^ 14 := by
  have hM0 : 0 < co.margin := lt_of_lt_of_le (by norm_num) hM
  obtain ⟨s0, r1, -, -, -, -, -, hM4⟩ := margin_facts hM0
  replace hM4 : co.margin ≤ 1 / 4 := hM4
  have hG0 : (0:ℝ) < G := by exact_mod_cast lt_of_lt_of_le (by norm_num) G0
  obtain ⟨i1, i2, i3, i4⟩ := float_inv hc hM hx G0 G1 hb n
  have hco : ((Biquad.new co).stateAt x n).coeffs = co := coeffs_stateAt _ _ _
  have hcr : ((Biquad.new co.real).stateAt (fun k => ((x k).val : ℝ)) n).coeffs = co.real := coeffs_stateAt _ _ _
  obtain ⟨e0, e1, e2, o1, o2, o3, v0, v1, v2, k0, k1, kz⟩ := float_step (f := (Biquad.new co).stateAt x n) (x := x n) (G := G)
    (by rw [hco]; exact hc) (by rw [hco]; exact hM) (hx n) i1 i2 G0 G1 (by rw [hco]; exact hb n) (by rw [hco]; exact i3)
  rw [hco] at v0 k0
  have z1 := modal_z1 hM0
    (((Biquad.new co).stateAt x n).z1.val - ((Biquad.new co.real).stateAt (fun k => ((x k).val : ℝ)) n).z1)
    (((Biquad.new co).stateAt x n).z2.val - ((Biquad.new co.real).stateAt (fun k => ((x k).val : ℝ)) n).z2)
  replace z1 := z1.trans (div_le_div_of_nonneg_right i4 s0.le)
  have e : 785 * ((G:ℝ) / co.margin) / 2 ^ 24 / (1 - √(co.a2.val : ℝ)) / √((co.a2.val : ℝ) - (co.a1.val : ℝ) ^ 2 / 4) =
      785 / 2 ^ 24 * (G / co.margin ^ 2) := by
    rw [BiquadCoeffs.margin, poleMargin]
    have := r1.ne'
    have := s0.ne'
    field_simp
  rw [e] at z1
  have hGM : (G : ℝ) / co.margin ≤ 1 / 4 * (G / co.margin ^ 2) := by
    rw [← mul_div_assoc, div_le_div_iff₀ hM0 (pow_pos hM0 2)]
    have := mul_pos hG0 hM0
    nlinarith
  have hp : 0 < (G : ℝ) / co.margin ^ 2 := div_pos hG0 (pow_pos hM0 2)
  have w : (((Biquad.new co).outAt x n).val : ℝ) - (Biquad.new co.real).outAt (fun k => ((x k).val : ℝ)) n =
      (((Biquad.new co).stateAt x n).z1.val - ((Biquad.new co.real).stateAt (fun k => ((x k).val : ℝ)) n).z1) + e0 := by
    unfold Biquad.outAt
    rw [v0]
    simp only [Biquad.process, hcr]
    simp only [BiquadCoeffs.real, BiquadCoeffs.map]
    ring
  rw [w]
  refine (abs_add_le _ _).trans ?_
  linarith

/-- Bounding the margin below by rational square roots. -/
theorem margin_ge {a1 a2 lo hi t : ℝ} (h0 : 0 ≤ lo) (h1 : lo ^ 2 ≤ a2 - a1 ^ 2 / 4) (h2 : 0 ≤ hi) (h3 : a2 ≤ hi ^ 2)
    (h4 : hi ≤ 1) (ht : t ≤ lo * (1 - hi)) : t ≤ poleMargin a1 a2 := by
  have k1 : lo ≤ √(a2 - a1 ^ 2 / 4) := Real.le_sqrt_of_sq_le h1
  have k2 : √a2 ≤ hi := Real.sqrt_le_iff.2 ⟨h2, h3⟩
  refine ht.trans ?_
  unfold poleMargin
  exact mul_le_mul k1 (by linarith) (by linarith) (h0.trans k1)

-- the low-pass for 1000 Hz at 48 kHz, q = 1: its poles keep a margin of 6/1000, so a full-scale input stays below 13 * 9/6
example : let co : BiquadCoeffs F32 := ⟨lit (4311615 / 1073741824), lit (4311615 / 536870912), lit (4311615 / 1073741824),
      lit (-7807313 / 4194304), lit (1840189 / 2097152)⟩
    co.Fin ∧ 6 / 1000 ≤ co.margin ∧ co.FeedsAtMost (lit 1) (9 / 1000) := by
  intro co
  refine ⟨by unfold BiquadCoeffs.Fin; decide +kernel, ?_, by unfold BiquadCoeffs.FeedsAtMost; decide +kernel⟩
  have e1 : co.a1.val = -7807313 / 4194304 := by decide +kernel
  have e2 : co.a2.val = 1840189 / 2097152 := by decide +kernel
  rw [BiquadCoeffs.margin, e1, e2]
  push_cast
  exact margin_ge (lo := 106 / 1000) (hi := 9368 / 10000) (by norm_num) (by norm_num) (by norm_num) (by norm_num) (by norm_num) (by norm_num)

end Verif
