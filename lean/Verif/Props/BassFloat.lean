import Verif.Props.LowStable
import Verif.Props.DesignFloat

/-! # C118 further down: filters designed and run in floats down to a 2400th of the sample rate

C114 wants the poles to keep a margin of 2^-17 from the unit circle and the real axis, which a 20 Hz filter at 48 kHz does not. Here what
the roundings of one step add is counted against the size of the state alone, and the rounding of the output, which enters both states,
only once. A margin of 2^-20 is enough then. -/

namespace Verif
open F32 Butterworth

/-- One step, with everything rounding does put into five numbers of which only the sum matters. -/
theorem process_fine {f : Biquad F32} {x : F32} (hc : f.coeffs.Fin) (hx : x.isFin = true) (h1 : f.z1.isFin = true)
    (h2 : f.z2.isFin = true) {G Z : ℚ} (hG : G ≤ 2 ^ 60) (hZ : Z ≤ 2 ^ 90) (a1 : |f.coeffs.a1.val| ≤ 2) (a2 : |f.coeffs.a2.val| ≤ 1)
    (hb : f.coeffs.FeedsAtMost x G) (z1 : |f.z1.val| ≤ Z) (z2 : |f.z2.val| ≤ 2 * Z) :
    ∃ u0 u1 u2 e1 e2 : ℚ, (f.process x).2.isFin = true ∧ (f.process x).1.z1.isFin = true ∧ (f.process x).1.z2.isFin = true ∧
      (f.process x).2.val = u0 + f.z1.val ∧
      (f.process x).1.z1.val = u1 + f.z2.val - f.coeffs.a1.val * (u0 + f.z1.val) + e1 ∧
      (f.process x).1.z2.val = u2 - f.coeffs.a2.val * (u0 + f.z1.val) + e2 ∧
      |u0| + |u1| + |u2| + (|e1| + |e2|) ≤ 3001 / 1000 * G + 111 / 10 * Z / 2 ^ 24 + 30 / 2 ^ 150 ∧
      |u0| ≤ 1001 / 1000 * G + 2 * Z / 2 ^ 24 + 3 / 2 ^ 150 := by
  obtain ⟨c0, c1, c2, c3, c4⟩ := hc
  obtain ⟨g0, g1, g2⟩ := hb
  simp only [Biquad.process]
  generalize f.coeffs.b0 = B0 at *
  generalize f.coeffs.b1 = B1 at *
  generalize f.coeffs.b2 = B2 at *
  generalize f.coeffs.a1 = A1 at *
  generalize f.coeffs.a2 = A2 at *
  generalize f.z1 = Z1 at *
  generalize f.z2 = Z2 at *
  have G0 : 0 ≤ G := (abs_nonneg _).trans g2
  have Z0 : 0 ≤ Z := (abs_nonneg _).trans z1
  have hG' : G ≤ 1152921504606846976 := by norm_num at hG; exact hG
  have hZ' : Z ≤ 1237940039285380274899124224 := by norm_num at hZ; exact hZ
  have hη : (1:ℚ) / 2 ^ 150 ≤ 1 / 2 ^ 100 := by norm_num
  have hη0 : (0:ℚ) < 1 / 2 ^ 150 := by norm_num
  have e3 : (3:ℚ) / 2 ^ 150 = 3 * (1 / 2 ^ 150) := by ring
  have e30 : (30:ℚ) / 2 ^ 150 = 30 * (1 / 2 ^ 150) := by ring
  obtain ⟨f0, k0⟩ := mul_near (B := G) c0 hx g0 (by norm_num; linarith)
  obtain ⟨f1, k1⟩ := mul_near (B := G) c1 hx g1 (by norm_num; linarith)
  obtain ⟨f2, k2⟩ := mul_near (B := G) c2 hx g2 (by norm_num; linarith)
  rw [e3, e30]
  generalize B0 * x = P0 at *
  generalize B1 * x = P1 at *
  generalize B2 * x = P2 at *
  generalize hη' : (1:ℚ) / 2 ^ 150 = η at *
  have p0 : |P0.val| ≤ G + η + G / 2 ^ 24 := by
    have := abs_sub_abs_le_abs_sub P0.val (B0.val * x.val); linarith
  have p1 : |P1.val| ≤ G + η + G / 2 ^ 24 := by
    have := abs_sub_abs_le_abs_sub P1.val (B1.val * x.val); linarith
  have p2 : |P2.val| ≤ G + η + G / 2 ^ 24 := by
    have := abs_sub_abs_le_abs_sub P2.val (B2.val * x.val); linarith
  obtain ⟨fo, ko⟩ := add_near (B := Z + (G + η + G / 2 ^ 24)) f0 h1 ((abs_add_le _ _).trans (by linarith)) (by norm_num at hη ⊢; linarith)
  obtain ⟨fs, ks⟩ := add_near (B := 2 * Z + (G + η + G / 2 ^ 24)) f1 h2 ((abs_add_le _ _).trans (by linarith)) (by norm_num at hη ⊢; linarith)
  rw [hη'] at ko ks
  generalize P0 + Z1 = O at *
  generalize P1 + Z2 = S1 at *
  have u0 : |O.val - Z1.val| ≤ G + 2 * η + 3 * G / 2 ^ 24 + (Z + η) / 2 ^ 24 := by
    rw [show O.val - Z1.val = (O.val - (P0.val + Z1.val)) + P0.val by ring]
    refine (abs_add_le _ _).trans ?_
    norm_num at ko p0 ⊢; linarith
  have u1 : |S1.val - Z2.val| ≤ G + 2 * η + 3 * G / 2 ^ 24 + (2 * Z + η) / 2 ^ 24 := by
    rw [show S1.val - Z2.val = (S1.val - (P1.val + Z2.val)) + P1.val by ring]
    refine (abs_add_le _ _).trans ?_
    norm_num at ks p1 ⊢; linarith
  have oB : |O.val| ≤ Z + G + 3 * η + 3 * G / 2 ^ 24 + Z / 2 ^ 24 := by
    have := abs_sub_abs_le_abs_sub O.val Z1.val
    norm_num at u0 ⊢; linarith
  have sB : |S1.val| ≤ 2 * Z + G + 3 * η + 3 * G / 2 ^ 24 + 2 * Z / 2 ^ 24 := by
    have := abs_sub_abs_le_abs_sub S1.val Z2.val
    norm_num at u1 ⊢; linarith
  have m1 : |A1.val * O.val| ≤ 2 * (Z + G + 3 * η + 3 * G / 2 ^ 24 + Z / 2 ^ 24) := by
    rw [abs_mul]
    exact mul_le_mul a1 oB (abs_nonneg _) (by norm_num)
  have m2 : |A2.val * O.val| ≤ Z + G + 3 * η + 3 * G / 2 ^ 24 + Z / 2 ^ 24 := by
    rw [abs_mul]
    have := mul_le_mul a2 oB (abs_nonneg _) (by norm_num)
    linarith
  obtain ⟨ft1, kt1⟩ := mul_near c3 fo m1 (by norm_num at hη ⊢; linarith)
  obtain ⟨ft2, kt2⟩ := mul_near c4 fo m2 (by norm_num at hη ⊢; linarith)
  rw [hη'] at kt1 kt2
  have t1 : |(A1 * O).val| ≤ 2 * Z + 2 * G + 8 * η + 10 * G / 2 ^ 24 + 5 * Z / 2 ^ 24 := by
    have := abs_sub_abs_le_abs_sub (A1 * O).val (A1.val * O.val)
    norm_num at kt1 ⊢; linarith
  have t2 : |(A2 * O).val| ≤ Z + G + 5 * η + 6 * G / 2 ^ 24 + 3 * Z / 2 ^ 24 := by
    have := abs_sub_abs_le_abs_sub (A2 * O).val (A2.val * O.val)
    norm_num at kt2 ⊢; linarith
  generalize A1 * O = T1 at *
  generalize A2 * O = T2 at *
  have d1 : (S1 - T1).isFin = true ∧ |(S1 - T1).val - (S1.val - T1.val)| ≤
      η + (4 * Z + 3 * G + 12 * η + 14 * G / 2 ^ 24 + 8 * Z / 2 ^ 24) / 2 ^ 24 := by
    rw [sub_fin fs ft1, ← hη']
    exact rnd_near ((abs_sub _ _).trans (by rw [hη']; norm_num at sB t1 ⊢; linarith)) (by rw [hη']; norm_num at hη ⊢; linarith)
  have d2 : (P2 - T2).isFin = true ∧ |(P2 - T2).val - (P2.val - T2.val)| ≤
      η + (Z + 2 * G + 7 * η + 8 * G / 2 ^ 24 + 4 * Z / 2 ^ 24) / 2 ^ 24 := by
    rw [sub_fin f2 ft2, ← hη']
    exact rnd_near ((abs_sub _ _).trans (by rw [hη']; norm_num at p2 t2 ⊢; linarith)) (by rw [hη']; norm_num at hη ⊢; linarith)
  obtain ⟨fd1, kd1⟩ := d1
  obtain ⟨fd2, kd2⟩ := d2
  have E1 : |(S1 - T1).val - (S1.val - T1.val) - (T1.val - A1.val * O.val)| ≤
      |(S1 - T1).val - (S1.val - T1.val)| + |T1.val - A1.val * O.val| := abs_sub _ _
  have E2 : |(P2 - T2).val - (P2.val - T2.val) - (T2.val - A2.val * O.val)| ≤
      |(P2 - T2).val - (P2.val - T2.val)| + |T2.val - A2.val * O.val| := abs_sub _ _
  refine ⟨O.val - Z1.val, S1.val - Z2.val, P2.val, (S1 - T1).val - (S1.val - T1.val) - (T1.val - A1.val * O.val),
    (P2 - T2).val - (P2.val - T2.val) - (T2.val - A2.val * O.val), fo, fd1, fd2, by ring, by ring, by ring, ?_, ?_⟩
  · norm_num at u0 u1 p2 kd1 kd2 kt1 kt2 ⊢
    linarith
  · norm_num at u0 ⊢
    linarith

/-- `modal_step` with the input counted once. -/
theorem modal_step_fine {a1 a2 : ℝ} (h : 0 < poleMargin a1 a2) (z1 z2 u0 u1 u2 e1 e2 : ℝ) :
    ‖modal a1 a2 (u1 + z2 - a1 * (u0 + z1) + e1) (u2 - a2 * (u0 + z1) + e2)‖ ≤
      √a2 * ‖modal a1 a2 z1 z2‖ + (|u0| + |u1| + |u2|) + (|e1| + |e2|) := by
  obtain ⟨s0, r1, hsr, b1, b2, hp, hq, -⟩ := margin_facts h
  have hp1 : ‖pole a1 a2‖ ≤ 1 := by linarith
  have e : modal a1 a2 (u1 + z2 - a1 * (u0 + z1) + e1) (u2 - a2 * (u0 + z1) + e2) =
      pole a1 a2 * modal a1 a2 z1 z2 + pole a1 a2 ^ 2 * u0 + pole a1 a2 * u1 + u2 + pole a1 a2 * e1 + e2 := by
    simp only [modal]; push_cast
    linear_combination (-(z1 : ℂ) - u0) * hq
  rw [e]
  have n1 : ∀ t : ℝ, ‖pole a1 a2 * (t : ℂ)‖ ≤ |t| := by
    intro t
    rw [norm_mul, Complex.norm_real, Real.norm_eq_abs]
    exact mul_le_of_le_one_left (abs_nonneg _) hp1
  have n2 : ‖pole a1 a2 ^ 2 * (u0 : ℂ)‖ ≤ |u0| := by
    rw [norm_mul, norm_pow, Complex.norm_real, Real.norm_eq_abs]
    exact mul_le_of_le_one_left (abs_nonneg _) (pow_le_one₀ (norm_nonneg _) hp1)
  have n3 : ∀ t : ℝ, ‖(t : ℂ)‖ ≤ |t| := fun t => by rw [Complex.norm_real, Real.norm_eq_abs]
  have k0 : ‖pole a1 a2 * modal a1 a2 z1 z2‖ ≤ √a2 * ‖modal a1 a2 z1 z2‖ := by rw [norm_mul, hp]
  have q1 := norm_add_le_of_le k0 n2
  have q2 := norm_add_le_of_le q1 (n1 u1)
  have q3 := norm_add_le_of_le q2 (n3 u2)
  have q4 := norm_add_le_of_le q3 (n1 e1)
  have q5 := norm_add_le_of_le q4 (n3 e2)
  linarith

/-- The invariant: finite states and a bounded modal quantity. -/
theorem fine_inv {co : BiquadCoeffs F32} {x : ℕ → F32} {G : ℚ} (hc : co.Fin) (hM : 1 / 2 ^ 20 ≤ co.margin)
    (hx : ∀ n, (x n).isFin = true) (G0 : 1 / 2 ^ 120 ≤ G) (G1 : G ≤ 2 ^ 60) (hb : ∀ n, co.FeedsAtMost (x n) G) (n : ℕ) :
    ((Biquad.new co).stateAt x n).z1.isFin = true ∧ ((Biquad.new co).stateAt x n).z2.isFin = true ∧
    ‖((Biquad.new co).stateAt x n).modal‖ ≤ 12 * (G / (1 - √(co.a2.val : ℝ))) ∧
    ((Biquad.new co).outAt x n).isFin = true ∧ |(((Biquad.new co).outAt x n).val : ℝ)| ≤ 13 * (G / co.margin) := by
  have hM0 : 0 < co.margin := lt_of_lt_of_le (by norm_num) hM
  obtain ⟨s0, r1, hsr, b1, b2, hp, hq, hM4⟩ := margin_facts hM0
  have hG0 : (0:ℝ) < G := by exact_mod_cast lt_of_lt_of_le (by norm_num) G0
  have hG1 : (G : ℝ) ≤ 2 ^ 60 := by exact_mod_cast G1
  have hGM : (G : ℝ) / co.margin ≤ 2 ^ 20 * G := by
    rw [div_le_iff₀ hM0]; nlinarith
  have hGM4 : (G : ℝ) ≤ 1 / 4 * (G / co.margin) := by
    rw [← mul_div_assoc, le_div_iff₀ hM0]
    nlinarith [show co.margin ≤ 1 / 4 from hM4]
  have hη : (1:ℝ) / 2 ^ 150 ≤ 1 / 2 ^ 30 * G := by
    have : ((1:ℝ) / 2 ^ 120) ≤ G := by
      have := (Rat.cast_le (K := ℝ)).2 G0; push_cast at this; exact this
    nlinarith
  -- one step from a state within the bound
  have step : ∀ f : Biquad F32, f.coeffs = co → f.z1.isFin = true → f.z2.isFin = true → ‖f.modal‖ ≤ 12 * (G / (1 - √(co.a2.val : ℝ))) →
      ∀ y : F32, y.isFin = true → co.FeedsAtMost y G →
      (f.process y).1.z1.isFin = true ∧ (f.process y).1.z2.isFin = true ∧ (f.process y).1.coeffs = co ∧
      ‖(f.process y).1.modal‖ ≤ 12 * (G / (1 - √(co.a2.val : ℝ))) ∧
      (f.process y).2.isFin = true ∧ |((f.process y).2.val : ℝ)| ≤ 13 * (G / co.margin) := by
    intro f hf i1 i2 i3 y hy hby
    have hW : ‖f.modal‖ / √((co.a2.val : ℝ) - (co.a1.val : ℝ) ^ 2 / 4) ≤ 12 * (G / co.margin) := by
      refine (div_le_div_of_nonneg_right i3 s0.le).trans (le_of_eq ?_)
      rw [BiquadCoeffs.margin, poleMargin]
      have := r1.ne'
      have := s0.ne'
      field_simp
    have z1 := modal_z1 hM0 f.z1.val f.z2.val
    have z2 := modal_z2 hM0 f.z1.val f.z2.val
    have em : f.modal = modal co.a1.val co.a2.val f.z1.val f.z2.val := by rw [Biquad.modal, hf]
    rw [← em] at z1 z2
    obtain ⟨Z, hZ⟩ : ∃ Z, Z = max |f.z1.val| (|f.z2.val| / 2) := ⟨_, rfl⟩
    have hZr : (Z : ℝ) ≤ 12 * (G / co.margin) := by
      rw [hZ]; push_cast
      exact max_le (z1.trans hW) (by linarith)
    have hZ90 : Z ≤ 2 ^ 90 := by
      have : (Z : ℝ) ≤ 2 ^ 90 := by norm_num at hGM hG1 ⊢; linarith
      exact_mod_cast this
    have hz1 : |f.z1.val| ≤ Z := by rw [hZ]; exact le_max_left _ _
    have hz2 : |f.z2.val| ≤ 2 * Z := by
      have := le_max_right |f.z1.val| (|f.z2.val| / 2); rw [← hZ] at this; linarith
    have hcoe : (f.process y).1.coeffs = co := by simp only [Biquad.process]; exact hf
    obtain ⟨u0, u1, u2, e1, e2, o1, o2, o3, v0, v1, v2, k, k0⟩ := process_fine (f := f) (x := y) (G := G) (Z := Z) (by rw [hf]; exact hc)
      hy i1 i2 G1 hZ90 (by rw [hf]; exact_mod_cast b1) (by rw [hf]; exact_mod_cast b2) (by rw [hf]; exact hby) hz1 hz2
    rw [hf] at v1 v2
    replace k := (Rat.cast_le (K := ℝ)).2 k
    replace k0 := (Rat.cast_le (K := ℝ)).2 k0
    replace v0 := congrArg (fun t : ℚ => (t : ℝ)) v0
    replace v1 := congrArg (fun t : ℚ => (t : ℝ)) v1
    replace v2 := congrArg (fun t : ℚ => (t : ℝ)) v2
    push_cast at k k0 v0 v1 v2
    have e3 : (3:ℝ) / 2 ^ 150 = 3 * (1 / 2 ^ 150) := by ring
    have e30 : (30:ℝ) / 2 ^ 150 = 30 * (1 / 2 ^ 150) := by ring
    rw [e30] at k
    rw [e3] at k0
    generalize (1:ℝ) / 2 ^ 150 = η at *
    refine ⟨o2, o3, hcoe, ?_, o1, ?_⟩
    · have st := modal_step_fine hM0 f.z1.val f.z2.val u0 u1 u2 e1 e2
      rw [← v1, ← v2] at st
      have em' : (f.process y).1.modal = modal co.a1.val co.a2.val (f.process y).1.z1.val (f.process y).1.z2.val := by
        rw [Biquad.modal, hcoe]
      rw [em']
      refine st.trans ?_
      rw [← em]
      have k3 := mul_le_mul_of_nonneg_left i3 (Real.sqrt_nonneg (co.a2.val : ℝ))
      have k4 : √(co.a2.val : ℝ) * (12 * (G / (1 - √(co.a2.val : ℝ)))) = 12 * (G / (1 - √(co.a2.val : ℝ))) - 12 * G := by
        have := r1.ne'
        field_simp
        ring
      rw [k4] at k3
      norm_num at k hGM hη ⊢
      linarith
    · rw [v0]
      refine (abs_add_le _ _).trans ?_
      have := z1.trans hW
      norm_num at k0 hη ⊢
      linarith
  have inv : ∀ n, ((Biquad.new co).stateAt x n).z1.isFin = true ∧ ((Biquad.new co).stateAt x n).z2.isFin = true ∧
      ‖((Biquad.new co).stateAt x n).modal‖ ≤ 12 * (G / (1 - √(co.a2.val : ℝ))) := by
    intro n
    induction n with
    | zero =>
      refine ⟨lit0_fin, lit0_fin, ?_⟩
      simp only [Biquad.stateAt, Biquad.modal, Biquad.new, lit0_val, modal, Rat.cast_zero, Complex.ofReal_zero, mul_zero, add_zero,
        norm_zero]
      exact mul_nonneg (by norm_num) (div_nonneg hG0.le r1.le)
    | succ n ih =>
      obtain ⟨i1, i2, i3⟩ := ih
      obtain ⟨j1, j2, -, j3, -⟩ := step _ (coeffs_stateAt _ _ _) i1 i2 i3 (x n) (hx n) (hb n)
      exact ⟨j1, j2, j3⟩
  obtain ⟨i1, i2, i3⟩ := inv n
  obtain ⟨-, -, -, -, j4, j5⟩ := step _ (coeffs_stateAt _ _ _) i1 i2 i3 (x n) (hx n) (hb n)
  exact ⟨i1, i2, i3, j4, j5⟩

/-- C114 with a margin of 2^-20. -/
theorem C114_fine {co : BiquadCoeffs F32} {x : ℕ → F32} {G : ℚ} (hc : co.Fin) (hM : 1 / 2 ^ 20 ≤ co.margin)
    (hx : ∀ n, (x n).isFin = true) (G0 : 1 / 2 ^ 120 ≤ G) (G1 : G ≤ 2 ^ 60) (hb : ∀ n, co.FeedsAtMost (x n) G) (n : ℕ) :
    ((Biquad.new co).outAt x n).isFin = true ∧ |(((Biquad.new co).outAt x n).val : ℝ)| ≤ 13 * (G / co.margin) :=
  (fine_inv hc hM hx G0 G1 hb n).2.2.2

/-- `bounded_of_margin` with a margin of 2^-20. -/
theorem bounded_of_margin_fine {co : BiquadCoeffs F32} (hc : co.Fin) (hM : 1 / 2 ^ 20 ≤ co.margin) (h0 : |co.b0.val| ≤ 3)
    (h1 : |co.b1.val| ≤ 3) (h2 : |co.b2.val| ≤ 3) {x : ℕ → F32} {m : ℚ} (m0 : 1 / 2 ^ 120 ≤ m) (m1 : m ≤ 2 ^ 58)
    (hx : ∀ n, (x n).isFin = true ∧ |(x n).val| ≤ m) (n : ℕ) :
    ((Biquad.new co).outAt x n).isFin = true ∧ |((Biquad.new co).outAt x n).val| ≤ 2 ^ 26 * m := by
  have hG : ∀ {b y : ℚ}, |b| ≤ 3 → |y| ≤ m → |b * y| ≤ 3 * m := by
    intro b y hb hy
    rw [abs_mul]; exact mul_le_mul hb hy (abs_nonneg _) (by norm_num)
  obtain ⟨r1, r2⟩ := C114_fine (G := 3 * m) hc hM (fun n => (hx n).1) (by norm_num at m0 ⊢; linarith) (by norm_num at m1 ⊢; linarith)
    (fun n => ⟨hG h0 (hx n).2, hG h1 (hx n).2, hG h2 (hx n).2⟩) n
  refine ⟨r1, ?_⟩
  have hM0 : 0 < co.margin := lt_of_lt_of_le (by norm_num) hM
  have mp : (0:ℝ) < m := by exact_mod_cast lt_of_lt_of_le (by norm_num) m0
  have : (((3 * m : ℚ)) : ℝ) / co.margin ≤ 2 ^ 20 * (3 * m) := by
    push_cast
    rw [div_le_iff₀ hM0]
    nlinarith
  have r3 : |(((Biquad.new co).outAt x n).val : ℝ)| ≤ 2 ^ 26 * m := by norm_num at this r2 ⊢; linarith
  exact_mod_cast r3

/-- What the rounding errors leave of the distances from the stability triangle. -/
theorem triangle_fine {k2 kq N a0 c D a1 a2 : ℚ} (k0 : 0 ≤ k2) (kql : 0 ≤ kq) (hN0 : 98134 / 100000 ≤ N) (hN1 : N ≤ 1)
    (hNa : N * a0 ≤ 1 + 51 / 1677721600 ∧ 1 - 51 / 1677721600 ≤ N * a0)
    (ha0 : 0 ≤ a0 ∧ 1 + kq + k2 ≤ a0 + 2 / 16777216 ∧ a0 ≤ 1 + kq + k2 + 2 / 16777216) (hc : k2 ≤ c + 1 / 33554432 + 1)
    (hD : 1 - kq + k2 - 1 / 16777216 ≤ D ∧ D ≤ 1 - kq + k2 + 1 / 16777216) (h1 : 2 * N * c ≤ a1 + 1 / 16777216)
    (h2 : N * D - 1 / 33554432 ≤ a2 ∧ a2 ≤ N * D + 1 / 33554432) :
    392 / 100 * k2 - 62 / 10 / 16777216 ≤ 1 + a1 + a2 ∧ 196 / 100 * kq - 5 / 16777216 ≤ 1 - a2 ∧ 1 - a2 ≤ 2 * kq + 5 / 16777216 := by
  have hNp : 0 ≤ N := by linarith
  have p1 : N * (k2 - 1 - 1 / 33554432) ≤ N * c := mul_le_mul_of_nonneg_left (by linarith) hNp
  have p2 : N * (1 - kq + k2 - 1 / 16777216) ≤ N * D := mul_le_mul_of_nonneg_left (by linarith) hNp
  have p3 : N * D ≤ N * (1 - kq + k2 + 1 / 16777216) := mul_le_mul_of_nonneg_left (by linarith) hNp
  have p4 : N * (1 + kq + k2) ≤ N * (a0 + 2 / 16777216) := mul_le_mul_of_nonneg_left (by linarith) hNp
  have p4' : N * a0 ≤ N * (1 + kq + k2 + 2 / 16777216) := mul_le_mul_of_nonneg_left (by linarith) hNp
  have p5 : 98134 / 100000 * k2 ≤ N * k2 := mul_le_mul_of_nonneg_right hN0 k0
  have p6 : 98134 / 100000 * kq ≤ N * kq := mul_le_mul_of_nonneg_right hN0 kql
  have p7 : N * kq ≤ 1 * kq := mul_le_mul_of_nonneg_right hN1 kql
  have e1 : 2 * N * c = 2 * (N * c) := by ring
  rw [e1] at h1
  ring_nf at p1 p2 p3 p4 p4' p5 p6 p7 h1 h2 hNa ⊢
  refine ⟨by linarith, by linarith, by linarith⟩

/-- The margin of coefficients that keep these distances. -/
theorem margin_low {co : BiquadCoeffs F32} {K k2 kq p : ℚ} (K0 : 3141 / 2400000 ≤ K) (K1 : K ≤ 1 / 195) (p0 : K / 2 ≤ p) (p1 : p ≤ 5 / 3 * K)
    (l1 : 99 / 100 * K ^ 2 ≤ k2) (l2 : 99 / 100 * p ≤ kq) (u2 : kq ≤ 101 / 100 * p)
    (hD : 392 / 100 * k2 - 62 / 10 / 16777216 ≤ 1 + co.a1.val + co.a2.val) (hn : co.a1.val < 1 / 2)
    (hm : 196 / 100 * kq - 5 / 16777216 ≤ 1 - co.a2.val) (hm' : 1 - co.a2.val ≤ 2 * kq + 5 / 16777216) : 1 / 2 ^ 20 ≤ co.margin := by
  have Kp : 0 < K := by linarith
  have KK : K ^ 2 ≤ 1 / 195 * K := by rw [sq]; exact mul_le_mul_of_nonneg_right K1 Kp.le
  have KK0 : 1712 / 1000000000 ≤ K ^ 2 := by
    have : (3141 / 2400000 : ℚ) * (3141 / 2400000) ≤ K * K := mul_le_mul K0 K0 (by norm_num) Kp.le
    rw [sq]; norm_num at this ⊢; linarith
  obtain ⟨a1, h1⟩ : ∃ a, a = co.a1.val := ⟨_, rfl⟩
  obtain ⟨a2, h2⟩ : ∃ a, a = co.a2.val := ⟨_, rfl⟩
  rw [← h1, ← h2] at hD
  rw [← h1] at hn
  rw [← h2] at hm hm'
  have hD' : 365 / 100 * K ^ 2 ≤ 1 + a1 + a2 := by linarith
  have hm1 : 193 / 100 * p ≤ 1 - a2 := by linarith
  have hm2 : 1 - a2 ≤ 2021 / 1000 * p := by linarith
  -- the imaginary part, growing with `1 + a1 + a2`
  have im : ∀ {B : ℚ}, 1 - a2 + 365 / 100 * K ^ 2 ≤ B → 365 / 100 * K ^ 2 - B ^ 2 / 4 ≤ a2 - a1 ^ 2 / 4 := by
    intro B hB
    have e : a2 - a1 ^ 2 / 4 = (1 + a1 + a2) - ((1 - a2) + (1 + a1 + a2)) ^ 2 / 4 := by ring
    rw [e]
    generalize hd : 1 + a1 + a2 = d at *
    generalize hmm : 1 - a2 = mm at *
    have q1 : 0 ≤ (d - 365 / 100 * K ^ 2) * (4 - 2 * mm - d - 365 / 100 * K ^ 2) :=
      mul_nonneg (by linarith) (by linarith)
    have q2 : (mm + 365 / 100 * K ^ 2) ^ 2 ≤ B ^ 2 := pow_le_pow_left₀ (by linarith) hB 2
    nlinarith
  have fin : ∀ {lo h : ℚ}, 0 ≤ lo → lo ^ 2 ≤ a2 - a1 ^ 2 / 4 → 0 ≤ h → h ≤ 1 → 2 * h ≤ 1 - a2 → 1 / 2 ^ 20 ≤ lo * h →
      1 / 2 ^ 20 ≤ co.margin := by
    intro lo h g0 g1 g2 g3 g4 g5
    refine margin_ge (lo := (lo : ℝ)) (hi := ((1 - h : ℚ) : ℝ)) (by exact_mod_cast g0) ?_ ?_ ?_ ?_ ?_
    · rw [h1, h2] at g1; exact_mod_cast g1
    · exact_mod_cast (by linarith : 0 ≤ 1 - h)
    · have : co.a2.val ≤ (1 - h) ^ 2 := by rw [← h2]; nlinarith [sq_nonneg h]
      exact_mod_cast this
    · exact_mod_cast (by linarith : 1 - h ≤ 1)
    · have := (Rat.cast_le (K := ℝ)).2 g5
      push_cast at this ⊢; linarith
  rcases le_total p K with h | h
  · have i := im (B := 205 / 100 * K) (by linarith)
    refine fin (lo := 158 / 100 * K) (h := 96 / 200 * K) (by linarith) (le_trans ?_ i) (by linarith) (by linarith) (by linarith) ?_
    · nlinarith
    · norm_num; nlinarith
  · have i := im (B := 339 / 100 * K) (by linarith)
    refine fin (lo := 87 / 100 * K) (h := 96 / 100 * K) (by linarith) (le_trans ?_ i) (by linarith) (by linarith) (by linarith) ?_
    · nlinarith
    · norm_num; nlinarith

/-- The poles of a computed design, from a 2400th of the sample rate up. -/
theorem margin_bass {k2 kq : F32} {K q : ℚ} (f1 : k2.isFin = true) (f2 : kq.isFin = true) (K0 : 3141 / 2400000 ≤ K) (K1 : K ≤ 17 / 10)
    (q0 : 3 / 5 ≤ q) (q1 : q ≤ 2) (l1 : 99 / 100 * K ^ 2 ≤ k2.val) (u1 : k2.val ≤ 101 / 100 * K ^ 2) (l2 : 99 / 100 * (K / q) ≤ kq.val)
    (u2 : kq.val ≤ 101 / 100 * (K / q)) {c : BiquadCoeffs F32}
    (g1 : c.a1 = lit 1 / (lit 1 + kq + k2) * lit 2 * (k2 - lit 1) ∨ c.a1 = lit 1 / (lit 1 + kq + k2) * (lit 2 * (k2 - lit 1)))
    (g2 : c.a2 = lit 1 / (lit 1 + kq + k2) * (lit 1 - kq + k2)) : 1 / 2 ^ 20 ≤ c.margin := by
  have kp : 0 < K := by linarith
  have qp : 0 < q := by linarith
  have b0 : 0 < K ^ 2 := by positivity
  have b2 : K ^ 2 ≤ 3 := by nlinarith
  have b3 : K / q ≤ 5 / 3 * K := by rw [div_le_iff₀ qp]; nlinarith
  have b4 : K / 2 ≤ K / q := div_le_div_of_nonneg_left kp.le qp q1
  have p2 : 0 < k2.val := by linarith
  have pq : 0 < kq.val := by linarith
  rcases le_total K (1 / 195) with hk | hk
  · have c5 : K ^ 2 ≤ 1 / 195 * K := by rw [sq]; exact mul_le_mul_of_nonneg_right hk kp.le
    obtain ⟨a0, M, d, D, ⟨e0, e1⟩, e2, e3, e4, e5, e6, e7, e8⟩ := feedback_err f1 f2 p2.le (by linarith) pq.le (by linarith)
      (by norm_num; linarith) g1
    rw [← g2] at e8
    obtain ⟨t1, t2, t3⟩ := triangle_fine p2.le pq.le e0 e1 e2 e3 e4 e5 e6 e8
    exact margin_low K0 hk b4 b3 l1 l2 u2 t1 e7 t2 t3
  · obtain ⟨-, n1, n1', n2⟩ := design_near f1 f2 p2.le pq.le (by norm_num; linarith)
    refine le_trans (by norm_num) (design_margin hk K1 q0 q1 l1 u1 l2 u2 (co := c) ?_ (by rw [g2]; exact n2))
    rcases g1 with g1 | g1
    · rw [g1]; exact n1
    · rw [g1]; exact n1'

/-- C118: from rest, a low-pass, high-pass, all-pass or notch designed and run in floats, with fc from sr/2400 (20 Hz at 48 kHz) to 0.318 sr and q
from 0.6 to 2, never produces an infinity or a NaN and stays bounded, whatever (bounded) signal it is fed with, for ever. -/
theorem C118_bass {powi : F32 → ℕ → F32} (hp : PowiNear powi) {fc q sr : F32} (s0 : 1 ≤ sr.val) (s1 : sr.val ≤ 2 ^ 30)
    (r0 : 1 / 2400 ≤ fc.val / sr.val) (r1 : fc.val / sr.val ≤ 318 / 1000) (q0 : 3 / 5 ≤ q.val) (q1 : q.val ≤ 2)
    {co : BiquadCoeffs F32} (hco : co ∈ [lowpass powi fc q sr, highpass powi fc q sr, allpass powi fc q sr, notch powi fc q sr])
    {x : ℕ → F32} {m : ℚ} (m0 : 1 / 2 ^ 120 ≤ m) (m1 : m ≤ 2 ^ 58) (hx : ∀ n, (x n).isFin = true ∧ |(x n).val| ≤ m) (n : ℕ) :
    ((Biquad.new co).outAt x n).isFin = true ∧ |((Biquad.new co).outAt x n).val| ≤ 2 ^ 26 * m := by
  obtain ⟨k0, k1⟩ := warpF_range hp s0 s1 (by norm_num) r0 r1
  obtain ⟨f1, f2, l1, u1, l2, u2⟩ := setup_near (k := warpF powi fc sr) (le_trans (by norm_num) k0) (k1.trans (by norm_num))
    (show 1 / 16 ≤ q.val by linarith) (show q.val ≤ 64 by linarith)
  have K0 : 3141 / 2400000 ≤ (warpF powi fc sr).val := le_trans (by norm_num) k0
  have kp : 0 < (warpF powi fc sr).val := by linarith
  have b2 : (warpF powi fc sr).val ^ 2 ≤ 3 := by nlinarith
  have b0 : 0 < (warpF powi fc sr).val ^ 2 := by positivity
  have qp : 0 < q.val := by linarith
  have b3 : (warpF powi fc sr).val / q.val ≤ 3 := by rw [div_le_iff₀ qp]; linarith
  have b4 : 0 < (warpF powi fc sr).val / q.val := div_pos kp qp
  simp only [lowpass, highpass, allpass, notch, setupCoeffs, List.mem_cons, List.not_mem_nil, or_false] at hco
  change co = lowpassOf (warpF powi fc sr * warpF powi fc sr) (warpF powi fc sr / q) ∨
    co = highpassOf (warpF powi fc sr * warpF powi fc sr) (warpF powi fc sr / q) ∨
    co = allpassOf (warpF powi fc sr * warpF powi fc sr) (warpF powi fc sr / q) ∨
    co = notchOf (warpF powi fc sr * warpF powi fc sr) (warpF powi fc sr / q) at hco
  generalize warpF powi fc sr = k at *
  generalize k * k = k2 at *
  generalize k / q = kq at *
  have p2 : 0 < k2.val := by linarith
  have pq : 0 < kq.val := by linarith
  obtain ⟨nn, n1, n1', n2⟩ := design_near f1 f2 p2.le pq.le (by norm_num; linarith)
  have ap : 0 < 1 + kq.val + k2.val := by linarith
  have A1 : |2 * (k2.val - 1) / (1 + kq.val + k2.val)| ≤ 2 := by
    rw [abs_div, abs_of_pos ap, div_le_iff₀ ap, abs_le]; constructor <;> linarith
  have A2 : |(1 - kq.val + k2.val) / (1 + kq.val + k2.val)| ≤ 1 := by
    rw [abs_div, abs_of_pos ap, div_le_iff₀ ap, abs_le]; constructor <;> linarith
  have B1' : |(lit 1 / (lit 1 + kq + k2) * (lit 2 * (k2 - lit 1))).val| ≤ 3 := n1'.abs_le.trans (by norm_num; linarith)
  have B2 : |(lit 1 / (lit 1 + kq + k2) * (lit 1 - kq + k2)).val| ≤ 3 := n2.abs_le.trans (by norm_num; linarith)
  have iv : 1 / (1 + kq.val + k2.val) ≤ 1 := by rw [div_le_one ap]; linarith
  have iv0 : 0 < 1 / (1 + kq.val + k2.val) := by positivity
  have NA := nn.abs_le
  rw [abs_of_pos iv0] at NA
  have N1 : |(lit 1 / (lit 1 + kq + k2)).val| ≤ 101 / 100 * (1 / (1 + kq.val + k2.val)) := by
    linarith [mul_le_mul_of_nonneg_right (show (33:ℚ) / 10 / 2 ^ 24 ≤ 1 / 100 by norm_num) iv0.le]
  have Ny : ∀ {y : ℚ}, |y| ≤ 1 + kq.val + k2.val → |(lit 1 / (lit 1 + kq + k2)).val * y| ≤ 101 / 100 := by
    intro y hy
    rw [abs_mul]
    have := mul_le_mul N1 hy (abs_nonneg _) (by positivity)
    rwa [mul_assoc, one_div_mul_cancel ap.ne', mul_one] at this
  generalize hN : lit 1 / (lit 1 + kq + k2) = N at *
  have N2 : |N.val| ≤ 101 / 100 := N1.trans (by linarith)
  have marg : ∀ c : BiquadCoeffs F32, (c.a1 = N * lit 2 * (k2 - lit 1) ∨ c.a1 = N * (lit 2 * (k2 - lit 1))) →
      c.a2 = N * (lit 1 - kq + k2) → 1 / 2 ^ 20 ≤ c.margin :=
    fun c g1 g2 => margin_bass f1 f2 K0 k1 q0 q1 l1 u1 l2 u2 (by rw [hN]; exact g1) (by rw [hN]; exact g2)
  rcases hco with rfl | rfl | rfl | rfl
  · obtain ⟨g1, g2⟩ := mul_bound_hundred (B := 101 / 100) nn.1 f1 (Ny (by rw [abs_of_pos p2]; linarith)) (by norm_num) (by norm_num)
    obtain ⟨w1, w2⟩ := mul_near (B := 3) nn.1 lit2_fin (by rw [lit2_val, abs_mul, abs_two]; linarith) (by norm_num)
    have w3 : |N.val * 2 * k2.val| ≤ 203 / 100 := by
      rw [mul_assoc, mul_comm 2, ← mul_assoc, abs_mul, abs_two]
      have := Ny (y := k2.val) (by rw [abs_of_pos p2]; linarith)
      linarith
    rw [lit2_val] at w2
    have w4 : |(N * lit 2).val * k2.val| ≤ 21 / 10 := by
      have : (N * lit 2).val * k2.val = N.val * 2 * k2.val + ((N * lit 2).val - N.val * 2) * k2.val := by ring
      rw [this]
      refine (abs_add_le _ _).trans ?_
      rw [abs_mul ((N * lit 2).val - N.val * 2), abs_of_pos p2]
      have := mul_le_mul w2 (show k2.val ≤ 4 by linarith) p2.le (by positivity)
      linarith [show ((1:ℚ) / 2 ^ 150 + 3 / 2 ^ 24) * 4 ≤ 1 / 100 by norm_num]
    obtain ⟨g3, g4⟩ := mul_bound_hundred w1 f1 w4 (by norm_num) (by norm_num)
    subst hN
    exact bounded_of_margin_fine (co := lowpassOf k2 kq) ⟨g1, g3, g1, n1.1, n2.1⟩ (marg _ (Or.inl rfl) rfl) (g2.trans (by norm_num)) (g4.trans (by norm_num))
      (g2.trans (by norm_num)) m0 m1 hx n
  · obtain ⟨g1, g2⟩ := mul_bound_hundred (y := lit (-2)) (B := 21 / 10) nn.1 (by decide +kernel) (by
      rw [show (lit (-2) : F32).val = -2 by decide +kernel, abs_mul, abs_neg, abs_two]; linarith) (by norm_num) (by norm_num)
    subst hN
    exact bounded_of_margin_fine (co := highpassOf k2 kq) ⟨nn.1, g1, nn.1, n1'.1, n2.1⟩ (marg _ (Or.inr rfl) rfl) (N2.trans (by norm_num)) (g2.trans (by norm_num))
      (N2.trans (by norm_num)) m0 m1 hx n
  · subst hN
    exact bounded_of_margin_fine (co := allpassOf k2 kq) ⟨n2.1, n1'.1, lit1_fin, n1'.1, n2.1⟩ (marg _ (Or.inr rfl) rfl) B2 B1'
      (by change |(lit 1 : F32).val| ≤ 3; rw [lit1_val]; norm_num) m0 m1 hx n
  · obtain ⟨w1, w2⟩ := near1.add (Near.refl f1) (B := 1 + k2.val) (by rw [abs_of_pos (by linarith)]) (by norm_num; linarith)
    have w4 : |N.val * (lit 1 + k2).val| ≤ 102 / 100 := by
      have : N.val * (lit 1 + k2).val = N.val * (1 + k2.val) + N.val * ((lit 1 + k2).val - (1 + k2.val)) := by ring
      rw [this]
      refine (abs_add_le _ _).trans ?_
      have h1 := Ny (y := 1 + k2.val) (by rw [abs_of_pos (by linarith)]; linarith)
      rw [abs_mul N.val ((lit 1 + k2).val - (1 + k2.val))]
      have h2 := mul_le_mul N2 w2 (abs_nonneg _) (by norm_num)
      refine (add_le_add h1 h2).trans ?_
      norm_num; linarith
    obtain ⟨g1, g2⟩ := mul_bound_hundred nn.1 w1 w4 (by norm_num) (by norm_num)
    subst hN
    exact bounded_of_margin_fine (co := notchOf k2 kq) ⟨g1, n1'.1, g1, n1'.1, n2.1⟩ (marg _ (Or.inr rfl) rfl) (g2.trans (by norm_num)) B1'
      (g2.trans (by norm_num)) m0 m1 hx n

/-- 20 Hz at 48 kHz, q = 0.7: a high pass run in floats never blows up. -/
example {x : ℕ → F32} (hx : ∀ n, (x n).isFin = true ∧ |(x n).val| ≤ 1) (n : ℕ) :
    ((Biquad.new (highpass powiMul (lit 20) (lit (7 / 10)) (lit 48000))).outAt x n).isFin = true := by
  have e1 : (lit 48000 : F32).val = 48000 := by decide +kernel
  have e2 : (lit 20 : F32).val = 20 := by decide +kernel
  have e3 : 6 / 10 ≤ (lit (7 / 10) : F32).val ∧ (lit (7 / 10) : F32).val ≤ 1 := by decide +kernel
  exact (C118_bass (fc := lit 20) (q := lit (7 / 10)) (sr := lit 48000) powiMul_near (by rw [e1]; norm_num) (by rw [e1]; norm_num) (by rw [e1, e2]; norm_num)
    (by rw [e1, e2]; norm_num) (by linarith [e3.1]) (by linarith [e3.2]) (co := highpass powiMul (lit 20) (lit (7 / 10)) (lit 48000)) (by simp) (m := 1)
    (by norm_num) (by norm_num) hx n).1

end Verif
