import Verif.Spec.Sqrt
import Verif.Lemmas.Near
import Verif.Props.Butterworth
import Verif.Props.FloatMath
import Verif.Props.BiquadFloat

/-! # C116, C117: the filter designs in float arithmetic

C35 shows the designs stable in exact arithmetic. Here the coefficients are the rounded ones the code computes. -/

namespace Verif

open F32 Butterworth

/-- The steps shared by the designs: `norm`, and the two feedback coefficients in both ways of writing `a1`. -/
theorem design_near {k2 kq : F32} (h2 : k2.isFin = true) (hq : kq.isFin = true) (p2 : 0 ≤ k2.val) (pq : 0 ≤ kq.val)
    (hb : 1 + kq.val + k2.val ≤ 2 ^ 20) :
    Near (lit 1 / (lit 1 + kq + k2)) (1 / (1 + kq.val + k2.val)) (33 / 10 / 2 ^ 24 * (1 / (1 + kq.val + k2.val))) ∧
    Near (lit 1 / (lit 1 + kq + k2) * lit 2 * (k2 - lit 1)) (2 * (k2.val - 1) / (1 + kq.val + k2.val)) (14 / 2 ^ 24) ∧
    Near (lit 1 / (lit 1 + kq + k2) * (lit 2 * (k2 - lit 1))) (2 * (k2.val - 1) / (1 + kq.val + k2.val)) (14 / 2 ^ 24) ∧
    Near (lit 1 / (lit 1 + kq + k2) * (lit 1 - kq + k2)) ((1 - kq.val + k2.val) / (1 + kq.val + k2.val)) (7 / 2 ^ 24) := by
  have n2 := Near.refl h2
  have nq := Near.refl hq
  have t150 : (1:ℚ) / 2 ^ 150 ≤ 1 / 2 ^ 100 := by norm_num
  have η0 : (0:ℚ) < 1 / 2 ^ 150 := by norm_num
  set a := 1 + kq.val + k2.val with ha
  have a1 : 1 ≤ a := by linarith
  obtain ⟨i, hi⟩ : ∃ i, i = 1 / a := ⟨_, rfl⟩
  have i0 : 0 < i := by rw [hi]; positivity
  have ai : a * i = 1 := by rw [hi]; field_simp
  have i1 : i ≤ 1 := by nlinarith
  have i2 : 1 / 2 ^ 20 ≤ i := by rw [hi]; exact one_div_le_one_div_of_le (by linarith) hb
  have hb' : a ≤ 1048576 := by norm_num at hb; exact hb
  -- a0
  have s1 := near1.add nq (B := a) (by rw [abs_of_nonneg (by linarith)]; linarith) (by norm_num; linarith)
  have s2 := s1.add n2 (B := a) (by rw [abs_of_nonneg (by linarith)]) (by
    norm_num at t150 ⊢; linarith)
  replace s2 := s2.mono (e' := 21 / 10 / 2 ^ 24 * a) (by norm_num at t150 ⊢; linarith)
  rw [← ha] at s2
  obtain ⟨s2f, s2e⟩ := s2
  obtain ⟨s2a, s2b⟩ := abs_le.1 s2e
  generalize lit 1 + kq + k2 = A0 at *
  have A0p : a * (1 - 21 / 10 / 2 ^ 24) ≤ A0.val := by linarith
  have A00 : 0 < A0.val := by norm_num at A0p; linarith
  -- norm
  have r : 1 / A0.val ≤ i * (1 + 22 / 10 / 2 ^ 24) := by
    rw [div_le_iff₀ A00]
    have := mul_le_mul_of_nonneg_left A0p (show 0 ≤ i * (1 + 22 / 10 / 2 ^ 24) by positivity)
    refine le_trans ?_ this
    rw [show i * (1 + 22 / 10 / 2 ^ 24) * (a * (1 - 21 / 10 / 2 ^ 24)) = (a * i) * ((1 + 22 / 10 / 2 ^ 24) * (1 - 21 / 10 / 2 ^ 24)) by ring, ai]
    norm_num
  have r' : i * (1 - 22 / 10 / 2 ^ 24) ≤ 1 / A0.val := by
    rw [le_div_iff₀ A00]
    have := mul_le_mul_of_nonneg_left (show A0.val ≤ a * (1 + 21 / 10 / 2 ^ 24) by linarith) (show 0 ≤ i * (1 - 22 / 10 / 2 ^ 24) by
      have : (0:ℚ) ≤ 1 - 22 / 10 / 2 ^ 24 := by norm_num
      positivity)
    refine this.trans ?_
    rw [show i * (1 - 22 / 10 / 2 ^ 24) * (a * (1 + 21 / 10 / 2 ^ 24)) = (a * i) * ((1 - 22 / 10 / 2 ^ 24) * (1 + 21 / 10 / 2 ^ 24)) by ring, ai]
    norm_num
  have nn : Near (lit 1 / A0) i (33 / 10 / 2 ^ 24 * i) := by
    obtain ⟨d1, d2⟩ := div_near (B := i * (1 + 22 / 10 / 2 ^ 24)) lit1_fin s2f A00.ne' (by
      rw [lit1_val, abs_of_pos (by positivity)]; exact r) (by norm_num; linarith)
    rw [lit1_val] at d2
    refine ⟨d1, ?_⟩
    obtain ⟨d2a, d2b⟩ := abs_le.1 d2
    norm_num at t150 i2
    rw [abs_le]
    constructor
    · norm_num at d2a r' ⊢; linarith
    · norm_num at d2b r ⊢; linarith
  generalize lit 1 / A0 = N at *
  have iabs : |i| ≤ i := (abs_of_pos i0).le
  -- k2 - 1
  have c1 := n2.sub near1 (B := a) (by rw [abs_le]; constructor <;> linarith) (by norm_num; linarith)
  replace c1 := c1.mono (e' := 101 / 100 / 2 ^ 24 * a) (by norm_num at t150 ⊢; linarith)
  have cB : |k2.val - 1| ≤ a := by rw [abs_le]; constructor <;> linarith
  refine ⟨by rw [← hi]; exact nn, ?_, ?_, ?_⟩
  · have m1 := nn.mul near2 iabs (W := 2) (by norm_num) (by norm_num; linarith)
    replace m1 := m1.mono (e' := 88 / 10 / 2 ^ 24 * i) (by norm_num at t150 i2 ⊢; linarith)
    have m2 := m1.mul c1 (V := 2 * i) (W := a) (by rw [abs_of_pos (by positivity)]; linarith) cB (by
      rw [show (2 * i + 88 / 10 / 2 ^ 24 * i) * (a + 101 / 100 / 2 ^ 24 * a) = (a * i) * ((2 + 88 / 10 / 2 ^ 24) * (1 + 101 / 100 / 2 ^ 24)) by ring, ai]
      norm_num)
    rw [show i * 2 * (k2.val - 1) = 2 * (k2.val - 1) / a by rw [hi]; ring] at m2
    refine m2.mono ?_
    rw [show (2 * i + 88 / 10 / 2 ^ 24 * i) * (a + 101 / 100 / 2 ^ 24 * a) = (a * i) * ((2 + 88 / 10 / 2 ^ 24) * (1 + 101 / 100 / 2 ^ 24)) by ring,
      show 2 * i * (101 / 100 / 2 ^ 24 * a) = (a * i) * (2 * (101 / 100 / 2 ^ 24)) by ring,
      show a * (88 / 10 / 2 ^ 24 * i) = (a * i) * (88 / 10 / 2 ^ 24) by ring,
      show 88 / 10 / 2 ^ 24 * i * (101 / 100 / 2 ^ 24 * a) = (a * i) * (88 / 10 / 2 ^ 24 * (101 / 100 / 2 ^ 24)) by ring, ai]
    norm_num
  · have m1 := near2.mul c1 (V := 2) (W := a) (by norm_num) cB (by norm_num; linarith)
    replace m1 := m1.mono (e' := 41 / 10 / 2 ^ 24 * a) (by norm_num at t150 ⊢; linarith)
    have m2 := nn.mul m1 iabs (W := 2 * a) (by rw [abs_mul, abs_two]; linarith) (by
      rw [show (i + 33 / 10 / 2 ^ 24 * i) * (2 * a + 41 / 10 / 2 ^ 24 * a) = (a * i) * ((1 + 33 / 10 / 2 ^ 24) * (2 + 41 / 10 / 2 ^ 24)) by ring, ai]
      norm_num)
    rw [show i * (2 * (k2.val - 1)) = 2 * (k2.val - 1) / a by rw [hi]; ring] at m2
    refine m2.mono ?_
    rw [show (i + 33 / 10 / 2 ^ 24 * i) * (2 * a + 41 / 10 / 2 ^ 24 * a) = (a * i) * ((1 + 33 / 10 / 2 ^ 24) * (2 + 41 / 10 / 2 ^ 24)) by ring,
      show i * (41 / 10 / 2 ^ 24 * a) = (a * i) * (41 / 10 / 2 ^ 24) by ring,
      show 2 * a * (33 / 10 / 2 ^ 24 * i) = (a * i) * (2 * (33 / 10 / 2 ^ 24)) by ring,
      show 33 / 10 / 2 ^ 24 * i * (41 / 10 / 2 ^ 24 * a) = (a * i) * (33 / 10 / 2 ^ 24 * (41 / 10 / 2 ^ 24)) by ring, ai]
    norm_num
  · have m0 := near1.sub nq (B := a) (by rw [abs_le]; constructor <;> linarith) (by norm_num; linarith)
    have m1 := m0.add n2 (B := a) (by rw [abs_le]; constructor <;> linarith) (by norm_num at t150 ⊢; linarith)
    replace m1 := m1.mono (e' := 21 / 10 / 2 ^ 24 * a) (by norm_num at t150 ⊢; linarith)
    have m2 := nn.mul m1 iabs (W := a) (by rw [abs_le]; constructor <;> linarith) (by
      rw [show (i + 33 / 10 / 2 ^ 24 * i) * (a + 21 / 10 / 2 ^ 24 * a) = (a * i) * ((1 + 33 / 10 / 2 ^ 24) * (1 + 21 / 10 / 2 ^ 24)) by ring, ai]
      norm_num)
    rw [show i * (1 - kq.val + k2.val) = (1 - kq.val + k2.val) / a by rw [hi]; ring] at m2
    refine m2.mono ?_
    rw [show (i + 33 / 10 / 2 ^ 24 * i) * (a + 21 / 10 / 2 ^ 24 * a) = (a * i) * ((1 + 33 / 10 / 2 ^ 24) * (1 + 21 / 10 / 2 ^ 24)) by ring,
      show i * (21 / 10 / 2 ^ 24 * a) = (a * i) * (21 / 10 / 2 ^ 24) by ring,
      show a * (33 / 10 / 2 ^ 24 * i) = (a * i) * (33 / 10 / 2 ^ 24) by ring,
      show 33 / 10 / 2 ^ 24 * i * (21 / 10 / 2 ^ 24 * a) = (a * i) * (33 / 10 / 2 ^ 24 * (21 / 10 / 2 ^ 24)) by ring, ai]
    norm_num

/-- Rounded coefficients this close to a design's are still stable. -/
theorem stable_near {co : BiquadCoeffs F32} {K2 KQ : ℚ} (p2 : 0 < K2) (pq : 0 < KQ)
    (h1 : Near co.a1 (2 * (K2 - 1) / (1 + KQ + K2)) (14 / 2 ^ 24)) (h2 : Near co.a2 ((1 - KQ + K2) / (1 + KQ + K2)) (7 / 2 ^ 24))
    (c1 : 21 / 2 ^ 24 * (1 + KQ + K2) < 4 * K2) (c2 : 21 / 2 ^ 24 * (1 + KQ + K2) < 4)
    (c3 : 7 / 2 ^ 24 * (1 + KQ + K2) < 2 * KQ) : co.real.Stable := by
  have a0 : 0 < 1 + KQ + K2 := by linarith
  obtain ⟨h1a, h1b⟩ := abs_le.1 h1.2
  obtain ⟨h2a, h2b⟩ := abs_le.1 h2.2
  rw [← lt_div_iff₀ a0] at c1 c2 c3
  have e1 : 1 + 2 * (K2 - 1) / (1 + KQ + K2) + (1 - KQ + K2) / (1 + KQ + K2) = 4 * K2 / (1 + KQ + K2) := by field_simp; ring
  have e2 : 1 - 2 * (K2 - 1) / (1 + KQ + K2) + (1 - KQ + K2) / (1 + KQ + K2) = 4 / (1 + KQ + K2) := by field_simp; ring
  have e3 : (1 - KQ + K2) / (1 + KQ + K2) = 1 - 2 * KQ / (1 + KQ + K2) := by field_simp; ring
  have q1 : 0 < 1 + co.a1.val + co.a2.val := by linarith
  have q2 : 0 < 1 - co.a1.val + co.a2.val := by linarith
  have q3 : co.a2.val < 1 := by linarith
  apply stable_of_triangle
  · have := (Rat.cast_lt (K := ℝ)).2 q1
    push_cast at this; exact this
  · have := (Rat.cast_lt (K := ℝ)).2 q2
    push_cast at this; exact this
  · have := (Rat.cast_lt (K := ℝ)).2 q3
    push_cast at this; exact this

/-- What `setup_coeffs` makes of the warped frequency `k`. -/
theorem setup_near {k q : F32} (k0 : 1 / 2 ^ 10 ≤ k.val) (k1 : k.val ≤ 2) (q0 : 1 / 16 ≤ q.val) (q1 : q.val ≤ 64) :
    (k * k).isFin = true ∧ (k / q).isFin = true ∧
    99 / 100 * k.val ^ 2 ≤ (k * k).val ∧ (k * k).val ≤ 101 / 100 * k.val ^ 2 ∧
    99 / 100 * (k.val / q.val) ≤ (k / q).val ∧ (k / q).val ≤ 101 / 100 * (k.val / q.val) := by
  have kp : 0 < k.val := lt_of_lt_of_le (by norm_num) k0
  have qp : 0 < q.val := lt_of_lt_of_le (by norm_num) q0
  have kf : k.isFin = true := fin_of_val (by rw [abs_of_pos kp]; norm_num; linarith)
  have qf : q.isFin = true := fin_of_val (by rw [abs_of_pos qp]; norm_num; linarith)
  have b1 : 1 / 2 ^ 20 ≤ k.val ^ 2 := by
    have := mul_le_mul k0 k0 (by norm_num) kp.le
    rw [sq]; refine le_trans (by norm_num) this
  have b2 : k.val / q.val ≤ 32 := by rw [div_le_iff₀ qp]; linarith
  have b3 : 1 / 2 ^ 16 ≤ k.val / q.val := by rw [le_div_iff₀ qp]; norm_num at k0 ⊢; linarith
  obtain ⟨f1, g1⟩ := mul_near (B := k.val ^ 2) kf kf (by rw [← sq, abs_of_nonneg (sq_nonneg _)]) (by norm_num; nlinarith)
  obtain ⟨f2, g2⟩ := div_near (B := k.val / q.val) kf qf qp.ne' (by rw [abs_of_pos (div_pos kp qp)]) (by norm_num; linarith)
  rw [← sq] at g1
  obtain ⟨g1a, g1b⟩ := abs_le.1 g1
  obtain ⟨g2a, g2b⟩ := abs_le.1 g2
  have t : (1:ℚ) / 2 ^ 150 ≤ 1 / 2 ^ 100 := by norm_num
  refine ⟨f1, f2, ?_, ?_, ?_, ?_⟩ <;> norm_num at b1 b3 t ⊢ <;> linarith

/-! ## The warped frequency -/

/-- What is assumed of micromath's `powi` on `[0, 1]`, for the exponents in use: a relative error of 2^-19 (32 units in the last place)
and a denormal-sized absolute one. -/
def PowiNear (powi : F32 → ℕ → F32) : Prop :=
  ∀ x n, 0 ≤ x.val → x.val ≤ 1 → n ≤ 15 → Near (powi x n) (x.val ^ n) (x.val ^ n / 2 ^ 19 + 1 / 2 ^ 140)

/-- Repeated multiplication. -/
def powiMul (x : F32) : ℕ → F32
  | 0 => lit 1
  | n + 1 => powiMul x n * x

theorem powiMul_near : PowiNear powiMul := by
  intro x n h0 h1 hn
  have xf : x.isFin = true := fin_of_val (by rw [abs_of_nonneg h0]; norm_num; linarith)
  have key : ∀ n : ℕ, n ≤ 15 → Near (powiMul x n) (x.val ^ n) (2 * n / 2 ^ 24 * x.val ^ n + 2 * n / 2 ^ 150) := by
    intro n
    induction n with
    | zero => intro _; simpa [powiMul] using near1
    | succ n ih =>
      intro hn
      have hn' : (n:ℚ) ≤ 15 := by exact_mod_cast (by omega : n ≤ 15)
      have hn0 : (0:ℚ) ≤ n := by positivity
      have hp0 : 0 ≤ x.val ^ n := pow_nonneg h0 n
      have hp1 : x.val ^ n ≤ 1 := pow_le_one₀ h0 h1
      have := (ih (by omega)).mul (Near.refl xf) (V := x.val ^ n) (W := x.val) (by rw [abs_of_nonneg hp0]) (by rw [abs_of_nonneg h0]) (by
        have a1 : x.val ^ n + (2 * n / 2 ^ 24 * x.val ^ n + 2 * n / 2 ^ 150) ≤ 100 := by
          have : (n:ℚ) * x.val ^ n ≤ 15 := by nlinarith
          norm_num; linarith
        have := mul_le_mul a1 (show x.val + 0 ≤ 1 by linarith) (by linarith) (by norm_num)
        refine this.trans (by norm_num))
      rw [← pow_succ] at this
      refine this.mono ?_
      have m0 : 0 ≤ x.val ^ (n + 1) := pow_nonneg h0 _
      have m1 : (n:ℚ) * x.val ^ (n + 1) ≤ 15 * x.val ^ (n + 1) := mul_le_mul_of_nonneg_right hn' m0
      have m2 : (n:ℚ) * x.val ≤ n := mul_le_of_le_one_right hn0 h1
      have m3 : 0 ≤ (n:ℚ) * x.val := mul_nonneg hn0 h0
      have e : x.val ^ n * 0 + x.val * (2 * ↑n / 2 ^ 24 * x.val ^ n + 2 * ↑n / 2 ^ 150) + (2 * ↑n / 2 ^ 24 * x.val ^ n + 2 * ↑n / 2 ^ 150) * 0 +
          (1 / 2 ^ 150 + (x.val ^ n + (2 * ↑n / 2 ^ 24 * x.val ^ n + 2 * ↑n / 2 ^ 150)) * (x.val + 0) / 2 ^ 24) =
          2 / 2 ^ 24 * (n * x.val ^ (n + 1)) + 2 / 2 ^ 150 * (n * x.val) + 1 / 2 ^ 150 + x.val ^ (n + 1) / 2 ^ 24 +
          2 / 2 ^ 24 * (n * x.val ^ (n + 1)) / 2 ^ 24 + 2 / 2 ^ 150 * (n * x.val) / 2 ^ 24 := by
        rw [pow_succ]; ring
      rw [e]
      push_cast
      have e2 : 2 * ((n:ℚ) + 1) / 2 ^ 24 * x.val ^ (n + 1) + 2 * ((n:ℚ) + 1) / 2 ^ 150 =
        2 / 2 ^ 24 * (n * x.val ^ (n + 1)) + 2 / 2 ^ 24 * x.val ^ (n + 1) + 2 / 2 ^ 150 * n + 2 / 2 ^ 150 := by ring
      rw [e2]
      norm_num
      linarith
  refine (key n hn).mono ?_
  have hn' : (n:ℚ) ≤ 15 := by exact_mod_cast hn
  have m1 : (n:ℚ) * x.val ^ n ≤ 15 * x.val ^ n := mul_le_mul_of_nonneg_right hn' (pow_nonneg h0 _)
  have m0 : 0 ≤ x.val ^ n := pow_nonneg h0 _
  rw [show 2 * (n:ℚ) / 2 ^ 24 * x.val ^ n = 2 / 2 ^ 24 * (n * x.val ^ n) by ring]
  norm_num
  linarith

/-- One term of the series. -/
theorem term_near {powi : F32 → ℕ → F32} (hp : PowiNear powi) {x c : F32} (h0 : 0 ≤ x.val) (h1 : x.val ≤ 1) {v : ℚ} (v0 : 0 ≤ v) (v1 : v ≤ 1)
    (hc : Near c v (2 * v / 2 ^ 24)) {n : ℕ} (n0 : n ≠ 0) (hn : n ≤ 15) :
    Near (c * powi x n) (v * x.val ^ n) (v * x.val / 2 ^ 18 + 1 / 2 ^ 138) := by
  have m0 : 0 ≤ x.val ^ n := pow_nonneg h0 _
  have m1 : x.val ^ n ≤ x.val := pow_le_of_le_one h0 h1 n0
  have q0 : 0 ≤ v * x.val ^ n := mul_nonneg v0 m0
  have q1 : v * x.val ^ n ≤ v * x.val := mul_le_mul_of_nonneg_left m1 v0
  have q2 : v * x.val ^ n ≤ 1 := mul_le_one₀ v1 m0 (m1.trans h1)
  have e1 : (v + 2 * v / 2 ^ 24) * (x.val ^ n + (x.val ^ n / 2 ^ 19 + 1 / 2 ^ 140)) =
      (1 + 2 / 2 ^ 24) * ((v * x.val ^ n) * (1 + 1 / 2 ^ 19) + v * (1 / 2 ^ 140)) := by ring
  have := hc.mul (hp x n h0 h1 hn) (V := v) (W := x.val ^ n) (by rw [abs_of_nonneg v0]) (by rw [abs_of_nonneg m0]) (by
    rw [e1]; norm_num; linarith)
  refine this.mono ?_
  rw [e1, show v * (x.val ^ n / 2 ^ 19 + 1 / 2 ^ 140) = (v * x.val ^ n) / 2 ^ 19 + v * (1 / 2 ^ 140) by ring,
    show x.val ^ n * (2 * v / 2 ^ 24) = 2 * (v * x.val ^ n) / 2 ^ 24 by ring,
    show 2 * v / 2 ^ 24 * (x.val ^ n / 2 ^ 19 + 1 / 2 ^ 140) = 2 * ((v * x.val ^ n) / 2 ^ 19 + v * (1 / 2 ^ 140)) / 2 ^ 24 by ring]
  norm_num
  linarith

/-- The polynomial over the rationals. -/
def tanQ (x : ℚ) : ℚ :=
  x + 1/3 * x^3 + 2/15 * x^5 + 17/315 * x^7 + 62/2835 * x^9 + 1382/155925 * x^11 + 21844/6081075 * x^13 + 929569/638512875 * x^15

theorem fastTan_near {powi : F32 → ℕ → F32} (hp : PowiNear powi) {x : F32} (h0 : 0 ≤ x.val) (h1 : x.val ≤ 1) :
    Near (FMath.fastTan powi x) (tanQ x.val) (x.val / 2 ^ 18 + 1 / 2 ^ 130) := by
  have xf : x.isFin = true := fin_of_val (by rw [abs_of_nonneg h0]; norm_num; linarith)
  have near0 : Near (lit 0 : F32) 0 0 := by have := Near.refl (x := (lit 0 : F32)) lit0_fin; rwa [lit0_val] at this
  have c3 : Near (lit 1 / lit 3 : F32) (1 / 3) (2 * (1 / 3) / 2 ^ 24) := by unfold Near; decide +kernel
  have c5 : Near (lit 2 / lit 15 : F32) (2 / 15) (2 * (2 / 15) / 2 ^ 24) := by unfold Near; decide +kernel
  have c7 : Near (lit 17 / lit 315 : F32) (17 / 315) (2 * (17 / 315) / 2 ^ 24) := by unfold Near; decide +kernel
  have c9 : Near (lit 62 / lit 2835 : F32) (62 / 2835) (2 * (62 / 2835) / 2 ^ 24) := by unfold Near; decide +kernel
  have c11 : Near (lit 1382 / lit 155925 : F32) (1382 / 155925) (2 * (1382 / 155925) / 2 ^ 24) := by unfold Near; decide +kernel
  have c13 : Near (lit 21844 / lit 6081075 : F32) (21844 / 6081075) (2 * (21844 / 6081075) / 2 ^ 24) := by unfold Near; decide +kernel
  have c15 : Near (lit 929569 / lit 638512875 : F32) (929569 / 638512875) (2 * (929569 / 638512875) / 2 ^ 24) := by
    unfold Near; decide +kernel
  have t3 := term_near hp h0 h1 (by norm_num) (by norm_num) c3 (n := 3) (by norm_num) (by norm_num)
  have t5 := term_near hp h0 h1 (by norm_num) (by norm_num) c5 (n := 5) (by norm_num) (by norm_num)
  have t7 := term_near hp h0 h1 (by norm_num) (by norm_num) c7 (n := 7) (by norm_num) (by norm_num)
  have t9 := term_near hp h0 h1 (by norm_num) (by norm_num) c9 (n := 9) (by norm_num) (by norm_num)
  have t11 := term_near hp h0 h1 (by norm_num) (by norm_num) c11 (n := 11) (by norm_num) (by norm_num)
  have t13 := term_near hp h0 h1 (by norm_num) (by norm_num) c13 (n := 13) (by norm_num) (by norm_num)
  have t15 := term_near hp h0 h1 (by norm_num) (by norm_num) c15 (n := 15) (by norm_num) (by norm_num)
  have pw : ∀ n : ℕ, n ≠ 0 → 0 ≤ x.val ^ n ∧ x.val ^ n ≤ x.val := fun n hn => ⟨pow_nonneg h0 _, pow_le_of_le_one h0 h1 hn⟩
  obtain ⟨a3, b3⟩ := pw 3 (by norm_num)
  obtain ⟨a5, b5⟩ := pw 5 (by norm_num)
  obtain ⟨a7, b7⟩ := pw 7 (by norm_num)
  obtain ⟨a9, b9⟩ := pw 9 (by norm_num)
  obtain ⟨a11, b11⟩ := pw 11 (by norm_num)
  obtain ⟨a13, b13⟩ := pw 13 (by norm_num)
  obtain ⟨a15, b15⟩ := pw 15 (by norm_num)
  have s0 := near0.add (Near.refl xf) (B := x.val) (by rw [zero_add, abs_of_nonneg h0]) (by norm_num; linarith)
  rw [zero_add] at s0
  have s1 := s0.add t3 (B := 8 / 5 * x.val) (by rw [abs_of_nonneg (by linarith)]; linarith) (by norm_num; linarith)
  have s2 := s1.add t5 (B := 8 / 5 * x.val) (by rw [abs_of_nonneg (by linarith)]; linarith) (by norm_num; linarith)
  have s3 := s2.add t7 (B := 8 / 5 * x.val) (by rw [abs_of_nonneg (by linarith)]; linarith) (by norm_num; linarith)
  have s4 := s3.add t9 (B := 8 / 5 * x.val) (by rw [abs_of_nonneg (by linarith)]; linarith) (by norm_num; linarith)
  have s5 := s4.add t11 (B := 8 / 5 * x.val) (by rw [abs_of_nonneg (by linarith)]; linarith) (by norm_num; linarith)
  have s6 := s5.add t13 (B := 8 / 5 * x.val) (by rw [abs_of_nonneg (by linarith)]; linarith) (by norm_num; linarith)
  have s7 := s6.add t15 (B := 8 / 5 * x.val) (by rw [abs_of_nonneg (by linarith)]; linarith) (by norm_num; linarith)
  refine Near.mono (x := FMath.fastTan powi x) s7 ?_
  norm_num
  linarith

/-- C117: `fast_tan` on floats, rounding included. -/
theorem C117_fast_tan {powi : F32 → ℕ → F32} (hp : PowiNear powi) {x : F32} (h0 : 0 ≤ x.val) (h1 : x.val ≤ 1) :
    (FMath.fastTan powi x).isFin = true ∧
    Real.tan x.val - 1 / 1000 - 1 / 2 ^ 17 ≤ (FMath.fastTan powi x).val ∧ ((FMath.fastTan powi x).val : ℝ) ≤ Real.tan x.val + 1 / 2 ^ 17 := by
  obtain ⟨f, e⟩ := fastTan_near hp h0 h1
  replace e := e.trans (show x.val / 2 ^ 18 + 1 / 2 ^ 130 ≤ 1 / 2 ^ 17 by norm_num; linarith)
  replace e := (Rat.cast_le (K := ℝ)).2 e
  have hq : ((tanQ x.val : ℚ) : ℝ) = tanPoly x.val := by unfold tanQ tanPoly; push_cast; rfl
  rw [Rat.cast_abs, Rat.cast_sub, hq] at e
  push_cast at e
  obtain ⟨ea, eb⟩ := abs_le.1 e
  have c := C55_accurate (powi := fun y n => y ^ n) (fun _ _ => rfl) (x := (x.val : ℝ)) (by exact_mod_cast h0) (by exact_mod_cast h1)
  rw [fastTan_eq (fun _ _ => rfl)] at c
  exact ⟨f, by linarith [c.2], by linarith [c.1]⟩

/-- The warped frequency the code computes. -/
def warpF (powi : F32 → ℕ → F32) (fc sr : F32) : F32 := FMath.fastTan powi (lit FMath.piQ * fc / sr)

theorem warpF_range {powi : F32 → ℕ → F32} (hp : PowiNear powi) {fc sr : F32} (s0 : 1 ≤ sr.val) (s1 : sr.val ≤ 2 ^ 30)
    {l : ℚ} (l0 : 1 / 2 ^ 20 ≤ l) (r0 : l ≤ fc.val / sr.val) (r1 : fc.val / sr.val ≤ 318 / 1000) :
    3141 / 1000 * l ≤ (warpF powi fc sr).val ∧ (warpF powi fc sr).val ≤ 17 / 10 := by
  have sp : 0 < sr.val := by linarith
  have fp : 0 ≤ fc.val / sr.val := le_trans (by norm_num at l0; linarith) r0
  have fp' : 0 ≤ fc.val := by
    have := mul_nonneg fp sp.le
    rwa [div_mul_cancel₀ _ sp.ne'] at this
  have fB : fc.val ≤ 2 ^ 30 := by
    rw [div_le_iff₀ sp] at r1
    norm_num at s1 ⊢; linarith
  norm_num at l0 fB s1
  have ff : fc.isFin = true := fin_of_val (by rw [abs_of_nonneg fp']; norm_num; linarith)
  have sf : sr.isFin = true := fin_of_val (by rw [abs_of_pos sp]; norm_num; linarith)
  have pf : (lit FMath.piQ : F32).isFin = true := by decide +kernel
  have pv : (lit FMath.piQ : F32).val = 13176795 / 4194304 := by decide +kernel
  obtain ⟨m1, m2⟩ := mul_near (B := 13176795 / 4194304 * fc.val) pf ff (by rw [pv, abs_of_nonneg (by positivity)]) (by norm_num; linarith)
  rw [pv] at m2
  obtain ⟨m2a, m2b⟩ := abs_le.1 m2
  have t : (1:ℚ) / 2 ^ 150 / sr.val ≤ 1 / 2 ^ 150 := div_le_self (by norm_num) s0
  have t0 : (0:ℚ) ≤ 1 / 2 ^ 150 / sr.val := by positivity
  have u1 : (lit FMath.piQ * fc).val / sr.val ≤ 13176795 / 4194304 * (1 + 1 / 2 ^ 24) * (fc.val / sr.val) + 1 / 2 ^ 150 / sr.val := by
    rw [← mul_div_assoc, ← add_div, div_le_div_iff_of_pos_right sp]; linarith
  have u2 : 13176795 / 4194304 * (1 - 1 / 2 ^ 24) * (fc.val / sr.val) - 1 / 2 ^ 150 / sr.val ≤ (lit FMath.piQ * fc).val / sr.val := by
    rw [← mul_div_assoc, ← sub_div, div_le_div_iff_of_pos_right sp]; linarith
  norm_num at u1 u2 t t0
  obtain ⟨d1, d2⟩ := div_near (B := 1) m1 sf sp.ne' (by rw [abs_le]; constructor <;> linarith) (by norm_num)
  have d3 : |(lit FMath.piQ * fc / sr).val - (lit FMath.piQ * fc).val / sr.val| ≤ 1 / 2 ^ 150 + 22 / 7 * (fc.val / sr.val) / 2 ^ 24 := by
    exact (div_near (B := 22 / 7 * (fc.val / sr.val)) m1 sf sp.ne' (by rw [abs_le]; constructor <;> linarith) (by norm_num; linarith)).2
  obtain ⟨d3a, d3b⟩ := abs_le.1 d3
  have x0 : 31413 / 10000 * l ≤ (lit FMath.piQ * fc / sr).val := by norm_num at d3a d3b ⊢; linarith
  have x1 : (lit FMath.piQ * fc / sr).val ≤ 1 := by norm_num at d3a d3b ⊢; linarith
  have x00 : 0 ≤ (lit FMath.piQ * fc / sr).val := by linarith
  obtain ⟨-, e⟩ := fastTan_near hp x00 x1
  change |(warpF powi fc sr).val - _| ≤ _ at e
  generalize (lit FMath.piQ * fc / sr).val = x at *
  have pw : ∀ n : ℕ, n ≠ 0 → 0 ≤ x ^ n ∧ x ^ n ≤ x := fun n hn => ⟨pow_nonneg x00 _, pow_le_of_le_one x00 x1 hn⟩
  obtain ⟨a3, b3⟩ := pw 3 (by norm_num)
  obtain ⟨a5, b5⟩ := pw 5 (by norm_num)
  obtain ⟨a7, b7⟩ := pw 7 (by norm_num)
  obtain ⟨a9, b9⟩ := pw 9 (by norm_num)
  obtain ⟨a11, b11⟩ := pw 11 (by norm_num)
  obtain ⟨a13, b13⟩ := pw 13 (by norm_num)
  obtain ⟨a15, b15⟩ := pw 15 (by norm_num)
  unfold tanQ at e
  obtain ⟨ea, eb⟩ := abs_le.1 e
  norm_num at ea eb
  constructor <;> linarith

/-- The six designs without a gain in the denominator, for a warped frequency in range. -/
theorem designs_stable {powi : F32 → ℕ → F32} {fc q sr : F32} (k0 : 1 / 2 ^ 10 ≤ (warpF powi fc sr).val) (k1 : (warpF powi fc sr).val ≤ 2)
    (q0 : 1 / 16 ≤ q.val) (q1 : q.val ≤ 64) (sqrt : F32 → F32) (gain : F32) :
    (lowpass powi fc q sr).real.Stable ∧ (highpass powi fc q sr).real.Stable ∧ (allpass powi fc q sr).real.Stable ∧
    (notch powi fc q sr).real.Stable ∧ (bellBoost powi fc q gain sr).real.Stable ∧
    (lowShelfBoost powi sqrt fc q gain sr).real.Stable := by
  obtain ⟨f1, f2, l1, u1, l2, u2⟩ := setup_near k0 k1 q0 q1
  have kp : 0 < (warpF powi fc sr).val := lt_of_lt_of_le (by norm_num) k0
  have qp : 0 < q.val := lt_of_lt_of_le (by norm_num) q0
  have b1 : 1 / 2 ^ 10 * (warpF powi fc sr).val ≤ (warpF powi fc sr).val ^ 2 := by nlinarith
  have b2 : (warpF powi fc sr).val ^ 2 ≤ 2 * (warpF powi fc sr).val := by nlinarith
  have b3 : (warpF powi fc sr).val / q.val ≤ 16 * (warpF powi fc sr).val := by rw [div_le_iff₀ qp]; nlinarith
  have b4 : (warpF powi fc sr).val / 64 ≤ (warpF powi fc sr).val / q.val := div_le_div_of_nonneg_left kp.le qp q1
  simp only [lowpass, highpass, allpass, notch, bellBoost, lowShelfBoost, setupCoeffs]
  change ((lowpassOf (warpF powi fc sr * warpF powi fc sr) (warpF powi fc sr / q)).real.Stable) ∧
    ((highpassOf (warpF powi fc sr * warpF powi fc sr) (warpF powi fc sr / q)).real.Stable) ∧
    ((allpassOf (warpF powi fc sr * warpF powi fc sr) (warpF powi fc sr / q)).real.Stable) ∧
    ((notchOf (warpF powi fc sr * warpF powi fc sr) (warpF powi fc sr / q)).real.Stable) ∧
    ((bellBoostOf gain (warpF powi fc sr * warpF powi fc sr) (warpF powi fc sr / q)).real.Stable) ∧
    ((lowShelfBoostOf sqrt gain (warpF powi fc sr * warpF powi fc sr) (warpF powi fc sr / q)).real.Stable)
  generalize warpF powi fc sr = k at *
  generalize k * k = k2 at *
  generalize k / q = kq at *
  norm_num at k0
  have p2 : 0 < k2.val := by norm_num at b1; linarith
  have pq : 0 < kq.val := by linarith
  norm_num at b1
  obtain ⟨-, n1, n1', n2⟩ := design_near f1 f2 p2.le pq.le (by norm_num; linarith)
  have c1 : 21 / 2 ^ 24 * (1 + kq.val + k2.val) < 4 * k2.val := by norm_num; linarith
  have c2 : 21 / 2 ^ 24 * (1 + kq.val + k2.val) < 4 := by norm_num; linarith
  have c3 : 7 / 2 ^ 24 * (1 + kq.val + k2.val) < 2 * kq.val := by norm_num; linarith
  exact ⟨stable_near p2 pq n1 n2 c1 c2 c3, stable_near p2 pq n1' n2 c1 c2 c3, stable_near p2 pq n1' n2 c1 c2 c3,
    stable_near p2 pq n1' n2 c1 c2 c3, stable_near p2 pq n1' n2 c1 c2 c3, stable_near p2 pq n1' n2 c1 c2 c3⟩


/-- C116: from fc = sr/3200 to 0.318 sr and for q from 1/16 to 64 the coefficients the code computes, rounded as they are, make stable
filters. -/
theorem C116_stable {powi : F32 → ℕ → F32} (hp : PowiNear powi) {fc q sr : F32} (s0 : 1 ≤ sr.val) (s1 : sr.val ≤ 2 ^ 30)
    (r0 : 1 / 3200 ≤ fc.val / sr.val) (r1 : fc.val / sr.val ≤ 318 / 1000) (q0 : 1 / 16 ≤ q.val) (q1 : q.val ≤ 64)
    (sqrt : F32 → F32) (gain : F32) :
    (lowpass powi fc q sr).real.Stable ∧ (highpass powi fc q sr).real.Stable ∧ (allpass powi fc q sr).real.Stable ∧
    (notch powi fc q sr).real.Stable ∧ (bellBoost powi fc q gain sr).real.Stable ∧
    (lowShelfBoost powi sqrt fc q gain sr).real.Stable := by
  obtain ⟨k0, k1⟩ := warpF_range hp s0 s1 (by norm_num) r0 r1
  exact designs_stable (le_trans (by norm_num) k0) (k1.trans (by norm_num)) q0 q1 sqrt gain

/-- C116: the cut bell, for gains from -1/16 to -16 (the code wants cuts as negative numbers). -/
theorem C116_bell_cut {powi : F32 → ℕ → F32} (hp : PowiNear powi) {fc q gain sr : F32} (s0 : 1 ≤ sr.val) (s1 : sr.val ≤ 2 ^ 30)
    (r0 : 1 / 3200 ≤ fc.val / sr.val) (r1 : fc.val / sr.val ≤ 318 / 1000) (q0 : 1 / 16 ≤ q.val) (q1 : q.val ≤ 64)
    (g0 : gain.val ≤ -1 / 16) (g1 : -16 ≤ gain.val) : (bellCut powi fc q gain sr).real.Stable := by
  obtain ⟨k0, k1⟩ := warpF_range hp s0 s1 (by norm_num) r0 r1
  obtain ⟨f1, f2, l1, u1, l2, u2⟩ := setup_near (k := warpF powi fc sr) (le_trans (by norm_num) k0) (k1.trans (by norm_num)) q0 q1
  simp only [bellCut, setupCoeffs]
  change (bellCutOf gain (warpF powi fc sr * warpF powi fc sr) (warpF powi fc sr / q)).real.Stable
  have kp : 0 < (warpF powi fc sr).val := lt_of_lt_of_le (by norm_num) k0
  have qp : 0 < q.val := lt_of_lt_of_le (by norm_num) q0
  have b1 : 9 / 10000 * (warpF powi fc sr).val ≤ (warpF powi fc sr).val ^ 2 := by nlinarith
  have b2 : (warpF powi fc sr).val ^ 2 ≤ 2 * (warpF powi fc sr).val := by nlinarith
  have b3 : (warpF powi fc sr).val / q.val ≤ 16 * (warpF powi fc sr).val := by rw [div_le_iff₀ qp]; nlinarith
  have b4 : (warpF powi fc sr).val / 64 ≤ (warpF powi fc sr).val / q.val := div_le_div_of_nonneg_left kp.le qp q1
  generalize warpF powi fc sr = k at *
  generalize k * k = k2 at *
  generalize k / q = kq at *
  have p2 : 0 < k2.val := by linarith
  have pq : 0 < kq.val := by linarith
  have gf : gain.isFin = true := fin_of_val (by rw [abs_of_neg (by linarith)]; norm_num; linarith)
  have h1 : 1 / 16 * kq.val ≤ -gain.val * kq.val := mul_le_mul_of_nonneg_right (by linarith) pq.le
  have h2 : -gain.val * kq.val ≤ 16 * kq.val := mul_le_mul_of_nonneg_right (by linarith) pq.le
  obtain ⟨m1, m2⟩ := mul_near (a := -gain) (B := -gain.val * kq.val) (by rw [isFin_neg']; exact gf) f2
    (by rw [val_neg', abs_of_pos (by linarith)]) (by norm_num; linarith)
  rw [val_neg'] at m2
  obtain ⟨m2a, m2b⟩ := abs_le.1 m2
  have gq0 : 99 / 100 * (1 / 16 * kq.val) ≤ (-gain * kq).val := by norm_num at m2a ⊢; linarith
  have gq1 : (-gain * kq).val ≤ 101 / 100 * (16 * kq.val) := by norm_num at m2b ⊢; linarith
  have pg : 0 < (-gain * kq).val := by linarith
  obtain ⟨-, -, n1, n2⟩ := design_near f1 m1 p2.le pg.le (by norm_num; linarith)
  exact stable_near p2 pg n1 n2 (by norm_num; linarith) (by norm_num; linarith) (by norm_num; linarith)

/-- C116: the cut shelf, for gains from -1 to -64 (and any q above 1/16). -/
theorem C116_low_shelf_cut {powi : F32 → ℕ → F32} (hp : PowiNear powi) {sqrt : F32 → F32} (hs : SqrtRough sqrt) {fc q gain sr : F32}
    (s0 : 1 ≤ sr.val) (s1 : sr.val ≤ 2 ^ 30) (r0 : 1 / 3200 ≤ fc.val / sr.val) (r1 : fc.val / sr.val ≤ 318 / 1000)
    (q0 : 1 / 16 ≤ q.val) (q1 : q.val ≤ 64) (g0 : gain.val ≤ -1) (g1 : -64 ≤ gain.val) :
    (lowShelfCut powi sqrt fc q gain sr).real.Stable := by
  obtain ⟨k0, k1⟩ := warpF_range hp s0 s1 (by norm_num) r0 r1
  obtain ⟨f1, f2, l1, u1, l2, u2⟩ := setup_near (k := warpF powi fc sr) (le_trans (by norm_num) k0) (k1.trans (by norm_num)) q0 q1
  simp only [lowShelfCut, setupCoeffs]
  change (lowShelfCutOf sqrt gain (warpF powi fc sr * warpF powi fc sr) (warpF powi fc sr / q)).real.Stable
  have kp : 0 < (warpF powi fc sr).val := lt_of_lt_of_le (by norm_num) k0
  have b1 : 9 / 10000 * (warpF powi fc sr).val ≤ (warpF powi fc sr).val ^ 2 := by nlinarith
  have b2 : (warpF powi fc sr).val ^ 2 ≤ 2 * (warpF powi fc sr).val := by nlinarith
  generalize warpF powi fc sr = k at *
  generalize k * k = k2 at *
  have p2 : 0 < k2.val := by linarith
  obtain ⟨g, hg⟩ : ∃ g, g = -gain := ⟨_, rfl⟩
  have gf : g.isFin = true := by
    rw [hg, isFin_neg']; exact fin_of_val (by rw [abs_of_neg (by linarith)]; norm_num; linarith)
  have gv : g.val = -gain.val := by rw [hg]; exact val_neg' _
  have h1 : 1 * k2.val ≤ g.val * k2.val := mul_le_mul_of_nonneg_right (by linarith) p2.le
  have h2 : g.val * k2.val ≤ 64 * k2.val := mul_le_mul_of_nonneg_right (by linarith) p2.le
  -- gain * k2
  obtain ⟨m1, m2⟩ := mul_near (a := g) (B := g.val * k2.val) gf f1 (by rw [abs_of_pos (by linarith)]) (by norm_num; linarith)
  obtain ⟨m2a, m2b⟩ := abs_le.1 m2
  have G0 : 99 / 100 * k2.val ≤ (g * k2).val := by norm_num at m2a ⊢; linarith
  have G1 : (g * k2).val ≤ 101 / 100 * (64 * k2.val) := by norm_num at m2b ⊢; linarith
  -- gain * 2 * k2
  obtain ⟨n1, n2⟩ := mul_near (a := g) (B := g.val * 2) gf lit2_fin (by rw [lit2_val, abs_of_pos (by linarith)]) (by norm_num; linarith)
  rw [lit2_val] at n2
  obtain ⟨n2a, n2b⟩ := abs_le.1 n2
  have N0 : 199 / 100 ≤ (g * lit 2).val := by norm_num at n2a ⊢; linarith
  have N1 : (g * lit 2).val ≤ 129 := by norm_num at n2b ⊢; linarith
  have i1 : 199 / 100 * k2.val ≤ (g * lit 2).val * k2.val := mul_le_mul_of_nonneg_right N0 p2.le
  have i2 : (g * lit 2).val * k2.val ≤ 129 * k2.val := mul_le_mul_of_nonneg_right N1 p2.le
  obtain ⟨o1, o2⟩ := mul_near (B := (g * lit 2).val * k2.val) n1 f1 (by rw [abs_of_pos (by linarith)]) (by norm_num; linarith)
  obtain ⟨o2a, o2b⟩ := abs_le.1 o2
  have O0 : 19 / 10 * k2.val ≤ (g * lit 2 * k2).val := by norm_num at o2a ⊢; linarith
  have O1 : (g * lit 2 * k2).val ≤ 131 * k2.val := by norm_num at o2b ⊢; linarith
  obtain ⟨t1, t2, t3, t4⟩ := hs _ o1 (by norm_num; linarith)
  have T0 : 65 / 100 * k.val ≤ (sqrt (g * lit 2 * k2)).val := by
    by_contra hc
    have : (sqrt (g * lit 2 * k2)).val ^ 2 ≤ (65 / 100 * k.val) ^ 2 := pow_le_pow_left₀ t2 (not_le.1 hc).le 2
    nlinarith
  have T1 : (sqrt (g * lit 2 * k2)).val ≤ 24 * k.val := by
    by_contra hc
    have : (24 * k.val) ^ 2 ≤ (sqrt (g * lit 2 * k2)).val ^ 2 := pow_le_pow_left₀ (by linarith) (not_le.1 hc).le 2
    nlinarith
  have pg : 0 < (g * k2).val := by linarith
  have pt : 0 < (sqrt (g * lit 2 * k2)).val := by linarith
  obtain ⟨-, -, w1, w2⟩ := design_near m1 t1 pg.le t2 (by norm_num; linarith)
  subst hg
  exact stable_near pg pt w1 w2 (by norm_num; linarith) (by norm_num; linarith) (by norm_num; linarith)

/-! ## C118 -/

/-- The poles of a computed design keep a margin. -/
theorem design_margin {co : BiquadCoeffs F32} {K k2 kq q : ℚ} (K0 : 1 / 195 ≤ K) (K1 : K ≤ 17 / 10) (q0 : 3 / 5 ≤ q) (q1 : q ≤ 2)
    (l1 : 99 / 100 * K ^ 2 ≤ k2) (u1 : k2 ≤ 101 / 100 * K ^ 2) (l2 : 99 / 100 * (K / q) ≤ kq) (u2 : kq ≤ 101 / 100 * (K / q))
    (h1 : Near co.a1 (2 * (k2 - 1) / (1 + kq + k2)) (14 / 2 ^ 24)) (h2 : Near co.a2 ((1 - kq + k2) / (1 + kq + k2)) (7 / 2 ^ 24)) :
    1 / 2 ^ 17 ≤ co.margin := by
  have Kp : 0 < K := by linarith
  have qp : 0 < q := by linarith
  have b3 : K / q ≤ 5 / 3 * K := by rw [div_le_iff₀ qp]; nlinarith
  have b4 : K / 2 ≤ K / q := div_le_div_of_nonneg_left Kp.le qp q1
  have kqp : 0 < kq := by linarith
  have k2p : 0 < k2 := lt_of_lt_of_le (by positivity) l1
  set a := 1 + kq + k2 with ha
  have ap : 0 < a := by linarith
  -- K / a
  obtain ⟨t, ht⟩ : ∃ t, t = K / a := ⟨_, rfl⟩
  have Kt : K = t * a := by rw [ht]; field_simp
  have t0 : 1 / 200 ≤ t := by
    rw [ht, div_le_div_iff₀ (by norm_num) ap]
    nlinarith
  have t1 : t ≤ 1 := by
    rw [ht, div_le_one ap]
    nlinarith
  -- the squared imaginary part
  have e1 : (1 - kq + k2) / a - (2 * (k2 - 1) / a) ^ 2 / 4 = (4 * k2 - kq ^ 2) / a ^ 2 := by
    have := ap.ne'
    field_simp
    rw [ha]; ring
  have e2 : 112 / 100 * t ^ 2 ≤ (4 * k2 - kq ^ 2) / a ^ 2 := by
    rw [ht, div_pow, ← mul_div_assoc]
    refine div_le_div_of_nonneg_right ?_ (sq_nonneg a)
    have : kq ^ 2 ≤ (101 / 100 * (5 / 3 * K)) ^ 2 := pow_le_pow_left₀ kqp.le (by linarith) 2
    nlinarith
  have A1 : |2 * (k2 - 1) / a| ≤ 2 := by
    rw [abs_div, abs_of_pos ap, div_le_iff₀ ap, abs_le]; constructor <;> linarith
  have A1' : |co.a1.val| ≤ 3 := by
    have := h1.abs_le
    norm_num at this ⊢; linarith
  have e3 : |co.a1.val ^ 2 - (2 * (k2 - 1) / a) ^ 2| ≤ 80 / 2 ^ 24 := by
    rw [sq_sub_sq, abs_mul]
    have k1 : |co.a1.val + 2 * (k2 - 1) / a| ≤ 5 := (abs_add_le _ _).trans (by linarith)
    have := mul_le_mul k1 h1.2 (abs_nonneg _) (by norm_num)
    refine this.trans (by norm_num)
  obtain ⟨e3a, e3b⟩ := abs_le.1 e3
  obtain ⟨h2a, h2b⟩ := abs_le.1 h2.2
  have t2 : 1 / 40000 ≤ t ^ 2 := by nlinarith
  have s1 : t ^ 2 ≤ co.a2.val - co.a1.val ^ 2 / 4 := by norm_num at e3a e3b h2a h2b ⊢; linarith
  -- the radius
  have e4 : (1 - kq + k2) / a = 1 - 2 * (kq / a) := by
    have := ap.ne'
    field_simp
    rw [ha]; ring
  have e5 : 99 / 200 * t ≤ kq / a := by
    rw [ht, ← mul_div_assoc]
    exact div_le_div_of_nonneg_right (by linarith) ap.le
  have e6 : kq / a ≤ 1 := by rw [div_le_one ap]; linarith
  have hi2 : co.a2.val ≤ (1 - 49 / 100 * t) ^ 2 := by
    have : (1 - 49 / 100 * t) ^ 2 = 1 - 2 * (49 / 100 * t) + (49 / 100 * t) ^ 2 := by ring
    rw [this]
    have := sq_nonneg (49 / 100 * t)
    rw [e4] at h2b
    norm_num at h2b ⊢; linarith
  have m : 1 / 2 ^ 17 ≤ t * (1 - (1 - 49 / 100 * t)) := by norm_num; nlinarith
  refine margin_ge (lo := (t : ℝ)) (hi := ((1 - 49 / 100 * t : ℚ) : ℝ)) ?_ ?_ ?_ ?_ ?_ ?_
  · exact_mod_cast (by linarith : 0 ≤ t)
  · exact_mod_cast s1
  · exact_mod_cast (by linarith : 0 ≤ 1 - 49 / 100 * t)
  · exact_mod_cast hi2
  · exact_mod_cast (by linarith : 1 - 49 / 100 * t ≤ 1)
  · have := (Rat.cast_le (K := ℝ)).2 m
    push_cast at this ⊢; exact this

theorem mul_bound_hundred {x y : F32} {B : ℚ} (hx : x.isFin = true) (hy : y.isFin = true) (h : |x.val * y.val| ≤ B) (h1 : 1 ≤ B) (h2 : B ≤ 100) :
    (x * y).isFin = true ∧ |(x * y).val| ≤ 101 / 100 * B := by
  obtain ⟨f, e⟩ := mul_near hx hy h (by norm_num; linarith)
  refine ⟨f, ?_⟩
  have := abs_sub_abs_le_abs_sub (x * y).val (x.val * y.val)
  norm_num at e ⊢; linarith

/-- Coefficients that keep a margin, with feed-forward coefficients of at most 3: the output stays finite and bounded. -/
theorem bounded_of_margin {co : BiquadCoeffs F32} (hc : co.Fin) (hM : 1 / 2 ^ 17 ≤ co.margin) (h0 : |co.b0.val| ≤ 3) (h1 : |co.b1.val| ≤ 3)
    (h2 : |co.b2.val| ≤ 3) {x : ℕ → F32} {m : ℚ} (m0 : 1 / 2 ^ 120 ≤ m) (m1 : m ≤ 2 ^ 58) (hx : ∀ n, (x n).isFin = true ∧ |(x n).val| ≤ m)
    (n : ℕ) : ((Biquad.new co).outAt x n).isFin = true ∧ |((Biquad.new co).outAt x n).val| ≤ 2 ^ 23 * m := by
  have hG : ∀ {b y : ℚ}, |b| ≤ 3 → |y| ≤ m → |b * y| ≤ 3 * m := by
    intro b y hb hy
    rw [abs_mul]; exact mul_le_mul hb hy (abs_nonneg _) (by norm_num)
  obtain ⟨r1, r2⟩ := C114_bounded (G := 3 * m) hc hM (fun n => (hx n).1) (by norm_num at m0 ⊢; linarith) (by norm_num at m1 ⊢; linarith)
    (fun n => ⟨hG h0 (hx n).2, hG h1 (hx n).2, hG h2 (hx n).2⟩) n
  refine ⟨r1, ?_⟩
  have hM0 : 0 < co.margin := lt_of_lt_of_le (by norm_num) hM
  have mp : (0:ℝ) < m := by exact_mod_cast lt_of_lt_of_le (by norm_num) m0
  have : (((3 * m : ℚ)) : ℝ) / co.margin ≤ 2 ^ 17 * (3 * m) := by
    push_cast
    rw [div_le_iff₀ hM0]
    nlinarith
  have r3 : |(((Biquad.new co).outAt x n).val : ℝ)| ≤ 2 ^ 23 * m := by norm_num at this r2 ⊢; linarith
  exact_mod_cast r3

/-- C118: from rest, a low-pass, high-pass, all-pass or notch designed and run in floats, with fc from sr/600 to 0.318 sr and q from 0.6 to
2, never produces an infinity or a NaN and stays bounded, whatever (bounded) signal it is fed with, for ever. -/
theorem C118_never_blows_up {powi : F32 → ℕ → F32} (hp : PowiNear powi) {fc q sr : F32} (s0 : 1 ≤ sr.val) (s1 : sr.val ≤ 2 ^ 30)
    (r0 : 1 / 600 ≤ fc.val / sr.val) (r1 : fc.val / sr.val ≤ 318 / 1000) (q0 : 3 / 5 ≤ q.val) (q1 : q.val ≤ 2)
    {co : BiquadCoeffs F32} (hco : co ∈ [lowpass powi fc q sr, highpass powi fc q sr, allpass powi fc q sr, notch powi fc q sr])
    {x : ℕ → F32} {m : ℚ} (m0 : 1 / 2 ^ 120 ≤ m) (m1 : m ≤ 2 ^ 58) (hx : ∀ n, (x n).isFin = true ∧ |(x n).val| ≤ m) (n : ℕ) :
    ((Biquad.new co).outAt x n).isFin = true ∧ |((Biquad.new co).outAt x n).val| ≤ 2 ^ 23 * m := by
  obtain ⟨k0, k1⟩ := warpF_range hp s0 s1 (by norm_num) r0 r1
  obtain ⟨f1, f2, l1, u1, l2, u2⟩ := setup_near (k := warpF powi fc sr) (le_trans (by norm_num) k0) (k1.trans (by norm_num))
    (show 1 / 16 ≤ q.val by linarith) (show q.val ≤ 64 by linarith)
  have K0 : 1 / 195 ≤ (warpF powi fc sr).val := le_trans (by norm_num) k0
  have kp : 0 < (warpF powi fc sr).val := by linarith
  have b2 : (warpF powi fc sr).val ^ 2 ≤ 3 := by nlinarith
  have b0 : 0 < (warpF powi fc sr).val ^ 2 := by positivity
  have qp : 0 < q.val := by linarith
  have b3 : (warpF powi fc sr).val / q.val ≤ 3 := by rw [div_le_iff₀ qp]; linarith
  have b4 : 0 < (warpF powi fc sr).val / q.val := div_pos kp qp
  simp only [lowpass, highpass, allpass, notch, setupCoeffs, List.mem_cons, List.not_mem_nil, or_false] at hco
  change co = lowpassOf (warpF powi fc sr * warpF powi fc sr) (warpF powi fc sr / q) ∨
    co = highpassOf (warpF powi fc sr * warpF powi fc sr) (warpF powi fc sr / q) ∨
    co = allpassOf (warpF powi fc sr * warpF powi fc sr) (warpF powi fc sr / q) ∨
    co = notchOf (warpF powi fc sr * warpF powi fc sr) (warpF powi fc sr / q) at hco
  generalize warpF powi fc sr = k at *
  generalize k * k = k2 at *
  generalize k / q = kq at *
  have p2 : 0 < k2.val := by linarith
  have pq : 0 < kq.val := by linarith
  obtain ⟨nn, n1, n1', n2⟩ := design_near f1 f2 p2.le pq.le (by norm_num; linarith)
  have ap : 0 < 1 + kq.val + k2.val := by linarith
  have A1 : |2 * (k2.val - 1) / (1 + kq.val + k2.val)| ≤ 2 := by
    rw [abs_div, abs_of_pos ap, div_le_iff₀ ap, abs_le]; constructor <;> linarith
  have A2 : |(1 - kq.val + k2.val) / (1 + kq.val + k2.val)| ≤ 1 := by
    rw [abs_div, abs_of_pos ap, div_le_iff₀ ap, abs_le]; constructor <;> linarith
  have B1' : |(lit 1 / (lit 1 + kq + k2) * (lit 2 * (k2 - lit 1))).val| ≤ 3 := n1'.abs_le.trans (by norm_num; linarith)
  have B2 : |(lit 1 / (lit 1 + kq + k2) * (lit 1 - kq + k2)).val| ≤ 3 := n2.abs_le.trans (by norm_num; linarith)
  have iv : 1 / (1 + kq.val + k2.val) ≤ 1 := by rw [div_le_one ap]; linarith
  have iv0 : 0 < 1 / (1 + kq.val + k2.val) := by positivity
  have NA := nn.abs_le
  rw [abs_of_pos iv0] at NA
  have N1 : |(lit 1 / (lit 1 + kq + k2)).val| ≤ 101 / 100 * (1 / (1 + kq.val + k2.val)) := by
    linarith [mul_le_mul_of_nonneg_right (show (33:ℚ) / 10 / 2 ^ 24 ≤ 1 / 100 by norm_num) iv0.le]
  have Ny : ∀ {y : ℚ}, |y| ≤ 1 + kq.val + k2.val → |(lit 1 / (lit 1 + kq + k2)).val * y| ≤ 101 / 100 := by
    intro y hy
    rw [abs_mul]
    have := mul_le_mul N1 hy (abs_nonneg _) (by positivity)
    rwa [mul_assoc, one_div_mul_cancel ap.ne', mul_one] at this
  generalize hN : lit 1 / (lit 1 + kq + k2) = N at *
  have N2 : |N.val| ≤ 101 / 100 := N1.trans (by linarith)
  have marg : ∀ c : BiquadCoeffs F32, Near c.a1 (2 * (k2.val - 1) / (1 + kq.val + k2.val)) (14 / 2 ^ 24) →
      Near c.a2 ((1 - kq.val + k2.val) / (1 + kq.val + k2.val)) (7 / 2 ^ 24) → 1 / 2 ^ 17 ≤ c.margin :=
    fun c g1 g2 => design_margin K0 k1 q0 q1 l1 u1 l2 u2 g1 g2
  rcases hco with rfl | rfl | rfl | rfl
  · obtain ⟨g1, g2⟩ := mul_bound_hundred (B := 101 / 100) nn.1 f1 (Ny (by rw [abs_of_pos p2]; linarith)) (by norm_num) (by norm_num)
    obtain ⟨w1, w2⟩ := mul_near (B := 3) nn.1 lit2_fin (by rw [lit2_val, abs_mul, abs_two]; linarith) (by norm_num)
    have w3 : |N.val * 2 * k2.val| ≤ 203 / 100 := by
      rw [mul_assoc, mul_comm 2, ← mul_assoc, abs_mul, abs_two]
      have := Ny (y := k2.val) (by rw [abs_of_pos p2]; linarith)
      linarith
    rw [lit2_val] at w2
    have w4 : |(N * lit 2).val * k2.val| ≤ 21 / 10 := by
      have : (N * lit 2).val * k2.val = N.val * 2 * k2.val + ((N * lit 2).val - N.val * 2) * k2.val := by ring
      rw [this]
      refine (abs_add_le _ _).trans ?_
      rw [abs_mul ((N * lit 2).val - N.val * 2), abs_of_pos p2]
      have := mul_le_mul w2 (show k2.val ≤ 4 by linarith) p2.le (by positivity)
      linarith [show ((1:ℚ) / 2 ^ 150 + 3 / 2 ^ 24) * 4 ≤ 1 / 100 by norm_num]
    obtain ⟨g3, g4⟩ := mul_bound_hundred w1 f1 w4 (by norm_num) (by norm_num)
    subst hN
    exact bounded_of_margin (co := lowpassOf k2 kq) ⟨g1, g3, g1, n1.1, n2.1⟩ (marg _ n1 n2) (g2.trans (by norm_num)) (g4.trans (by norm_num))
      (g2.trans (by norm_num)) m0 m1 hx n
  · obtain ⟨g1, g2⟩ := mul_bound_hundred (y := lit (-2)) (B := 21 / 10) nn.1 (by decide +kernel) (by
      rw [show (lit (-2) : F32).val = -2 by decide +kernel, abs_mul, abs_neg, abs_two]; linarith) (by norm_num) (by norm_num)
    subst hN
    exact bounded_of_margin (co := highpassOf k2 kq) ⟨nn.1, g1, nn.1, n1'.1, n2.1⟩ (marg _ n1' n2) (N2.trans (by norm_num)) (g2.trans (by norm_num))
      (N2.trans (by norm_num)) m0 m1 hx n
  · subst hN
    exact bounded_of_margin (co := allpassOf k2 kq) ⟨n2.1, n1'.1, lit1_fin, n1'.1, n2.1⟩ (marg _ n1' n2) B2 B1'
      (by change |(lit 1 : F32).val| ≤ 3; rw [lit1_val]; norm_num) m0 m1 hx n
  · obtain ⟨w1, w2⟩ := near1.add (Near.refl f1) (B := 1 + k2.val) (by rw [abs_of_pos (by linarith)]) (by norm_num; linarith)
    have w4 : |N.val * (lit 1 + k2).val| ≤ 102 / 100 := by
      have : N.val * (lit 1 + k2).val = N.val * (1 + k2.val) + N.val * ((lit 1 + k2).val - (1 + k2.val)) := by ring
      rw [this]
      refine (abs_add_le _ _).trans ?_
      have h1 := Ny (y := 1 + k2.val) (by rw [abs_of_pos (by linarith)]; linarith)
      rw [abs_mul N.val ((lit 1 + k2).val - (1 + k2.val))]
      have h2 := mul_le_mul N2 w2 (abs_nonneg _) (by norm_num)
      refine (add_le_add h1 h2).trans ?_
      norm_num; linarith
    obtain ⟨g1, g2⟩ := mul_bound_hundred nn.1 w1 w4 (by norm_num) (by norm_num)
    subst hN
    exact bounded_of_margin (co := notchOf k2 kq) ⟨g1, n1'.1, g1, n1'.1, n2.1⟩ (marg _ n1' n2) (g2.trans (by norm_num)) B1'
      (g2.trans (by norm_num)) m0 m1 hx n

-- 1000 Hz at 48 kHz, q = 0.7; 10 kHz, q = 1/2 is too flat for C118 but covered by C116
example : 1 ≤ (lit 48000 : F32).val ∧ (lit 48000 : F32).val ≤ 2 ^ 30 ∧ 1 / 600 ≤ (lit 1000 : F32).val / (lit 48000 : F32).val ∧
    (lit 1000 : F32).val / (lit 48000 : F32).val ≤ 318 / 1000 ∧ 3 / 5 ≤ (lit (7 / 10) : F32).val ∧ (lit (7 / 10) : F32).val ≤ 2 ∧
    PowiNear powiMul := by
  refine ⟨?_, ?_, ?_, ?_, ?_, ?_, powiMul_near⟩ <;> decide +kernel

-- the coefficients the code computes there
example : let co : BiquadCoeffs F32 := lowpass powiMul (lit 1000) (lit 1) (lit 48000)
    co.b0.val = 4311615 / 1073741824 ∧ co.b1.val = 4311615 / 536870912 ∧ co.b2 = co.b0 ∧ co.a1.val = -7807313 / 4194304 ∧
    co.a2.val = 1840189 / 2097152 := by decide +kernel

end Verif
