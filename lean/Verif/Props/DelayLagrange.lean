import Verif.Props.DelaySignal
import Verif.Props.LagrangeWhole
import Mathlib.Analysis.Calculus.LocalExtr.Rolle
import Mathlib.Analysis.Calculus.Deriv.Shift

/-! # C183: what a Lagrange read of a delay line makes of a signal -/

namespace Verif
open F32 Interpolation

/-! ## The five-point kernel in floats -/

/-- One factor of one term: times `x - a`, over `p`, for a node at most `D` away. -/
theorem quartic_step {t x l p : F32} {v k V T a D : ℚ} (h : Near t v (k * V / 2 ^ 24 + T)) (hv : |v| ≤ V) (k0 : 0 ≤ k) (k1 : k ≤ 20)
    (V1 : V ≤ 2 ^ 70) (T0 : 0 ≤ T) (T1 : T ≤ 1) (hx : x.isFin = true) (hl : l.isFin = true) (la : l.val = a)
    (dx : |x.val - a| ≤ D) (D1 : 1 ≤ D) (D4 : D ≤ 4) (hp : p.isFin = true) (p1 : 1 ≤ |p.val|) :
    Near (t * (x - l) / p) (v * (x.val - a) / p.val) ((k + 301 / 100) * (D * V) / 2 ^ 24 + (5 * T + 1 / 2 ^ 147)) ∧
    |v * (x.val - a) / p.val| ≤ D * V := by
  have V0 : 0 ≤ V := (abs_nonneg _).trans hv
  have hs := (Near.refl hx).sub (Near.refl hl) (B := D) (by rw [la]; exact dx) (by norm_num; linarith)
  rw [la] at hs
  have w0 : 0 ≤ k * V := mul_nonneg k0 V0
  have w1 : k * V ≤ 20 * V := mul_le_mul_of_nonneg_right k1 V0
  have vm : |v * (x.val - a)| ≤ D * V := by
    rw [abs_mul]
    have := mul_le_mul hv dx (abs_nonneg _) V0
    linarith
  have A1 : V ≤ D * V := le_mul_of_one_le_left V0 D1
  have A4 : D * V ≤ 4 * V := mul_le_mul_of_nonneg_right D4 V0
  have Z0 : 0 ≤ D * (k * V) := mul_nonneg (by linarith) w0
  have Z1 : D * (k * V) ≤ 20 * (D * V) := by
    have := mul_le_mul_of_nonneg_left w1 (show 0 ≤ D by linarith); linarith
  have W1 : k * V ≤ D * (k * V) := le_mul_of_one_le_left w0 D1
  have T4 : D * T ≤ 4 * T := mul_le_mul_of_nonneg_right D4 T0
  have T5 : 0 ≤ D * T := mul_nonneg (by linarith) T0
  obtain ⟨W, hW⟩ : ∃ W, W = k * V := ⟨_, rfl⟩
  obtain ⟨A, hA⟩ : ∃ A, A = D * V := ⟨_, rfl⟩
  obtain ⟨Z, hZ⟩ : ∃ Z, Z = D * (k * V) := ⟨_, rfl⟩
  obtain ⟨R, hR⟩ : ∃ R, R = D * T := ⟨_, rfl⟩
  have goal : (k + 301 / 100) * (D * V) / 2 ^ 24 = (Z + 301 / 100 * A) / 2 ^ 24 := by rw [hZ, hA]; ring
  have err : V * (0 + 0 + (1 / 2 ^ 150 + (D + 0 + 0) / 2 ^ 24)) + D * (k * V / 2 ^ 24 + T) +
      (k * V / 2 ^ 24 + T) * (0 + 0 + (1 / 2 ^ 150 + (D + 0 + 0) / 2 ^ 24)) =
      V / 2 ^ 150 + A / 2 ^ 24 + Z / 2 ^ 24 + R + W / 2 ^ 174 + Z / 2 ^ 48 + T / 2 ^ 150 + R / 2 ^ 24 := by
    rw [hA, hZ, hR, hW]; ring
  have prod : (V + (k * V / 2 ^ 24 + T)) * (D + (0 + 0 + (1 / 2 ^ 150 + (D + 0 + 0) / 2 ^ 24))) =
      A + (V / 2 ^ 150 + A / 2 ^ 24 + Z / 2 ^ 24 + R + W / 2 ^ 174 + Z / 2 ^ 48 + T / 2 ^ 150 + R / 2 ^ 24) := by
    rw [← err, hA]; ring
  rw [← hA] at A1 A4 vm Z1
  rw [← hZ] at Z0 Z1 W1
  rw [← hW] at w0 w1 W1
  rw [← hR] at T4 T5
  have hm := h.mul hs hv dx (by rw [prod]; norm_num at V1 ⊢; linarith)
  rw [err, prod] at hm
  have hd := hm.divExact hp p1 vm (by norm_num at V1 ⊢; linarith)
  rw [goal]
  refine ⟨hd.mono ?_, ?_⟩
  · norm_num; linarith
  · rw [abs_div, ← hA]; exact (div_le_self (abs_nonneg _) p1).trans vm

/-- One term: four factors over four divisors. -/
theorem quartic_term {y x l1 l2 l3 l4 p1 p2 p3 p4 : F32} {M a1 a2 a3 a4 D1 D2 D3 D4 : ℚ} (hy : y.isFin = true) (hM : |y.val| ≤ M)
    (M1 : M ≤ 2 ^ 60) (hx : x.isFin = true)
    (h1 : l1.isFin = true ∧ l1.val = a1 ∧ |x.val - a1| ≤ D1 ∧ 1 ≤ D1 ∧ D1 ≤ 4)
    (h2 : l2.isFin = true ∧ l2.val = a2 ∧ |x.val - a2| ≤ D2 ∧ 1 ≤ D2 ∧ D2 ≤ 4)
    (h3 : l3.isFin = true ∧ l3.val = a3 ∧ |x.val - a3| ≤ D3 ∧ 1 ≤ D3 ∧ D3 ≤ 4)
    (h4 : l4.isFin = true ∧ l4.val = a4 ∧ |x.val - a4| ≤ D4 ∧ 1 ≤ D4 ∧ D4 ≤ 4)
    (q1 : p1.isFin = true ∧ 1 ≤ |p1.val|) (q2 : p2.isFin = true ∧ 1 ≤ |p2.val|)
    (q3 : p3.isFin = true ∧ 1 ≤ |p3.val|) (q4 : p4.isFin = true ∧ 1 ≤ |p4.val|) :
    Near (y * (x - l1) / p1 * (x - l2) / p2 * (x - l3) / p3 * (x - l4) / p4)
      (y.val * (x.val - a1) / p1.val * (x.val - a2) / p2.val * (x.val - a3) / p3.val * (x.val - a4) / p4.val)
      (121 / 10 * (D4 * (D3 * (D2 * (D1 * M)))) / 2 ^ 24 + 1 / 2 ^ 138) ∧
    |y.val * (x.val - a1) / p1.val * (x.val - a2) / p2.val * (x.val - a3) / p3.val * (x.val - a4) / p4.val| ≤
      D4 * (D3 * (D2 * (D1 * M))) := by
  have M0 : 0 ≤ M := (abs_nonneg _).trans hM
  have n : ∀ {D V : ℚ}, 1 ≤ D → D ≤ 4 → 0 ≤ V → 0 ≤ D * V ∧ D * V ≤ 4 * V := fun a b v =>
    ⟨mul_nonneg (by linarith) v, mul_le_mul_of_nonneg_right b v⟩
  obtain ⟨z1, u1⟩ := n h1.2.2.2.1 h1.2.2.2.2 M0
  obtain ⟨z2, u2⟩ := n h2.2.2.2.1 h2.2.2.2.2 z1
  obtain ⟨z3, u3⟩ := n h3.2.2.2.1 h3.2.2.2.2 z2
  obtain ⟨z4, u4⟩ := n h4.2.2.2.1 h4.2.2.2.2 z3
  have h0 : Near y y.val (0 * M / 2 ^ 24 + 0) := (Near.refl hy).mono (by norm_num)
  obtain ⟨s1, v1⟩ := quartic_step h0 hM le_rfl (by norm_num) (by norm_num at M1 ⊢; linarith) le_rfl (by norm_num) hx h1.1 h1.2.1 h1.2.2.1
    h1.2.2.2.1 h1.2.2.2.2 q1.1 q1.2
  obtain ⟨s2, v2⟩ := quartic_step s1 v1 (by norm_num) (by norm_num) (by norm_num at M1 ⊢; linarith) (by norm_num) (by norm_num) hx h2.1 h2.2.1
    h2.2.2.1 h2.2.2.2.1 h2.2.2.2.2 q2.1 q2.2
  obtain ⟨s3, v3⟩ := quartic_step s2 v2 (by norm_num) (by norm_num) (by norm_num at M1 ⊢; linarith) (by norm_num) (by norm_num) hx h3.1 h3.2.1
    h3.2.2.1 h3.2.2.2.1 h3.2.2.2.2 q3.1 q3.2
  obtain ⟨s4, v4⟩ := quartic_step s3 v3 (by norm_num) (by norm_num) (by norm_num at M1 ⊢; linarith) (by norm_num) (by norm_num) hx h4.1 h4.2.1
    h4.2.2.1 h4.2.2.2.1 h4.2.2.2.2 q4.1 q4.2
  exact ⟨s4.mono (by norm_num; linarith), v4⟩

/-- The product of the distances to the four nodes. -/
def nodes4 (t : ℚ) : ℚ := t * (t - 1) * (t - 2) * (t - 3)

/-- The kernel on four samples and the zero that an odd window appends: the cubic through the samples less its own value at the
fifth node, which is missing. -/
theorem lagrange5_near {y0 y1 y2 y3 x : F32} {M : ℚ} (f0 : y0.isFin = true) (f1 : y1.isFin = true) (f2 : y2.isFin = true)
    (f3 : y3.isFin = true) (h0 : |y0.val| ≤ M) (h1 : |y1.val| ≤ M) (h2 : |y2.val| ≤ M) (h3 : |y3.val| ≤ M) (M1 : M ≤ 2 ^ 60)
    (hx : x.isFin = true) (x0 : 0 ≤ x.val) (x1 : x.val ≤ 1) :
    Near (lagrangeSum [y0, y1, y2, y3, lit 0] x)
      (cubicAt y0.val y1.val y2.val y3.val x.val - nodes4 x.val / 24 * cubicAt y0.val y1.val y2.val y3.val 4)
      (1100 * M / 2 ^ 24 + 1 / 2 ^ 135) := by
  have M0 : 0 ≤ M := (abs_nonneg _).trans h0
  have n : ∀ i : ℕ, i ≤ 4 → (lit (i : ℚ) : F32).isFin = true ∧ (lit (i : ℚ) : F32).val = i := by
    intro i hi; interval_cases i <;> decide +kernel
  have nd : ∀ i j : ℕ, i ≤ 4 → j ≤ 4 → i ≠ j → ((lit (i : ℚ) - lit (j : ℚ) : F32).isFin = true ∧ 1 ≤ |(lit (i : ℚ) - lit (j : ℚ) : F32).val|) ∧
      (lit (i : ℚ) - lit (j : ℚ) : F32).val = i - j := by
    intro i j hi hj; interval_cases i <;> interval_cases j <;> decide +kernel
  have e : lagrangeSum [y0, y1, y2, y3, lit 0] x =
      lit 0 + y0 * (x - lit (1 : ℕ)) / (lit (0 : ℕ) - lit (1 : ℕ)) * (x - lit (2 : ℕ)) / (lit (0 : ℕ) - lit (2 : ℕ)) * (x - lit (3 : ℕ)) /
        (lit (0 : ℕ) - lit (3 : ℕ)) * (x - lit (4 : ℕ)) / (lit (0 : ℕ) - lit (4 : ℕ)) +
      y1 * (x - lit (0 : ℕ)) / (lit (1 : ℕ) - lit (0 : ℕ)) * (x - lit (2 : ℕ)) / (lit (1 : ℕ) - lit (2 : ℕ)) * (x - lit (3 : ℕ)) /
        (lit (1 : ℕ) - lit (3 : ℕ)) * (x - lit (4 : ℕ)) / (lit (1 : ℕ) - lit (4 : ℕ)) +
      y2 * (x - lit (0 : ℕ)) / (lit (2 : ℕ) - lit (0 : ℕ)) * (x - lit (1 : ℕ)) / (lit (2 : ℕ) - lit (1 : ℕ)) * (x - lit (3 : ℕ)) /
        (lit (2 : ℕ) - lit (3 : ℕ)) * (x - lit (4 : ℕ)) / (lit (2 : ℕ) - lit (4 : ℕ)) +
      y3 * (x - lit (0 : ℕ)) / (lit (3 : ℕ) - lit (0 : ℕ)) * (x - lit (1 : ℕ)) / (lit (3 : ℕ) - lit (1 : ℕ)) * (x - lit (2 : ℕ)) /
        (lit (3 : ℕ) - lit (2 : ℕ)) * (x - lit (4 : ℕ)) / (lit (3 : ℕ) - lit (4 : ℕ)) +
      lit 0 * (x - lit (0 : ℕ)) / (lit (4 : ℕ) - lit (0 : ℕ)) * (x - lit (1 : ℕ)) / (lit (4 : ℕ) - lit (1 : ℕ)) * (x - lit (2 : ℕ)) /
        (lit (4 : ℕ) - lit (2 : ℕ)) * (x - lit (3 : ℕ)) / (lit (4 : ℕ) - lit (3 : ℕ)) := rfl
  have g : ∀ (i : ℕ) (D : ℚ), i ≤ 4 → (i : ℚ) ≤ D → 1 ≤ D → D ≤ 4 →
      (lit (i : ℚ) : F32).isFin = true ∧ (lit (i : ℚ) : F32).val = i ∧ |x.val - i| ≤ D ∧ 1 ≤ D ∧ D ≤ 4 := by
    intro i D hi hD D1 D4
    have : (0 : ℚ) ≤ i := Nat.cast_nonneg i
    exact ⟨(n i hi).1, (n i hi).2, by rw [abs_le]; constructor <;> linarith, D1, D4⟩
  have g0 := g 0 1 (by norm_num) (by norm_num) (by norm_num) (by norm_num)
  have g1 := g 1 1 (by norm_num) (by norm_num) (by norm_num) (by norm_num)
  have g2 := g 2 2 (by norm_num) (by norm_num) (by norm_num) (by norm_num)
  have g3 := g 3 3 (by norm_num) (by norm_num) (by norm_num) (by norm_num)
  have g4 := g 4 4 (by norm_num) (by norm_num) (by norm_num) (by norm_num)
  have d := fun i j hi hj hij => (nd i j hi hj hij).1
  obtain ⟨t0, b0⟩ := quartic_term f0 h0 M1 hx g1 g2 g3 g4 (d 0 1 (by norm_num) (by norm_num) (by norm_num)) (d 0 2 (by norm_num) (by norm_num) (by norm_num))
    (d 0 3 (by norm_num) (by norm_num) (by norm_num)) (d 0 4 (by norm_num) (by norm_num) (by norm_num))
  obtain ⟨t1, b1⟩ := quartic_term f1 h1 M1 hx g0 g2 g3 g4 (d 1 0 (by norm_num) (by norm_num) (by norm_num)) (d 1 2 (by norm_num) (by norm_num) (by norm_num))
    (d 1 3 (by norm_num) (by norm_num) (by norm_num)) (d 1 4 (by norm_num) (by norm_num) (by norm_num))
  obtain ⟨t2, b2⟩ := quartic_term f2 h2 M1 hx g0 g1 g3 g4 (d 2 0 (by norm_num) (by norm_num) (by norm_num)) (d 2 1 (by norm_num) (by norm_num) (by norm_num))
    (d 2 3 (by norm_num) (by norm_num) (by norm_num)) (d 2 4 (by norm_num) (by norm_num) (by norm_num))
  obtain ⟨t3, b3⟩ := quartic_term f3 h3 M1 hx g0 g1 g2 g4 (d 3 0 (by norm_num) (by norm_num) (by norm_num)) (d 3 1 (by norm_num) (by norm_num) (by norm_num))
    (d 3 2 (by norm_num) (by norm_num) (by norm_num)) (d 3 4 (by norm_num) (by norm_num) (by norm_num))
  obtain ⟨t4, b4⟩ := quartic_term (y := lit 0) (M := 0) lit0_fin (by rw [lit0_val, abs_zero]) (by norm_num) hx g0 g1 g2 g3
    (d 4 0 (by norm_num) (by norm_num) (by norm_num)) (d 4 1 (by norm_num) (by norm_num) (by norm_num))
    (d 4 2 (by norm_num) (by norm_num) (by norm_num)) (d 4 3 (by norm_num) (by norm_num) (by norm_num))
  have v := fun i j hi hj hij => (nd i j hi hj hij).2
  rw [v 0 1 (by norm_num) (by norm_num) (by norm_num), v 0 2 (by norm_num) (by norm_num) (by norm_num),
    v 0 3 (by norm_num) (by norm_num) (by norm_num), v 0 4 (by norm_num) (by norm_num) (by norm_num)] at t0 b0
  rw [v 1 0 (by norm_num) (by norm_num) (by norm_num), v 1 2 (by norm_num) (by norm_num) (by norm_num),
    v 1 3 (by norm_num) (by norm_num) (by norm_num), v 1 4 (by norm_num) (by norm_num) (by norm_num)] at t1 b1
  rw [v 2 0 (by norm_num) (by norm_num) (by norm_num), v 2 1 (by norm_num) (by norm_num) (by norm_num),
    v 2 3 (by norm_num) (by norm_num) (by norm_num), v 2 4 (by norm_num) (by norm_num) (by norm_num)] at t2 b2
  rw [v 3 0 (by norm_num) (by norm_num) (by norm_num), v 3 1 (by norm_num) (by norm_num) (by norm_num),
    v 3 2 (by norm_num) (by norm_num) (by norm_num), v 3 4 (by norm_num) (by norm_num) (by norm_num)] at t3 b3
  rw [lit0_val] at t4 b4
  simp only [zero_mul, zero_div, mul_zero, zero_add] at t4 b4
  obtain ⟨v0, hv0⟩ : ∃ v0, v0 = y0.val * (x.val - (1:ℕ)) / ((0:ℕ) - (1:ℕ)) * (x.val - (2:ℕ)) / ((0:ℕ) - (2:ℕ)) * (x.val - (3:ℕ)) / ((0:ℕ) - (3:ℕ)) *
    (x.val - (4:ℕ)) / ((0:ℕ) - (4:ℕ)) := ⟨_, rfl⟩
  obtain ⟨v1, hv1⟩ : ∃ v1, v1 = y1.val * (x.val - (0:ℕ)) / ((1:ℕ) - (0:ℕ)) * (x.val - (2:ℕ)) / ((1:ℕ) - (2:ℕ)) * (x.val - (3:ℕ)) / ((1:ℕ) - (3:ℕ)) *
    (x.val - (4:ℕ)) / ((1:ℕ) - (4:ℕ)) := ⟨_, rfl⟩
  obtain ⟨v2, hv2⟩ : ∃ v2, v2 = y2.val * (x.val - (0:ℕ)) / ((2:ℕ) - (0:ℕ)) * (x.val - (1:ℕ)) / ((2:ℕ) - (1:ℕ)) * (x.val - (3:ℕ)) / ((2:ℕ) - (3:ℕ)) *
    (x.val - (4:ℕ)) / ((2:ℕ) - (4:ℕ)) := ⟨_, rfl⟩
  obtain ⟨v3, hv3⟩ : ∃ v3, v3 = y3.val * (x.val - (0:ℕ)) / ((3:ℕ) - (0:ℕ)) * (x.val - (1:ℕ)) / ((3:ℕ) - (1:ℕ)) * (x.val - (2:ℕ)) / ((3:ℕ) - (2:ℕ)) *
    (x.val - (4:ℕ)) / ((3:ℕ) - (4:ℕ)) := ⟨_, rfl⟩
  have sum : cubicAt y0.val y1.val y2.val y3.val x.val - nodes4 x.val / 24 * cubicAt y0.val y1.val y2.val y3.val 4 = 0 + v0 + v1 + v2 + v3 + 0 := by
    rw [hv0, hv1, hv2, hv3, nodes4, cubicAt, cubicAt]; push_cast; ring
  rw [← hv0] at t0 b0
  rw [← hv1] at t1 b1
  rw [← hv2] at t2 b2
  rw [← hv3] at t3 b3
  rw [e, sum]
  clear e sum hv0 hv1 hv2 hv3 v d g n nd g0 g1 g2 g3 g4
  have z : Near (lit 0 : F32) 0 0 := by have := Near.refl (x := (lit 0 : F32)) lit0_fin; rwa [lit0_val] at this
  norm_num only at M1
  have a1 := abs_add_le v0 v1
  have a2 := abs_add_le (v0 + v1) v2
  have a3 := abs_add_le (v0 + v1 + v2) v3
  have k0 := z.add t0 (B := 24 * M) (by rw [zero_add]; linarith) (by norm_num; linarith)
  have k1 := k0.add t1 (B := 48 * M) (by rw [zero_add]; linarith) (by norm_num; linarith)
  have k2 := k1.add t2 (B := 60 * M) (by rw [zero_add]; linarith) (by norm_num; linarith)
  have k3 := k2.add t3 (B := 68 * M) (by rw [zero_add]; linarith) (by norm_num; linarith)
  have k4 := k3.add t4 (B := 68 * M) (by rw [zero_add, add_zero]; linarith) (by norm_num; linarith)
  exact k4.mono (by norm_num; linarith)

/-! ## How far a smooth signal is from the cubic through four of its samples -/

/-- A signal with four derivatives, the first at most `L`, the fourth at most `M`. -/
structure Smooth4 (S D1 D2 D3 D4 : ℝ → ℝ) (L M : ℝ) : Prop where
  deriv1 : ∀ x, HasDerivAt S (D1 x) x
  deriv2 : ∀ x, HasDerivAt D1 (D2 x) x
  deriv3 : ∀ x, HasDerivAt D2 (D3 x) x
  deriv4 : ∀ x, HasDerivAt D3 (D4 x) x
  slope : ∀ x, |D1 x| ≤ L
  fourth : ∀ x, |D4 x| ≤ M

theorem rolle {f f' : ℝ → ℝ} (h : ∀ x, HasDerivAt f (f' x) x) {a b : ℝ} (hab : a < b) (ha : f a = 0) (hb : f b = 0) :
    ∃ x, a < x ∧ x < b ∧ f' x = 0 := by
  obtain ⟨x, hx, h0⟩ := exists_hasDerivAt_eq_zero hab (fun y _ => (h y).continuousAt.continuousWithinAt) (ha.trans hb.symm) (fun y _ => h y)
  exact ⟨x, hx.1, hx.2, h0⟩

theorem rolle4 {f f1 f2 f3 f4 : ℝ → ℝ} (h1 : ∀ x, HasDerivAt f (f1 x) x) (h2 : ∀ x, HasDerivAt f1 (f2 x) x)
    (h3 : ∀ x, HasDerivAt f2 (f3 x) x) (h4 : ∀ x, HasDerivAt f3 (f4 x) x) {a b c d e : ℝ} (ab : a < b) (bc : b < c) (cd : c < d)
    (de : d < e) (ha : f a = 0) (hb : f b = 0) (hc : f c = 0) (hd : f d = 0) (he : f e = 0) : ∃ x, f4 x = 0 := by
  obtain ⟨p1, _, _, z1⟩ := rolle h1 ab ha hb
  obtain ⟨p2, _, _, z2⟩ := rolle h1 bc hb hc
  obtain ⟨p3, _, _, z3⟩ := rolle h1 cd hc hd
  obtain ⟨p4, _, _, z4⟩ := rolle h1 de hd he
  obtain ⟨q1, _, _, w1⟩ := rolle h2 (by linarith : p1 < p2) z1 z2
  obtain ⟨q2, _, _, w2⟩ := rolle h2 (by linarith : p2 < p3) z2 z3
  obtain ⟨q3, _, _, w3⟩ := rolle h2 (by linarith : p3 < p4) z3 z4
  obtain ⟨r1, _, _, u1⟩ := rolle h3 (by linarith : q1 < q2) w1 w2
  obtain ⟨r2, _, _, u2⟩ := rolle h3 (by linarith : q2 < q3) w2 w3
  obtain ⟨x, _, _, hx⟩ := rolle h4 (by linarith : r1 < r2) u1 u2
  exact ⟨x, hx⟩

theorem quartic_deriv (c0 c1 c2 c3 c4 t : ℝ) : HasDerivAt (fun t : ℝ => c0 + c1 * t + c2 * t ^ 2 + c3 * t ^ 3 + c4 * t ^ 4)
    (c1 + 2 * c2 * t + 3 * c3 * t ^ 2 + 4 * c4 * t ^ 3 + 0 * t ^ 4) t := by
  have h := ((((hasDerivAt_const t c0).add ((hasDerivAt_id t).const_mul c1)).add (((hasDerivAt_id t).pow 2).const_mul c2)).add
    (((hasDerivAt_id t).pow 3).const_mul c3)).add (((hasDerivAt_id t).pow 4).const_mul c4)
  refine h.congr_deriv ?_
  simp; ring

/-- A signal that meets a quartic at five times has the quartic's fourth derivative somewhere. -/
theorem quartic_meets {S D1 D2 D3 D4 : ℝ → ℝ} {L M : ℝ} (h : Smooth4 S D1 D2 D3 D4 L M) (p c0 c1 c2 c3 c4 : ℝ) {a b c d e : ℝ}
    (ab : a < b) (bc : b < c) (cd : c < d) (de : d < e)
    (hm : ∀ t, t = a ∨ t = b ∨ t = c ∨ t = d ∨ t = e → S (p + t) = c0 + c1 * t + c2 * t ^ 2 + c3 * t ^ 3 + c4 * t ^ 4) :
    |c4| ≤ M / 24 := by
  have z : ∀ t, t = a ∨ t = b ∨ t = c ∨ t = d ∨ t = e → (fun t => S (p + t) - (c0 + c1 * t + c2 * t ^ 2 + c3 * t ^ 3 + c4 * t ^ 4)) t = 0 :=
    fun t ht => sub_eq_zero.2 (hm t ht)
  obtain ⟨x, hx⟩ := rolle4
    (f := fun t => S (p + t) - (c0 + c1 * t + c2 * t ^ 2 + c3 * t ^ 3 + c4 * t ^ 4))
    (f1 := fun t => D1 (p + t) - (c1 + 2 * c2 * t + 3 * c3 * t ^ 2 + 4 * c4 * t ^ 3 + 0 * t ^ 4))
    (f2 := fun t => D2 (p + t) - (2 * c2 + 2 * (3 * c3) * t + 3 * (4 * c4) * t ^ 2 + 4 * 0 * t ^ 3 + 0 * t ^ 4))
    (f3 := fun t => D3 (p + t) - (2 * (3 * c3) + 2 * (3 * (4 * c4)) * t + 3 * (4 * 0) * t ^ 2 + 4 * 0 * t ^ 3 + 0 * t ^ 4))
    (f4 := fun t => D4 (p + t) - (2 * (3 * (4 * c4)) + 2 * (3 * (4 * 0)) * t + 3 * (4 * 0) * t ^ 2 + 4 * 0 * t ^ 3 + 0 * t ^ 4))
    (fun t => ((h.deriv1 (p + t)).comp_const_add p t).sub (quartic_deriv _ _ _ _ _ t))
    (fun t => ((h.deriv2 (p + t)).comp_const_add p t).sub (quartic_deriv _ _ _ _ _ t))
    (fun t => ((h.deriv3 (p + t)).comp_const_add p t).sub (quartic_deriv _ _ _ _ _ t))
    (fun t => ((h.deriv4 (p + t)).comp_const_add p t).sub (quartic_deriv _ _ _ _ _ t))
    ab bc cd de (z a (by simp)) (z b (by simp)) (z c (by simp)) (z d (by simp)) (z e (by simp))
  have hb := h.fourth (p + x)
  have e : D4 (p + x) = 24 * c4 := by linarith
  rw [e, abs_mul, abs_of_pos (by norm_num : (0:ℝ) < 24)] at hb
  linarith

/-- The cubic through four samples one apart, in Newton's form. -/
noncomputable def cubicR (y0 y1 y2 y3 t : ℝ) : ℝ :=
  y0 + t * (y1 - y0) + t * (t - 1) / 2 * (y2 - 2 * y1 + y0) + t * (t - 1) * (t - 2) / 6 * (y3 - 3 * y2 + 3 * y1 - y0)

theorem cubicR_cast (y0 y1 y2 y3 t : ℚ) : ((cubicAt y0 y1 y2 y3 t : ℚ) : ℝ) = cubicR y0 y1 y2 y3 t := by
  rw [cubicAt, cubicR]; push_cast; ring

/-- The interpolation error, before the second sample and one past the last. -/
theorem cubic_error {S D1 D2 D3 D4 : ℝ → ℝ} {L M : ℝ} (h : Smooth4 S D1 D2 D3 D4 L M) (p : ℝ) {t : ℝ} (ht : 0 ≤ t ∧ t ≤ 1 ∨ t = 4) :
    |S (p + t) - cubicR (S p) (S (p + 1)) (S (p + 2)) (S (p + 3)) t| ≤ M / 24 * |t * (t - 1) * (t - 2) * (t - 3)| := by
  obtain ⟨w, hw⟩ : ∃ w, w = t * (t - 1) * (t - 2) * (t - 3) := ⟨_, rfl⟩
  rw [← hw]
  by_cases w0 : w = 0
  · have : t = 0 ∨ t = 1 := by
      rw [w0, eq_comm] at hw
      simp only [mul_eq_zero, sub_eq_zero] at hw
      rcases ht with ht | ht
      · rcases hw with ((hw | hw) | hw) | hw
        · exact .inl hw
        · exact .inr hw
        · linarith [ht.2]
        · linarith [ht.2]
      · rw [ht] at hw; norm_num at hw
    rw [w0, abs_zero, mul_zero]
    rcases this with rfl | rfl <;> simp [cubicR]
  generalize hy0 : S p = y0
  generalize hy1 : S (p + 1) = y1
  generalize hy2 : S (p + 2) = y2
  generalize hy3 : S (p + 3) = y3
  obtain ⟨K, hK⟩ : ∃ K, K = (S (p + t) - cubicR y0 y1 y2 y3 t) / w := ⟨_, rfl⟩
  have hKw : S (p + t) - cubicR y0 y1 y2 y3 t = K * w := by rw [hK, div_mul_cancel₀ _ w0]
  obtain ⟨d2, hd2⟩ : ∃ d, d = (y2 - 2 * y1 + y0) / 2 := ⟨_, rfl⟩
  obtain ⟨d3, hd3⟩ : ∃ d, d = (y3 - 3 * y2 + 3 * y1 - y0) / 6 := ⟨_, rfl⟩
  have poly : ∀ u, cubicR y0 y1 y2 y3 u + K * (u * (u - 1) * (u - 2) * (u - 3)) =
      y0 + (y1 - y0 - d2 + 2 * d3 - 6 * K) * u + (d2 - 3 * d3 + 11 * K) * u ^ 2 + (d3 - 6 * K) * u ^ 3 + K * u ^ 4 := by
    intro u; rw [cubicR, hd2, hd3]; ring
  have m0 : S (p + 0) = cubicR y0 y1 y2 y3 0 + K * (0 * (0 - 1) * (0 - 2) * (0 - 3)) := by rw [add_zero, hy0, cubicR]; ring
  have m1 : S (p + 1) = cubicR y0 y1 y2 y3 1 + K * (1 * (1 - 1) * (1 - 2) * (1 - 3)) := by rw [hy1, cubicR]; ring
  have m2 : S (p + 2) = cubicR y0 y1 y2 y3 2 + K * (2 * (2 - 1) * (2 - 2) * (2 - 3)) := by rw [hy2, cubicR]; ring
  have m3 : S (p + 3) = cubicR y0 y1 y2 y3 3 + K * (3 * (3 - 1) * (3 - 2) * (3 - 3)) := by rw [hy3, cubicR]; ring
  have mt : S (p + t) = cubicR y0 y1 y2 y3 t + K * (t * (t - 1) * (t - 2) * (t - 3)) := by rw [← hw]; linarith
  rw [poly] at m0 m1 m2 m3 mt
  have hKM : |K| ≤ M / 24 := by
    rcases ht with ⟨t0, t1⟩ | rfl
    · have t0' : t ≠ 0 := by rintro rfl; apply w0; rw [hw]; ring
      have t1' : t ≠ 1 := by rintro rfl; apply w0; rw [hw]; ring
      refine quartic_meets h p y0 (y1 - y0 - d2 + 2 * d3 - 6 * K) (d2 - 3 * d3 + 11 * K) (d3 - 6 * K) K
        (lt_of_le_of_ne t0 t0'.symm) (lt_of_le_of_ne t1 t1') (by norm_num : (1:ℝ) < 2) (by norm_num : (2:ℝ) < 3)
        (fun u hu => ?_)
      rcases hu with rfl | rfl | rfl | rfl | rfl <;> assumption
    · refine quartic_meets h p y0 (y1 - y0 - d2 + 2 * d3 - 6 * K) (d2 - 3 * d3 + 11 * K) (d3 - 6 * K) K
        (by norm_num : (0:ℝ) < 1) (by norm_num : (1:ℝ) < 2) (by norm_num : (2:ℝ) < 3) (by norm_num : (3:ℝ) < 4)
        (fun u hu => ?_)
      rcases hu with rfl | rfl | rfl | rfl | rfl <;> assumption
  rw [hKw, abs_mul]
  exact mul_le_mul_of_nonneg_right hKM (abs_nonneg w)

/-- The cubic less the fifth node's share, for samples that are off by `ε`. -/
theorem cubic_off {y0 y1 y2 y3 z0 z1 z2 z3 t ε : ℝ} (h0 : |y0 - z0| ≤ ε) (h1 : |y1 - z1| ≤ ε) (h2 : |y2 - z2| ≤ ε) (h3 : |y3 - z3| ≤ ε)
    (t0 : 0 ≤ t) (t1 : t ≤ 1) :
    |(cubicR y0 y1 y2 y3 t - t * (t - 1) * (t - 2) * (t - 3) / 24 * cubicR y0 y1 y2 y3 4) -
      (cubicR z0 z1 z2 z3 t - t * (t - 1) * (t - 2) * (t - 3) / 24 * cubicR z0 z1 z2 z3 4)| ≤ 9 / 4 * ε := by
  have ε0 : 0 ≤ ε := (abs_nonneg _).trans h0
  obtain ⟨l0, e0⟩ : ∃ l, l = (1 - t) * (2 - t) * (3 - t) * (4 - t) / 24 := ⟨_, rfl⟩
  obtain ⟨l1, e1⟩ : ∃ l, l = t * (2 - t) * (3 - t) * (4 - t) / 6 := ⟨_, rfl⟩
  obtain ⟨l2, e2⟩ : ∃ l, l = t * (1 - t) * (3 - t) * (4 - t) / 4 := ⟨_, rfl⟩
  obtain ⟨l3, e3⟩ : ∃ l, l = t * (1 - t) * (2 - t) * (4 - t) / 6 := ⟨_, rfl⟩
  have e : (cubicR y0 y1 y2 y3 t - t * (t - 1) * (t - 2) * (t - 3) / 24 * cubicR y0 y1 y2 y3 4) -
      (cubicR z0 z1 z2 z3 t - t * (t - 1) * (t - 2) * (t - 3) / 24 * cubicR z0 z1 z2 z3 4) =
      l0 * (y0 - z0) + l1 * (y1 - z1) - l2 * (y2 - z2) + l3 * (y3 - z3) := by
    rw [e0, e1, e2, e3]; simp only [cubicR]; ring
  have a := sub_nonneg.2 t1
  have b : 0 ≤ 2 - t := by linarith
  have c : 0 ≤ 3 - t := by linarith
  have d : 0 ≤ 4 - t := by linarith
  have p0 : 0 ≤ l0 := by rw [e0]; positivity
  have p1 : 0 ≤ l1 := by rw [e1]; positivity
  have p2 : 0 ≤ l2 := by rw [e2]; positivity
  have p3 : 0 ≤ l3 := by rw [e3]; positivity
  have hs : l0 + l1 + l2 + l3 ≤ 9 / 4 := by
    rw [e0, e1, e2, e3]
    nlinarith [mul_nonneg t0 a, sq_nonneg (t ^ 2 - t * (2/5)), sq_nonneg (t - 2/5), mul_nonneg (mul_nonneg t0 a) t0, mul_nonneg (mul_nonneg t0 a) (mul_nonneg t0 a), mul_nonneg t0 (sq_nonneg (t - 2/5)),
      mul_nonneg a (sq_nonneg (t - 2/5))]
  have q0 := mul_le_mul_of_nonneg_left h0 p0
  have q1 := mul_le_mul_of_nonneg_left h1 p1
  have q2 := mul_le_mul_of_nonneg_left h2 p2
  have q3 := mul_le_mul_of_nonneg_left h3 p3
  rw [← abs_of_nonneg p0, ← abs_mul, abs_of_nonneg p0, abs_le] at q0
  rw [← abs_of_nonneg p1, ← abs_mul, abs_of_nonneg p1, abs_le] at q1
  rw [← abs_of_nonneg p2, ← abs_mul, abs_of_nonneg p2, abs_le] at q2
  rw [← abs_of_nonneg p3, ← abs_mul, abs_of_nonneg p3, abs_le] at q3
  have := mul_le_mul_of_nonneg_right hs ε0
  rw [e, abs_le]
  constructor <;> linarith [q0.1, q0.2, q1.1, q1.2, q2.1, q2.2, q3.1, q3.2]

theorem nodes4_le {t : ℝ} (t0 : 0 ≤ t) (t1 : t ≤ 1) : |t * (t - 1) * (t - 2) * (t - 3)| ≤ 1 := by
  obtain ⟨u, hu⟩ : ∃ u, u = t * (3 - t) := ⟨_, rfl⟩
  have e : t * (t - 1) * (t - 2) * (t - 3) = -(u * (2 - u)) := by rw [hu]; ring
  have u0 : 0 ≤ u := by rw [hu]; exact mul_nonneg t0 (by linarith)
  have u2 : u ≤ 2 := by rw [hu]; nlinarith [mul_nonneg (sub_nonneg.2 t1) (by linarith : 0 ≤ 2 - t)]
  rw [e, abs_neg, abs_of_nonneg (mul_nonneg u0 (by linarith))]
  nlinarith [sq_nonneg (u - 1)]

/-! ## The read -/

variable {c : Cfg} {mem : Mem F32} {d : DelayLine} {q : List F32} {floor : F32 → F32}

/-- The read at any offset inside the buffer: the kernel on four samples of the queue and a zero. -/
theorem lagrange_read (h : Holds c mem d q) (hf : FloorContract floor)
    (hlen : q.length ≤ 2 ^ 20) (hmax : 2 ^ 21 ≤ c.isizeMax) {off : F32} (hof : off.isFin = true)
    (h0 : -(q.length : ℚ) ≤ off.val) (h1 : off.val ≤ 0) :
    ∃ (n : ℤ) (t : F32), t.isFin = true ∧ 0 ≤ t.val ∧ t.val ≤ 1 ∧ |n + t.val - off.val| ≤ (q.length + 2) / 2 ^ 24 ∧
      d.readLagrangeWrappedAt c floor mem off = .ok (lagrangeSum [wrapAt q h.ne_nil (n - 1), wrapAt q h.ne_nil n,
        wrapAt q h.ne_nil (n + 1), wrapAt q h.ne_nil (n + 2), lit 0] t) := by
  obtain ⟨hm, -, -, he⟩ := fractional_moderate h hlen hmax hof h0 h1
  have hidx := h.idx_lt
  have hne := h.ne_nil
  have hlq : (q.length : ℚ) ≤ 1048576 := by exact_mod_cast hlen
  have hiq : (d.index : ℚ) ≤ q.length := by exact_mod_cast hidx.le
  have hi0 : (0 : ℚ) ≤ d.index := by positivity
  have hmin : c.isizeMin ≤ -2 ^ 21 := by unfold Cfg.isizeMin; unfold Cfg.isizeMax at hmax; omega
  have he' := abs_le.1 he
  have g1 : -(2 ^ 20 + 1) ≤ ⌊(c.u2f d.index + off).val⌋ := Int.le_floor.2 (by push_cast; norm_num at he' ⊢; linarith)
  have g2 : ⌊(c.u2f d.index + off).val⌋ ≤ 2 ^ 20 + 1 :=
    Int.cast_le (R := ℚ).1 ((Int.floor_le _).trans (by push_cast; norm_num at he' ⊢; linarith))
  obtain ⟨xs, hv, hix, rfl⟩ := h
  have hx : xs ≠ [] := by rintro rfl; simp at hix
  obtain ⟨t, tf, tv, e⟩ := C12_lagrange_wrapped hv hx hf hm (by omega) (by omega) (w := 5) (by norm_num)
  generalize (c.u2f d.index + off).val = x at *
  have f0 := Int.fract_nonneg x
  have f1 := Int.fract_lt_one x
  have t1 : t.val ≤ 1 := by
    rw [tv, ← lit1_val]; exact rnd_le (lit_not_nan _) (by rw [lit1_val]; exact f1.le)
  have te : |t.val - Int.fract x| ≤ 1 / 2 ^ 150 + 1 / 2 ^ 24 := by
    rw [tv]; exact (rnd_near (s := false) (q := Int.fract x) (B := 1) (by rw [abs_of_nonneg f0]; exact f1.le) (by norm_num)).2
  have t0 : 0 ≤ t.val := by rw [tv]; exact rnd_val_nonneg f0
  refine ⟨⌊x⌋ - d.index, t, tf, t0, t1, ?_, ?_⟩
  · have te := abs_le.1 te
    have fx : Int.fract x = x - ⌊x⌋ := rfl
    rw [fx] at te
    push_cast at *
    rw [abs_le]
    constructor <;> norm_num at he' te ⊢ <;> linarith
  · refine e.trans ?_
    rw [wrapAt_rotate hix hx, wrapAt_rotate hix hx, wrapAt_rotate hix hx, wrapAt_rotate hix hx]
    simp only [lagrangeNodes, wrapRun]
    norm_num [List.range_succ]
    ring_nf

/-- C183: a line that has been fed a signal with a bounded fourth derivative, read with `read_lagrange_wrapped_at` inside the
buffer, answers with the signal at that time (or some fixed number `k` of samples beside it) up to a multiple of that
derivative, the recording error, the slope times the displacement of C132, and one percent. -/
def C183_full : Prop :=
  ∃ k K : ℝ, ∀ (c : Cfg) (mem : Mem F32) (d : DelayLine) (q : List F32) (floor : F32 → F32) (S D1 D2 D3 D4 : ℝ → ℝ) (L M ε : ℝ)
    (x : ℕ → F32) (N : ℕ) (off : F32), Holds c mem d q → FloorContract floor → q.length ≤ 2 ^ 20 → 2 ^ 21 ≤ c.isizeMax →
    Smooth4 S D1 D2 D3 D4 L M → q.length ≤ N → RecordedFrom S ε x N → off.isFin = true →
    -(q.length : ℚ) + 1 + (q.length + 2) / 2 ^ 24 < off.val → off.val < -2 - (q.length + 2) / 2 ^ 24 →
    ∃ mem' d' r, writeAll c mem d ((List.range N).map x) = .ok (mem', d') ∧
      d'.readLagrangeWrappedAt c floor mem' off = .ok r ∧
      |((r.val : ℚ) : ℝ) - S (N + (off.val : ℚ) + k)| ≤ 4 * ε + K * M + L * ((q.length + 2) / 2 ^ 24) + 1 / 100

/-- What the read does answer, at a position `n + t` that is off by `(len + 2)/2^24` at most: the signal one sample before that
position, less a ripple that vanishes at whole positions only: `t(t-1)(t-2)(t-3)/24` of the signal three samples ahead. -/
theorem C183_actual (h : Holds c mem d q) (hf : FloorContract floor) (hlen : q.length ≤ 2 ^ 20) (hmax : 2 ^ 21 ≤ c.isizeMax)
    {S D1 D2 D3 D4 : ℝ → ℝ} {L M ε : ℝ} (hS : Smooth4 S D1 D2 D3 D4 L M) {x : ℕ → F32} {N : ℕ} (hN : q.length ≤ N)
    (hx : RecordedFrom S ε x N) {off : F32} (hof : off.isFin = true)
    (h0 : -(q.length : ℚ) + 1 + (q.length + 2) / 2 ^ 24 < off.val) (h1 : off.val < -2 - (q.length + 2) / 2 ^ 24) :
    ∃ mem' d' r, ∃ (n : ℤ) (t : ℝ), writeAll c mem d ((List.range N).map x) = .ok (mem', d') ∧
      d'.readLagrangeWrappedAt c floor mem' off = .ok r ∧ 0 ≤ t ∧ t ≤ 1 ∧
      |n + t - ((off.val : ℚ) : ℝ)| ≤ (q.length + 2) / 2 ^ 24 ∧
      |((r.val : ℚ) : ℝ) - (S (N + n + t - 1) - t * (t - 1) * (t - 2) * (t - 3) / 24 * S (N + n + 3))| ≤ 9 / 4 * ε + M / 12 + 1 / 5000 := by
  obtain ⟨mem', d', hw, hh⟩ := writeAll_spec ((List.range N).map x) h
  rw [List.length_map, List.length_range] at hh
  have hl : ((q ++ (List.range N).map x).drop N).length = q.length := by simp
  have hδ : (0:ℚ) < (q.length + 2) / 2 ^ 24 := by positivity
  obtain ⟨n, t, tf, t0, t1, he, hr⟩ := lagrange_read hh hf (by rw [hl]; exact hlen) hmax hof (by rw [hl]; linarith) (by linarith)
  rw [hl] at he
  have he' := abs_le.1 he
  have n0 : -(q.length : ℤ) + 1 ≤ n := by
    have : -(q.length : ℚ) < n := by linarith
    have : -(q.length : ℤ) < n := by exact_mod_cast this
    omega
  have n1 : n ≤ -3 := by
    have : (n : ℚ) < -2 := by linarith
    have : n < -2 := by exact_mod_cast this
    omega
  rw [recorded_wrap hN _ (by omega) (by omega), recorded_wrap hN _ (by omega) (by omega), recorded_wrap hN _ (by omega) (by omega),
    recorded_wrap hN _ (by omega) (by omega)] at hr
  obtain ⟨f0, b0, a0⟩ := hx (N + (n - 1)).toNat (by omega)
  obtain ⟨f1, b1, a1⟩ := hx (N + n).toNat (by omega)
  obtain ⟨f2, b2, a2⟩ := hx (N + (n + 1)).toNat (by omega)
  obtain ⟨f3, b3, a3⟩ := hx (N + (n + 2)).toNat (by omega)
  have hk : ∀ m : ℤ, -(q.length : ℤ) ≤ m → (((N + m).toNat : ℕ) : ℝ) = N + m := by
    intro m hm
    have : (((N + m).toNat : ℕ) : ℤ) = N + m := Int.toNat_of_nonneg (by omega)
    exact_mod_cast this
  rw [hk _ (by omega), show ((N : ℝ) + ((n - 1 : ℤ) : ℝ)) = N + n - 1 by push_cast; ring] at a0
  rw [hk _ (by omega), show ((N : ℝ) + (n : ℝ)) = N + n - 1 + 1 by ring] at a1
  rw [hk _ (by omega), show ((N : ℝ) + ((n + 1 : ℤ) : ℝ)) = N + n - 1 + 2 by push_cast; ring] at a2
  rw [hk _ (by omega), show ((N : ℝ) + ((n + 2 : ℤ) : ℝ)) = N + n - 1 + 3 by push_cast; ring] at a3
  obtain ⟨-, hb⟩ := lagrange5_near f0 f1 f2 f3 b0 b1 b2 b3 (by norm_num) tf t0 t1
  have t0' : (0:ℝ) ≤ (t.val : ℚ) := by exact_mod_cast t0
  have t1' : ((t.val : ℚ) : ℝ) ≤ 1 := by exact_mod_cast t1
  refine ⟨mem', d', _, n, ((t.val : ℚ) : ℝ), hw, hr, t0', t1', ?_, ?_⟩
  · have := (Rat.cast_le (K := ℝ)).2 he
    push_cast at this; exact this
  generalize (lagrangeSum [x (N + (n - 1)).toNat, x (N + n).toNat, x (N + (n + 1)).toNat, x (N + (n + 2)).toNat, lit 0] t).val = r at *
  generalize (x (N + (n - 1)).toNat).val = y0 at *
  generalize (x (N + n).toNat).val = y1 at *
  generalize (x (N + (n + 1)).toNat).val = y2 at *
  generalize (x (N + (n + 2)).toNat).val = y3 at *
  generalize t.val = u at *
  have hb1 := (Rat.cast_le (K := ℝ)).2 hb
  rw [nodes4] at hb1
  push_cast [cubicR_cast] at hb1
  have hc := cubic_off a0 a1 a2 a3 t0' t1'
  have k1 := cubic_error hS (N + n - 1) (t := (u : ℝ)) (.inl ⟨t0', t1'⟩)
  have k4 := cubic_error hS (N + n - 1) (t := 4) (.inr rfl)
  have hw := nodes4_le t0' t1'
  have M0 : 0 ≤ M := (abs_nonneg _).trans (hS.fourth 0)
  rw [show (N + n - 1 + 4 : ℝ) = N + n + 3 by ring] at k4
  rw [show (N + n - 1 + u : ℝ) = N + n + u - 1 by ring] at k1
  have k6 := k1.trans (mul_le_mul_of_nonneg_left hw (by positivity : 0 ≤ M / 24))
  rw [show M / 24 * |(4 * (4 - 1) * (4 - 2) * (4 - 3) : ℝ)| = M by norm_num] at k4
  generalize (u * (u - 1) * (u - 2) * (u - 3) : ℝ) = w at *
  have k5 := mul_le_mul hw k4 (abs_nonneg _) (by norm_num)
  rw [← abs_mul, mul_sub] at k5
  generalize S (N + n - 1) = s0 at *
  generalize S (N + n - 1 + 1) = s1 at *
  generalize S (N + n - 1 + 2) = s2 at *
  generalize S (N + n - 1 + 3) = s3 at *
  rw [abs_le] at k6 k5 hc hb1 ⊢
  norm_num at hb1
  constructor <;> linarith [k6.1, k6.2, k5.1, k5.2, hc.1, hc.2, hb1.1, hb1.2]

/-- Missing: the ripple is not of fourth order, it is a twenty-fourth of the signal. With `|S| ≤ B` the read is the signal one sample
before the offset, up to `B/24` more than claimed. -/
theorem C183_partial (h : Holds c mem d q) (hf : FloorContract floor) (hlen : q.length ≤ 2 ^ 20) (hmax : 2 ^ 21 ≤ c.isizeMax)
    {S D1 D2 D3 D4 : ℝ → ℝ} {L M ε B : ℝ} (hS : Smooth4 S D1 D2 D3 D4 L M) (hB : ∀ t, |S t| ≤ B) {x : ℕ → F32} {N : ℕ} (hN : q.length ≤ N)
    (hx : RecordedFrom S ε x N) {off : F32} (hof : off.isFin = true)
    (h0 : -(q.length : ℚ) + 1 + (q.length + 2) / 2 ^ 24 < off.val) (h1 : off.val < -2 - (q.length + 2) / 2 ^ 24) :
    ∃ mem' d' r, writeAll c mem d ((List.range N).map x) = .ok (mem', d') ∧
      d'.readLagrangeWrappedAt c floor mem' off = .ok r ∧
      |((r.val : ℚ) : ℝ) - S (N + (off.val : ℚ) - 1)| ≤
        B / 24 + 9 / 4 * ε + M / 12 + L * ((q.length + 2) / 2 ^ 24) + 1 / 5000 := by
  obtain ⟨mem', d', r, n, t, hw, hr, t0, t1, he, hb⟩ := C183_actual h hf hlen hmax hS hN hx hof h0 h1
  refine ⟨mem', d', r, hw, hr, ?_⟩
  have L0 : 0 ≤ L := (abs_nonneg _).trans (hS.slope 0)
  have hlip : |S (N + n + t - 1) - S (N + (off.val : ℚ) - 1)| ≤ L * ((q.length + 2) / 2 ^ 24) := by
    have := Convex.norm_image_sub_le_of_norm_hasDerivWithin_le (f := S) (f' := D1) (s := Set.univ) (C := L)
      (fun y _ => (hS.deriv1 y).hasDerivWithinAt) (fun y _ => hS.slope y) convex_univ (Set.mem_univ (N + (off.val : ℚ) - 1 : ℝ))
      (Set.mem_univ (N + n + t - 1 : ℝ))
    rw [Real.norm_eq_abs, Real.norm_eq_abs, show (N + n + t - 1 : ℝ) - (N + (off.val : ℚ) - 1) = n + t - (off.val : ℚ) by ring] at this
    exact this.trans (mul_le_mul_of_nonneg_left he L0)
  have hw := mul_le_mul (nodes4_le t0 t1) (hB (N + n + 3)) (abs_nonneg _) (by norm_num)
  rw [← abs_mul] at hw
  rw [abs_le] at hb hlip hw ⊢
  constructor <;> linarith [hb.1, hb.2, hlip.1, hlip.2, hw.1, hw.2]

/-! The counterexample: a steady 1 through a line of eight cells, read three and five eighths of a sample back. -/

def steadyMem : Mem F32 := fun b => if b = 0 then some (List.replicate 8 (lit 0)) else none
def steadySlice : MemorySlice := ⟨⟨some 0, 0⟩, 8⟩

theorem steady_holds : Holds Cfg.debug64 steadyMem ⟨steadySlice, 0⟩ (List.replicate 8 (lit 0)) :=
  ⟨List.replicate 8 (lit 0), ⟨0, [], [], rfl, by decide +kernel, by simp [steadyMem], by decide +kernel⟩, by decide +kernel, rfl⟩

theorem steady_smooth : Smooth4 (fun _ => 1) (fun _ => 0) (fun _ => 0) (fun _ => 0) (fun _ => 0) 0 0 where
  deriv1 x := hasDerivAt_const x 1
  deriv2 x := hasDerivAt_const x 0
  deriv3 x := hasDerivAt_const x 0
  deriv4 x := hasDerivAt_const x 0
  slope x := by simp
  fourth x := by simp

theorem steady_recorded : RecordedFrom (fun _ => 1) 0 (fun _ => lit 1) 8 :=
  fun n _ => ⟨lit1_fin, by rw [lit1_val]; norm_num, by rw [lit1_val]; norm_num⟩

/-- The read of the steady 1. -/
def steadyRead : M F32 := do
  let (m, d) ← writeAll Cfg.debug64 steadyMem ⟨steadySlice, 0⟩ ((List.range 8).map fun _ => lit 1)
  d.readLagrangeWrappedAt Cfg.debug64 mmFloor m (lit (-29/8))

theorem steady_read : steadyRead = .ok (lit (34133/32768)) := by decide +kernel

/-- It comes out as 1.0417. -/
theorem C183_refuted : ¬ C183_full := by
  rintro ⟨k, K, h⟩
  obtain ⟨mem', d', r, hw, hr, hb⟩ := h Cfg.debug64 steadyMem ⟨steadySlice, 0⟩ (List.replicate 8 (lit 0)) mmFloor _ _ _ _ _ 0 0 0
    (fun _ => lit 1) 8 (lit (-29/8)) steady_holds mmFloor_contract (by decide +kernel) (by decide +kernel) steady_smooth (by decide +kernel)
    steady_recorded (by decide +kernel) (by decide +kernel) (by decide +kernel)
  have e := steady_read
  unfold steadyRead at e
  rw [hw] at e
  simp only [bind, Except.bind] at e
  rw [hr] at e
  obtain rfl := Except.ok.inj e
  have v : (lit (34133/32768) : F32).val = 34133/32768 := by decide +kernel
  rw [v] at hb
  norm_num [abs_of_pos] at hb

/-- The premises hold of the steady 1, where the ripple is all there is: `t = 3/8` gives 1 + 4095/98304. -/
example : ∃ mem' d' r, ∃ (n : ℤ) (t : ℝ), writeAll Cfg.debug64 steadyMem ⟨steadySlice, 0⟩ ((List.range 8).map fun _ => lit 1) = .ok (mem', d') ∧
    d'.readLagrangeWrappedAt Cfg.debug64 mmFloor mem' (lit (-29/8)) = .ok r ∧ 0 ≤ t ∧ t ≤ 1 ∧
    |n + t - (((lit (-29/8) : F32).val : ℚ) : ℝ)| ≤ (((List.replicate 8 (lit 0 : F32)).length : ℝ) + 2) / 2 ^ 24 ∧
    |((r.val : ℚ) : ℝ) - (1 - t * (t - 1) * (t - 2) * (t - 3) / 24 * 1)| ≤ 9 / 4 * 0 + 0 / 12 + 1 / 5000 :=
  C183_actual steady_holds mmFloor_contract (by decide +kernel) (by decide +kernel) steady_smooth (by decide +kernel) steady_recorded
    (by decide +kernel) (by decide +kernel) (by decide +kernel)

end Verif
