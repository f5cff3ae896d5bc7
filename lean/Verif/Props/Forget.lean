import Verif.Props.BiquadStable

/-! # C167: what is in a float biquad at the start is forgotten, and what remains of it after the input has ended -/

namespace Verif

open F32 Butterworth

section
variable {co : BiquadCoeffs F32} {p q : ℂ}

/-- The state is within `V`: `z1` and, weighted, the quantity `p` contracts. -/
def StateWithin (p q : ℂ) (z1 z2 V : ℝ) : Prop := ‖modalOf p z1 z2‖ ≤ (1 - ‖q‖) / 2 * V ∧ |z1| ≤ V

theorem StateWithin.nonneg {z1 z2 V : ℝ} (h : StateWithin p q z1 z2 V) : 0 ≤ V := (abs_nonneg _).trans h.2

theorem StateWithin.mono {z1 z2 V V' : ℝ} (hq : ‖q‖ < 1) (h : StateWithin p q z1 z2 V) (h' : V ≤ V') : StateWithin p q z1 z2 V' :=
  ⟨h.1.trans (mul_le_mul_of_nonneg_left h' (by linarith)), h.2.trans h'⟩

theorem StateWithin.z2 {z1 z2 V : ℝ} (hp : ‖p‖ ≤ 1) (h : StateWithin p q z1 z2 V) : |z2| ≤ 3 / 2 * V := by
  have h1 := modalOf_z2 hp z1 z2
  have h2 : (1 - ‖q‖) / 2 * V ≤ 1 / 2 * V := mul_le_mul_of_nonneg_right (by linarith [norm_nonneg q]) h.nonneg
  linarith [h.1, h.2]

/-- Every state is within some bound. -/
theorem within_start {a1 a2 : ℝ} (hP : Poles a1 a2 p q) (z1 z2 : ℝ) : StateWithin p q z1 z2 (2 * (|z1| + |z2|) / circleMargin p q) := by
  obtain ⟨-, -, M0, M1, -⟩ := hP.facts
  have d0 : 0 < 1 - ‖p‖ := by linarith [hP.left]
  have d1 : 1 - ‖p‖ ≤ 1 := by linarith [norm_nonneg p]
  have e0 : 0 < 1 - ‖q‖ := by linarith [hP.right]
  have s0 : 0 ≤ |z1| + |z2| := by positivity
  constructor
  · have e : (1 - ‖q‖) / 2 * (2 * (|z1| + |z2|) / circleMargin p q) = (|z1| + |z2|) / (1 - ‖p‖) := by
      unfold circleMargin; field_simp
    rw [e]
    have h1 : ‖modalOf p z1 z2‖ ≤ |z1| + |z2| := by
      unfold modalOf
      refine (norm_add_le _ _).trans ?_
      rw [norm_mul, Complex.norm_real, Complex.norm_real, Real.norm_eq_abs, Real.norm_eq_abs]
      have := mul_le_of_le_one_left (abs_nonneg z1) hP.left.le
      linarith
    exact h1.trans (le_div_self s0 d0 d1)
  · rw [le_div_iff₀ M0]
    have := mul_le_of_le_one_right (abs_nonneg z1) M1
    linarith [abs_nonneg z1, abs_nonneg z2]

/-- What rounding adds in one step from a state within `V`. -/
theorem any_step {f : Biquad F32} {x : F32} {G : ℚ} (hc : f.coeffs.Fin) (hP : Poles f.coeffs.a1.val f.coeffs.a2.val p q)
    (hx : x.isFin = true) (h1 : f.z1.isFin = true) (h2 : f.z2.isFin = true) (G1 : G ≤ 2 ^ 60) (hb : f.coeffs.FeedsAtMost x G) {V : ℝ}
    (hV : StateWithin p q f.z1.val f.z2.val V) (V1 : V ≤ 2 ^ 85) :
    ∃ e0 e1 e2 : ℝ, (f.process x).2.isFin = true ∧ (f.process x).1.z1.isFin = true ∧ (f.process x).1.z2.isFin = true ∧
      ((f.process x).2.val : ℝ) = f.coeffs.b0.val * x.val + f.z1.val + e0 ∧
      ((f.process x).1.z1.val : ℝ) =
        f.coeffs.b1.val * x.val + f.z2.val - f.coeffs.a1.val * (f.coeffs.b0.val * x.val + f.z1.val) + e1 ∧
      ((f.process x).1.z2.val : ℝ) = f.coeffs.b2.val * x.val - f.coeffs.a2.val * (f.coeffs.b0.val * x.val + f.z1.val) + e2 ∧
      |e0| ≤ 3 * (1 / 2 ^ 150) + 3 * (G + 3 / 2 * V) / 2 ^ 24 ∧ |e1| ≤ 13 * (1 / 2 ^ 150) + 21 * (G + 3 / 2 * V) / 2 ^ 24 ∧
      |e1| + |e2| ≤ 21 * (1 / 2 ^ 150) + 32 * (G + 3 / 2 * V) / 2 ^ 24 := by
  obtain ⟨b1, b2, M0, M1, -⟩ := hP.facts
  have hZ2 := hV.z2 hP.left.le
  have hZ1 := hV.2
  have V0 := hV.nonneg
  obtain ⟨g0, g1, g2⟩ := hb
  have hS : ((G + max |f.z1.val| |f.z2.val| : ℚ) : ℝ) ≤ G + 3 / 2 * V := by
    push_cast
    have : max |(f.z1.val : ℝ)| |(f.z2.val : ℝ)| ≤ 3 / 2 * V := max_le (by linarith) hZ2
    linarith
  have hS' : G + max |f.z1.val| |f.z2.val| ≤ 2 ^ 90 := by
    have k1 : (G:ℝ) ≤ 2 ^ 60 := by exact_mod_cast G1
    have : ((G + max |f.z1.val| |f.z2.val| : ℚ) : ℝ) ≤ 2 ^ 90 := hS.trans (by norm_num at V1 k1 ⊢; linarith)
    exact_mod_cast this
  obtain ⟨o1, o2, o3, k0, k1, k2⟩ := process_error hc hx h1 h2 hS' (by exact_mod_cast b1) (by exact_mod_cast b2)
    (add_le_add g0 (le_max_left _ _)) (add_le_add g1 (le_max_right _ _))
    (by linarith [le_max_left |f.z1.val| |f.z2.val|, abs_nonneg f.z1.val])
  replace k0 := (Rat.cast_le (K := ℝ)).2 k0
  replace k1 := (Rat.cast_le (K := ℝ)).2 k1
  replace k2 := (Rat.cast_le (K := ℝ)).2 k2
  generalize hSg : G + max |f.z1.val| |f.z2.val| = S at *
  push_cast at k0 k1 k2
  have e3 : (3:ℝ) / 2 ^ 150 = 3 * (1 / 2 ^ 150) := by ring
  have e13 : (13:ℝ) / 2 ^ 150 = 13 * (1 / 2 ^ 150) := by ring
  have e8 : (8:ℝ) / 2 ^ 150 = 8 * (1 / 2 ^ 150) := by ring
  rw [e3] at k0
  rw [e13] at k1
  rw [e8] at k2
  generalize (1:ℝ) / 2 ^ 150 = η at *
  refine ⟨_, _, _, o1, o2, o3, (add_sub_cancel _ _).symm, (add_sub_cancel _ _).symm, (add_sub_cancel _ _).symm, k0.trans ?_,
    k1.trans ?_, (add_le_add k1 k2).trans ?_⟩
  · linarith
  · linarith
  · linarith

/-- The contraction, in numbers: with `d` and `e` the distances of the poles from the circle. -/
theorem contract_aux {P Q M V E B W Z W' Z' F c : ℝ} (hM : M = (1 - P) * (1 - Q)) (hP0 : 0 ≤ P) (hP1 : P < 1) (hQ0 : 0 ≤ Q) (hQ1 : Q < 1)
    (cM : c ≤ 3 / 16 * M) (E0 : 0 ≤ E) (F0 : 0 ≤ F) (hV : V = E + B) (hB : B = 18 * F / M)
    (hW : W ≤ (1 - Q) / 2 * V) (hZ : Z ≤ V)
    (h1 : W' ≤ P * W + 5 * F + c * V) (h2 : Z' ≤ Q * Z + W + 5 * F + c * V) :
    W' ≤ (1 - Q) / 2 * ((1 - M / 4) * E + B) ∧ Z' ≤ (1 - M / 4) * E + B := by
  have d0 : 0 < 1 - P := by linarith
  have e0 : 0 < 1 - Q := by linarith
  have M0 : 0 < M := by rw [hM]; exact mul_pos d0 e0
  have Md : M ≤ 1 - P := by rw [hM]; exact mul_le_of_le_one_right d0.le (by linarith)
  have Me : M ≤ 1 - Q := by rw [hM]; exact mul_le_of_le_one_left e0.le (by linarith)
  have B0 : 0 ≤ B := by rw [hB]; positivity
  have hBM : B * M = 18 * F := by rw [hB]; field_simp
  have V0 : 0 ≤ V := by rw [hV]; positivity
  have cV : c * V ≤ 3 / 16 * M * V := mul_le_mul_of_nonneg_right cM V0
  constructor
  · -- `P * W ≤ P * ((1-Q)/2 * V)`, and `(1-P) * (1-Q)/2 * V = M/2 * V`
    have k1 := mul_le_mul_of_nonneg_left hW hP0
    have k2 : P * ((1 - Q) / 2 * V) = (1 - Q) / 2 * V - M / 2 * V := by rw [hM]; ring
    have k3 : (1 - Q) / 2 * ((1 - M / 4) * E + B) = (1 - Q) / 2 * V - (1 - Q) / 2 * (M / 4 * E) := by rw [hV]; ring
    have k4 : (1 - Q) / 2 * (M / 4 * E) ≤ 1 / 2 * (M / 4 * E) := mul_le_mul_of_nonneg_right (by linarith) (by positivity)
    have k5 : M * V = M * E + 18 * F := by rw [hV, ← hBM]; ring
    have : 0 ≤ M * E := by positivity
    rw [k3]
    nlinarith
  · have k1 := mul_le_mul_of_nonneg_left hZ hQ0
    have k2 : M * V ≤ (1 - Q) * V := mul_le_mul_of_nonneg_right Me V0
    have k5 : M * V = M * E + 18 * F := by rw [hV, ← hBM]; ring
    have k6 : (1 - M / 4) * E + B = V - 1 / 4 * (M * E) := by rw [hV]; ring
    have : 0 ≤ M * E := by positivity
    rw [k6]
    nlinarith

/-- The level that the input, and the smallest floats, keep up. -/
noncomputable def floorLevel (p q : ℂ) (G : ℚ) : ℝ := 18 * (11 / 10 * G + 5 * (1 / 2 ^ 150)) / circleMargin p q

theorem floorLevel_facts {a1 a2 : ℝ} {G : ℚ} (hP : Poles a1 a2 p q) (hM : 1 / 2 ^ 16 ≤ circleMargin p q) (G0 : 0 ≤ G) (G1 : G ≤ 2 ^ 60) :
    0 ≤ floorLevel p q G ∧ floorLevel p q G ≤ 2 ^ 82 := by
  obtain ⟨-, -, M0, -, -⟩ := hP.facts
  have g0 : (0:ℝ) ≤ G := by exact_mod_cast G0
  have g1 : (G:ℝ) ≤ 2 ^ 60 := by exact_mod_cast G1
  constructor
  · unfold floorLevel; positivity
  · unfold floorLevel
    rw [div_le_iff₀ M0]
    norm_num at g1 hM ⊢
    linarith

/-- One step takes the excess over the floor level down by the margin. -/
theorem within_step {f : Biquad F32} {x : F32} {G : ℚ} (hc : f.coeffs.Fin) (hP : Poles f.coeffs.a1.val f.coeffs.a2.val p q)
    (hM : 1 / 2 ^ 16 ≤ circleMargin p q) (hx : x.isFin = true) (h1 : f.z1.isFin = true) (h2 : f.z2.isFin = true) (G0 : 0 ≤ G) (G1 : G ≤ 2 ^ 60)
    (hb : f.coeffs.FeedsAtMost x G) {E : ℝ} (E0 : 0 ≤ E) (E1 : E ≤ 2 ^ 80) (hV : StateWithin p q f.z1.val f.z2.val (E + floorLevel p q G)) :
    (f.process x).1.z1.isFin = true ∧ (f.process x).1.z2.isFin = true ∧
      StateWithin p q (f.process x).1.z1.val (f.process x).1.z2.val ((1 - circleMargin p q / 4) * E + floorLevel p q G) := by
  obtain ⟨l0, l1⟩ := floorLevel_facts hP hM G0 G1
  obtain ⟨e0, e1, e2, o1, o2, o3, v0, v1, v2, k0, k1, k2⟩ := any_step hc hP hx h1 h2 G1 hb hV (by norm_num at E1 l1 ⊢; linarith)
  obtain ⟨g0, g1, g2⟩ := hb
  replace g0 := (Rat.cast_le (K := ℝ)).2 g0
  replace g1 := (Rat.cast_le (K := ℝ)).2 g1
  replace g2 := (Rat.cast_le (K := ℝ)).2 g2
  push_cast at g0 g1 g2
  have gr : (0:ℝ) ≤ G := by exact_mod_cast G0
  obtain ⟨s1, s2⟩ := modalOf_step hP f.z1.val f.z2.val (f.coeffs.b0.val * x.val) (f.coeffs.b1.val * x.val) (f.coeffs.b2.val * x.val) e1 e2
  rw [← v1] at s1 s2
  rw [← v2] at s1
  refine ⟨o2, o3, ?_⟩
  have hη : (0:ℝ) ≤ 1 / 2 ^ 150 := by positivity
  have V0 := hV.nonneg
  unfold floorLevel at *
  generalize (1:ℝ) / 2 ^ 150 = η at *
  exact contract_aux (V := E + 18 * (11 / 10 * G + 5 * η) / circleMargin p q) (c := 48 / 2 ^ 24) (F := 11 / 10 * G + 5 * η) rfl (norm_nonneg _) hP.left
    (norm_nonneg _) hP.right (by norm_num at hM ⊢; linarith) E0 (by positivity) rfl rfl hV.1 hV.2 (by linarith) (by linarith)

theorem pow_margin {a1 a2 : ℝ} (hP : Poles a1 a2 p q) (n : ℕ) :
    0 ≤ (1 - circleMargin p q / 4) ^ n ∧ (1 - circleMargin p q / 4) ^ n ≤ 1 := by
  obtain ⟨-, -, M0, M1, -⟩ := hP.facts
  exact ⟨pow_nonneg (by linarith) _, pow_le_one₀ (by linarith) (by linarith)⟩

/-- The state after `n` samples, whatever it was at the start. -/
theorem within_after {f : Biquad F32} {x : ℕ → F32} {G : ℚ} (hc : f.coeffs.Fin) (hP : Poles f.coeffs.a1.val f.coeffs.a2.val p q)
    (hM : 1 / 2 ^ 16 ≤ circleMargin p q) (hx : ∀ n, (x n).isFin = true) (h1 : f.z1.isFin = true) (h2 : f.z2.isFin = true) (G0 : 0 ≤ G)
    (G1 : G ≤ 2 ^ 60) (hb : ∀ n, f.coeffs.FeedsAtMost (x n) G) {E : ℝ} (E0 : 0 ≤ E) (E1 : E ≤ 2 ^ 80)
    (hV : StateWithin p q f.z1.val f.z2.val (E + floorLevel p q G)) (n : ℕ) :
    (f.stateAt x n).z1.isFin = true ∧ (f.stateAt x n).z2.isFin = true ∧
      StateWithin p q (f.stateAt x n).z1.val (f.stateAt x n).z2.val ((1 - circleMargin p q / 4) ^ n * E + floorLevel p q G) := by
  induction n with
  | zero => exact ⟨h1, h2, by simpa [Biquad.stateAt] using hV⟩
  | succ n ih =>
    obtain ⟨i1, i2, i3⟩ := ih
    have hco : (f.stateAt x n).coeffs = f.coeffs := coeffs_stateAt _ _ _
    obtain ⟨r0, r1⟩ := pow_margin hP n
    obtain ⟨o1, o2, o3⟩ := within_step (f := f.stateAt x n) (x := x n) (by rw [hco]; exact hc) (by rw [hco]; exact hP) hM (hx n) i1 i2 G0 G1
      (by rw [hco]; exact hb n) (mul_nonneg r0 E0) ((mul_le_of_le_one_left E0 r1).trans E1) i3
    refine ⟨o1, o2, ?_⟩
    rw [pow_succ', mul_assoc]
    exact o3

/-- The bound on the state at the start. -/
theorem start_bound {a1 a2 : ℝ} (hP : Poles a1 a2 p q) (hM : 1 / 2 ^ 16 ≤ circleMargin p q) {z1 z2 : ℝ} (hz : |z1| + |z2| ≤ 2 ^ 60) :
    0 ≤ 2 * (|z1| + |z2|) / circleMargin p q ∧ 2 * (|z1| + |z2|) / circleMargin p q ≤ 2 ^ 80 := by
  obtain ⟨-, -, M0, M1, -⟩ := hP.facts
  refine ⟨by positivity, ?_⟩
  rw [div_le_iff₀ M0]
  norm_num at hz hM ⊢
  linarith

/-- C167: a stable float biquad recovers from every state. Whatever is in it, the output after `n` samples is finite and made up of a part
of that which dies away geometrically and of what a filter started at rest might put out, down to the smallest floats. -/
theorem C167_recovers {f : Biquad F32} {x : ℕ → F32} {G : ℚ} (hc : f.coeffs.Fin) (hP : Poles f.coeffs.a1.val f.coeffs.a2.val p q)
    (hM : 1 / 2 ^ 16 ≤ circleMargin p q) (hx : ∀ n, (x n).isFin = true) (h1 : f.z1.isFin = true) (h2 : f.z2.isFin = true)
    (hz : |(f.z1.val : ℝ)| + |(f.z2.val : ℝ)| ≤ 2 ^ 60) (G0 : 0 ≤ G) (G1 : G ≤ 2 ^ 60) (hb : ∀ n, f.coeffs.FeedsAtMost (x n) G) (n : ℕ) :
    (f.outAt x n).isFin = true ∧ |((f.outAt x n).val : ℝ)| ≤
      (3 * (|(f.z1.val : ℝ)| + |(f.z2.val : ℝ)|) * (1 - circleMargin p q / 4) ^ n + 22 * G + 95 / 2 ^ 150) / circleMargin p q := by
  obtain ⟨-, -, M0, M1, -⟩ := hP.facts
  obtain ⟨l0, l1⟩ := floorLevel_facts hP hM G0 G1
  obtain ⟨s0, s1⟩ := start_bound hP hM hz
  obtain ⟨r0, r1⟩ := pow_margin hP n
  obtain ⟨i1, i2, i3⟩ := within_after hc hP hM hx h1 h2 G0 G1 hb s0 s1 ((within_start hP _ _).mono hP.right (by linarith)) n
  have hco : (f.stateAt x n).coeffs = f.coeffs := coeffs_stateAt _ _ _
  obtain ⟨e0, e1, e2, o1, o2, o3, v0, v1, v2, k0, k1, k2⟩ := any_step (f := f.stateAt x n) (x := x n) (G := G) (by rw [hco]; exact hc)
    (by rw [hco]; exact hP) (hx n) i1 i2 G1 (by rw [hco]; exact hb n) i3 (by
      have := (mul_le_of_le_one_left s0 r1).trans s1
      norm_num at this l1 ⊢; linarith)
  refine ⟨o1, ?_⟩
  rw [hco] at v0
  have g0 := (Rat.cast_le (K := ℝ)).2 (hb n).1
  push_cast at g0
  have gr : (0:ℝ) ≤ G := by exact_mod_cast G0
  unfold Biquad.outAt
  rw [v0]
  refine (abs_add_three _ _ _).trans ?_
  have hz1 := i3.2
  generalize |(f.z1.val : ℝ)| + |(f.z2.val : ℝ)| = Y at *
  generalize (1 - circleMargin p q / 4) ^ n = ρ at *
  have hρY : 0 ≤ ρ * (2 * Y / circleMargin p q) := mul_nonneg r0 s0
  have e95 : (95:ℝ) / 2 ^ 150 = 95 * (1 / 2 ^ 150) := by ring
  have hη : (0:ℝ) ≤ 1 / 2 ^ 150 := by positivity
  have eq : (3 * Y * ρ + 22 * G + 95 / 2 ^ 150) / circleMargin p q =
      3 / 2 * (ρ * (2 * Y / circleMargin p q)) + 22 * (G / circleMargin p q) + 95 * ((1 / 2 ^ 150) / circleMargin p q) := by
    rw [e95]; field_simp
  have eqF : floorLevel p q G = 99 / 5 * (G / circleMargin p q) + 90 * ((1 / 2 ^ 150) / circleMargin p q) := by
    unfold floorLevel; ring
  rw [eq]
  rw [eqF] at k0 hz1
  have q1 : (G : ℝ) ≤ G / circleMargin p q := le_div_self gr M0 M1
  have q2 : (1:ℝ) / 2 ^ 150 ≤ (1 / 2 ^ 150) / circleMargin p q := le_div_self hη M0 M1
  generalize (1:ℝ) / 2 ^ 150 = η at *
  generalize ρ * (2 * Y / circleMargin p q) = R at *
  generalize (G : ℝ) / circleMargin p q = H at *
  generalize η / circleMargin p q = K at *
  linarith

/-- Something that dies away is below any level in the end. -/
theorem dies_away {a1 a2 : ℝ} (hP : Poles a1 a2 p q) (E : ℝ) {l : ℝ} (hl : 0 < l) : ∃ N, ∀ n ≥ N, (1 - circleMargin p q / 4) ^ n * E ≤ l := by
  obtain ⟨-, -, M0, M1, -⟩ := hP.facts
  have t : Filter.Tendsto (fun n : ℕ => (1 - circleMargin p q / 4) ^ n * E) Filter.atTop (nhds (0 * E)) :=
    (tendsto_pow_atTop_nhds_zero_of_lt_one (by linarith) (by linarith)).mul_const E
  rw [zero_mul] at t
  obtain ⟨N, hN⟩ := Filter.eventually_atTop.1 (t.eventually_lt_const hl)
  exact ⟨N, fun n hn => (hN n hn).le⟩

/-- Specification: no input any more. -/
def NoInput (x : ℕ → F32) : Prop := ∀ n, (x n).isFin = true ∧ (x n).val = 0

/-- C167, in full: once there is no input any more, a stable filter falls silent. -/
def C167_Full : Prop :=
  ∀ (f : Biquad F32) (p q : ℂ) (x : ℕ → F32), f.coeffs.Fin → Poles f.coeffs.a1.val f.coeffs.a2.val p q → 1 / 2 ^ 16 ≤ circleMargin p q →
    f.z1.isFin = true → f.z2.isFin = true → |(f.z1.val : ℝ)| + |(f.z2.val : ℝ)| ≤ 2 ^ 60 → NoInput x →
    ∃ N, ∀ n ≥ N, (f.outAt x n).val = 0

/-- C167, what is true of it: in the end nothing but zeros and denormals comes out. -/
theorem C167_partial {f : Biquad F32} {x : ℕ → F32} (hc : f.coeffs.Fin) (hP : Poles f.coeffs.a1.val f.coeffs.a2.val p q)
    (hM : 1 / 2 ^ 16 ≤ circleMargin p q) (h1 : f.z1.isFin = true) (h2 : f.z2.isFin = true)
    (hz : |(f.z1.val : ℝ)| + |(f.z2.val : ℝ)| ≤ 2 ^ 60) (hx : NoInput x) :
    ∃ N, ∀ n ≥ N, (f.outAt x n).isFin = true ∧ |(f.outAt x n).val| < 1 / 2 ^ 126 := by
  obtain ⟨-, -, M0, M1, -⟩ := hP.facts
  obtain ⟨N, hN⟩ := dies_away hP (3 * (|(f.z1.val : ℝ)| + |(f.z2.val : ℝ)|)) (show (0:ℝ) < 1 / 2 ^ 150 by positivity)
  refine ⟨N, fun n hn => ?_⟩
  have hb : ∀ n, f.coeffs.FeedsAtMost (x n) 0 := by
    intro n
    unfold BiquadCoeffs.FeedsAtMost
    rw [(hx n).2]; simp
  obtain ⟨k1, k2⟩ := C167_recovers hc hP hM (fun n => (hx n).1) h1 h2 hz le_rfl (by norm_num) hb n
  refine ⟨k1, ?_⟩
  have k3 : |((f.outAt x n).val : ℝ)| < 1 / 2 ^ 126 := by
    refine k2.trans_lt ?_
    rw [div_lt_iff₀ M0]
    have := hN n hn
    norm_num at this hM ⊢
    linarith
  have : ((|(f.outAt x n).val| : ℚ) : ℝ) < ((1 / 2 ^ 126 : ℚ) : ℝ) := by push_cast; exact k3
  exact_mod_cast this

/-- In exact arithmetic the difference of two states dies away. -/
theorem exact_within {co : BiquadCoeffs ℝ} (hP : Poles co.a1 co.a2 p q) (z1 z2 y1 y2 : ℝ) (x : ℕ → ℝ) (n : ℕ) :
    StateWithin p q ((Biquad.stateAt ⟨z1, z2, co⟩ x n).z1 - (Biquad.stateAt ⟨y1, y2, co⟩ x n).z1)
      ((Biquad.stateAt ⟨z1, z2, co⟩ x n).z2 - (Biquad.stateAt ⟨y1, y2, co⟩ x n).z2)
      ((1 - circleMargin p q / 4) ^ n * (2 * (|z1 - y1| + |z2 - y2|) / circleMargin p q)) := by
  obtain ⟨-, -, M0, M1, -⟩ := hP.facts
  induction n with
  | zero => rw [pow_zero, one_mul]; exact within_start hP _ _
  | succ n ih =>
    have c1 : (Biquad.stateAt ⟨z1, z2, co⟩ x n).coeffs = co := coeffs_stateAt _ _ _
    have c2 : (Biquad.stateAt ⟨y1, y2, co⟩ x n).coeffs = co := coeffs_stateAt _ _ _
    obtain ⟨s1, s2⟩ := modalOf_step hP ((Biquad.stateAt ⟨z1, z2, co⟩ x n).z1 - (Biquad.stateAt ⟨y1, y2, co⟩ x n).z1)
      ((Biquad.stateAt ⟨z1, z2, co⟩ x n).z2 - (Biquad.stateAt ⟨y1, y2, co⟩ x n).z2) 0 0 0 0 0
    have w1 : (Biquad.stateAt ⟨z1, z2, co⟩ x (n + 1)).z1 - (Biquad.stateAt ⟨y1, y2, co⟩ x (n + 1)).z1 =
        0 + ((Biquad.stateAt ⟨z1, z2, co⟩ x n).z2 - (Biquad.stateAt ⟨y1, y2, co⟩ x n).z2) -
        co.a1 * (0 + ((Biquad.stateAt ⟨z1, z2, co⟩ x n).z1 - (Biquad.stateAt ⟨y1, y2, co⟩ x n).z1)) + 0 := by
      simp only [Biquad.stateAt, Biquad.process, c1, c2]; ring
    have w2 : (Biquad.stateAt ⟨z1, z2, co⟩ x (n + 1)).z2 - (Biquad.stateAt ⟨y1, y2, co⟩ x (n + 1)).z2 =
        0 - co.a2 * (0 + ((Biquad.stateAt ⟨z1, z2, co⟩ x n).z1 - (Biquad.stateAt ⟨y1, y2, co⟩ x n).z1)) + 0 := by
      simp only [Biquad.stateAt, Biquad.process, c1, c2]; ring
    rw [← w1, ← w2] at s1
    rw [← w1] at s2
    simp only [abs_zero, mul_zero, add_zero] at s1 s2
    have := contract_aux (B := 0) (F := 0) (c := 0) (E := (1 - circleMargin p q / 4) ^ n * (2 * (|z1 - y1| + |z2 - y2|) / circleMargin p q))
      rfl (norm_nonneg p) hP.left (norm_nonneg q) hP.right (by positivity)
      (mul_nonneg (pow_margin hP n).1 (by positivity)) le_rfl (add_zero _).symm (by simp) ih.1 ih.2
      (s1.trans (by simp)) (s2.trans (by simp))
    rw [add_zero] at this
    rw [show (1 - circleMargin p q / 4) ^ (n + 1) * (2 * (|z1 - y1| + |z2 - y2|) / circleMargin p q) =
      (1 - circleMargin p q / 4) * ((1 - circleMargin p q / 4) ^ n * (2 * (|z1 - y1| + |z2 - y2|) / circleMargin p q)) by ring]
    exact this

/-- C167: in exact arithmetic a stable filter forgets: the outputs of two filters that were started differently and then got the same input
come together geometrically. -/
theorem C167_forgets {co : BiquadCoeffs ℝ} (hP : Poles co.a1 co.a2 p q) (z1 z2 y1 y2 : ℝ) (x : ℕ → ℝ) (n : ℕ) :
    |Biquad.outAt ⟨z1, z2, co⟩ x n - Biquad.outAt ⟨y1, y2, co⟩ x n| ≤
      (1 - circleMargin p q / 4) ^ n * (2 * (|z1 - y1| + |z2 - y2|) / circleMargin p q) := by
  have c1 : (Biquad.stateAt ⟨z1, z2, co⟩ x n).coeffs = co := coeffs_stateAt _ _ _
  have c2 : (Biquad.stateAt ⟨y1, y2, co⟩ x n).coeffs = co := coeffs_stateAt _ _ _
  have : Biquad.outAt ⟨z1, z2, co⟩ x n - Biquad.outAt ⟨y1, y2, co⟩ x n =
      (Biquad.stateAt ⟨z1, z2, co⟩ x n).z1 - (Biquad.stateAt ⟨y1, y2, co⟩ x n).z1 := by
    simp only [Biquad.outAt, Biquad.process, c1, c2]; ring
  rw [this]
  exact (exact_within hP z1 z2 y1 y2 x n).2

/-- One step of two filters of the same coefficients takes their difference down by the margin, to what their rounding keeps up. -/
theorem pair_step {f g : Biquad F32} {x : F32} {G : ℚ} (hg : g.coeffs = f.coeffs) (hc : f.coeffs.Fin)
    (hP : Poles f.coeffs.a1.val f.coeffs.a2.val p q) (hx : x.isFin = true) (h1 : f.z1.isFin = true) (h2 : f.z2.isFin = true)
    (h3 : g.z1.isFin = true) (h4 : g.z2.isFin = true) (G0 : 0 ≤ G) (G1 : G ≤ 2 ^ 60) (hb : f.coeffs.FeedsAtMost x G) {V E : ℝ} (V1 : V ≤ 2 ^ 85)
    (hf : StateWithin p q f.z1.val f.z2.val V) (hgV : StateWithin p q g.z1.val g.z2.val V) (E0 : 0 ≤ E)
    (hD : StateWithin p q (f.z1.val - g.z1.val) (f.z2.val - g.z2.val)
      (E + 18 * (2 / 5 * (21 * (1 / 2 ^ 150) + 32 * (G + 3 / 2 * V) / 2 ^ 24)) / circleMargin p q)) :
    StateWithin p q ((f.process x).1.z1.val - (g.process x).1.z1.val) ((f.process x).1.z2.val - (g.process x).1.z2.val)
      ((1 - circleMargin p q / 4) * E + 18 * (2 / 5 * (21 * (1 / 2 ^ 150) + 32 * (G + 3 / 2 * V) / 2 ^ 24)) / circleMargin p q) := by
  obtain ⟨-, -, M0, M1, -⟩ := hP.facts
  obtain ⟨e0, e1, e2, -, -, -, -, v1, v2, -, k1, k2⟩ := any_step hc hP hx h1 h2 G1 hb hf V1
  obtain ⟨d0, d1, d2, -, -, -, -, w1, w2, -, l1, l2⟩ :=
    any_step (f := g) (by rw [hg]; exact hc) (by rw [hg]; exact hP) hx h3 h4 G1 (by rw [hg]; exact hb) hgV V1
  rw [hg] at w1 w2
  obtain ⟨s1, s2⟩ := modalOf_step hP ((f.z1.val : ℝ) - g.z1.val) ((f.z2.val : ℝ) - g.z2.val) 0 0 0 (e1 - d1) (e2 - d2)
  have r1 : 0 + ((f.z2.val : ℝ) - g.z2.val) - f.coeffs.a1.val * (0 + ((f.z1.val : ℝ) - g.z1.val)) + (e1 - d1) =
      (f.process x).1.z1.val - (g.process x).1.z1.val := by rw [v1, w1]; ring
  have r2 : 0 - (f.coeffs.a2.val : ℝ) * (0 + ((f.z1.val : ℝ) - g.z1.val)) + (e2 - d2) =
      (f.process x).1.z2.val - (g.process x).1.z2.val := by rw [v2, w2]; ring
  rw [r1, r2] at s1
  rw [r1] at s2
  simp only [abs_zero, mul_zero, add_zero] at s1 s2
  have t1 := abs_sub e1 d1
  have t2 := abs_sub e2 d2
  have t3 := abs_nonneg e2
  have t4 := abs_nonneg d2
  have gr : (0:ℝ) ≤ G := by exact_mod_cast G0
  have V0 := hf.nonneg
  have hη : (0:ℝ) ≤ 1 / 2 ^ 150 := by positivity
  generalize (1:ℝ) / 2 ^ 150 = η at *
  refine contract_aux (V := E + 18 * (2 / 5 * (21 * η + 32 * (G + 3 / 2 * V) / 2 ^ 24)) / circleMargin p q) (c := 0)
    (F := 2 / 5 * (21 * η + 32 * (G + 3 / 2 * V) / 2 ^ 24)) rfl (norm_nonneg _) hP.left (norm_nonneg _) hP.right (by positivity) E0
    (by positivity) rfl rfl hD.1 hD.2 (s1.trans ?_) (s2.trans ?_)
  · linarith
  · linarith

/-- The numbers of the bound on what rounding keeps up. -/
theorem forget_aux {M G η L : ℝ} (hM0 : 0 < M) (hM1 : M ≤ 1) (hG : 0 ≤ G) (hη : 0 ≤ η) (hL : L = 18 * (11 / 10 * G + 5 * η) / M) :
    19 * (2 / 5 * (21 * η + 32 * (G + 3 / 2 * (2 * L)) / 2 ^ 24)) / M + 2 * (3 * η + 3 * (G + 3 / 2 * (2 * L)) / 2 ^ 24) ≤
      (G / 2 ^ 10 + 200 * η) / M ^ 2 := by
  have e : L = 99 / 5 * (G / M) + 90 * (η / M) := by rw [hL]; ring
  have e2 : (G / 2 ^ 10 + 200 * η) / M ^ 2 = 1 / 2 ^ 10 * (G / M / M) + 200 * (η / M / M) := by field_simp
  have e3 : 19 * (2 / 5 * (21 * η + 32 * (G + 3 / 2 * (2 * L)) / 2 ^ 24)) / M =
      798 / 5 * (η / M) + 1216 / 5 / 2 ^ 24 * (G / M) + 3648 / 5 / 2 ^ 24 * (L / M) := by ring
  have e4 : L / M = 99 / 5 * (G / M / M) + 90 * (η / M / M) := by rw [e]; ring
  have g1 := le_div_self hG hM0 hM1
  have g2 := le_div_self (div_nonneg hG hM0.le) hM0 hM1
  have h1 := le_div_self hη hM0 hM1
  have h2 := le_div_self (div_nonneg hη hM0.le) hM0 hM1
  rw [e2, e3, e4, e]
  generalize G / M / M = g'' at *
  generalize η / M / M = h'' at *
  generalize G / M = g' at *
  generalize η / M = h' at *
  norm_num
  linarith

/-- C167, in floats: two stable filters of the same coefficients that were started differently and then get the same input put out the same
in the end, up to what rounding makes of that input. -/
theorem C167_forgets_float {f g : Biquad F32} {x : ℕ → F32} {G : ℚ} (hg : g.coeffs = f.coeffs) (hc : f.coeffs.Fin)
    (hP : Poles f.coeffs.a1.val f.coeffs.a2.val p q) (hM : 1 / 2 ^ 16 ≤ circleMargin p q) (hx : ∀ n, (x n).isFin = true)
    (h1 : f.z1.isFin = true) (h2 : f.z2.isFin = true) (h3 : g.z1.isFin = true) (h4 : g.z2.isFin = true)
    (hz : |(f.z1.val : ℝ)| + |(f.z2.val : ℝ)| ≤ 2 ^ 60) (hy : |(g.z1.val : ℝ)| + |(g.z2.val : ℝ)| ≤ 2 ^ 60) (G0 : 0 ≤ G) (G1 : G ≤ 2 ^ 60)
    (hb : ∀ n, f.coeffs.FeedsAtMost (x n) G) :
    ∃ N, ∀ n ≥ N, |((f.outAt x n).val : ℝ) - (g.outAt x n).val| ≤ (G / 2 ^ 10 + 200 / 2 ^ 150) / circleMargin p q ^ 2 := by
  obtain ⟨-, -, M0, M1, -⟩ := hP.facts
  obtain ⟨l0, l1⟩ := floorLevel_facts hP hM G0 G1
  obtain ⟨s0, s1⟩ := start_bound hP hM hz
  obtain ⟨y0, y1⟩ := start_bound hP hM hy
  have hcg : g.coeffs.Fin := by rw [hg]; exact hc
  have hPg : Poles g.coeffs.a1.val g.coeffs.a2.val p q := by rw [hg]; exact hP
  have hbg : ∀ n, g.coeffs.FeedsAtMost (x n) G := by rw [hg]; exact hb
  have If := within_after hc hP hM hx h1 h2 G0 G1 hb s0 s1 ((within_start hP _ _).mono hP.right (by linarith))
  have Ig := within_after hcg hPg hM hx h3 h4 G0 G1 hbg y0 y1 ((within_start hP _ _).mono hP.right (by linarith))
  have gr : (0:ℝ) ≤ G := by exact_mod_cast G0
  have lp : 0 < floorLevel p q G := by unfold floorLevel; positivity
  obtain ⟨N1, hN1⟩ := dies_away hP (2 * (|(f.z1.val : ℝ)| + |(f.z2.val : ℝ)|) / circleMargin p q) lp
  obtain ⟨N2, hN2⟩ := dies_away hP (2 * (|(g.z1.val : ℝ)| + |(g.z2.val : ℝ)|) / circleMargin p q) lp
  obtain ⟨L, hL⟩ : ∃ L, L = floorLevel p q G := ⟨_, rfl⟩
  have hV1 : 2 * L ≤ 2 ^ 85 := by rw [hL]; norm_num at l1 ⊢; linarith
  have Wf : ∀ n ≥ max N1 N2, StateWithin p q (f.stateAt x n).z1.val (f.stateAt x n).z2.val (2 * L) := fun n hn =>
    (If n).2.2.mono hP.right (by have := hN1 n ((le_max_left _ _).trans hn); rw [hL]; linarith)
  have Wg : ∀ n ≥ max N1 N2, StateWithin p q (g.stateAt x n).z1.val (g.stateAt x n).z2.val (2 * L) := fun n hn =>
    (Ig n).2.2.mono hP.right (by have := hN2 n ((le_max_right _ _).trans hn); rw [hL]; linarith)
  have hcf : ∀ n, (f.stateAt x n).coeffs = f.coeffs := fun n => coeffs_stateAt _ _ _
  have hcg' : ∀ n, (g.stateAt x n).coeffs = f.coeffs := fun n => (coeffs_stateAt _ _ _).trans hg
  have L0 : 0 < L := hL ▸ lp
  obtain ⟨F, hF⟩ : ∃ F : ℝ, F = 2 / 5 * (21 * (1 / 2 ^ 150) + 32 * (G + 3 / 2 * (2 * L)) / 2 ^ 24) := ⟨_, rfl⟩
  have F0 : 0 < F := by rw [hF]; positivity
  have key : ∃ E : ℝ, 0 ≤ E ∧ ∀ k, StateWithin p q (((f.stateAt x (max N1 N2 + k)).z1.val : ℝ) - (g.stateAt x (max N1 N2 + k)).z1.val)
      ((f.stateAt x (max N1 N2 + k)).z2.val - (g.stateAt x (max N1 N2 + k)).z2.val)
      ((1 - circleMargin p q / 4) ^ k * E + 18 * F / circleMargin p q) := by
    refine ⟨2 * (|((f.stateAt x (max N1 N2)).z1.val : ℝ) - (g.stateAt x (max N1 N2)).z1.val| +
        |((f.stateAt x (max N1 N2)).z2.val : ℝ) - (g.stateAt x (max N1 N2)).z2.val|) / circleMargin p q, ?_, fun k => ?_⟩
    · positivity
    · induction k with
      | zero =>
        rw [pow_zero, one_mul, add_zero]
        refine (within_start hP _ _).mono hP.right ?_
        have : 0 ≤ 18 * F / circleMargin p q := by positivity
        linarith
      | succ k ih =>
        obtain ⟨r0, -⟩ := pow_margin hP k
        rw [hF] at ih ⊢
        have := pair_step (f := f.stateAt x (max N1 N2 + k)) (g := g.stateAt x (max N1 N2 + k)) (x := x (max N1 N2 + k)) (G := G)
          ((hcg' _).trans (hcf _).symm) (by rw [hcf]; exact hc) (by rw [hcf]; exact hP) (hx _) (If _).1 (If _).2.1 (Ig _).1 (Ig _).2.1
          G0 G1 (by rw [hcf]; exact hb _) hV1 (Wf _ (Nat.le_add_right _ _)) (Wg _ (Nat.le_add_right _ _))
          (mul_nonneg r0 (by positivity)) ih
        rw [pow_succ', mul_assoc]
        exact this
  obtain ⟨E, E0, hE⟩ := key
  obtain ⟨N3, hN3⟩ := dies_away hP E (show 0 < F / circleMargin p q by positivity)
  refine ⟨max N1 N2 + N3, fun n hn => ?_⟩
  obtain ⟨k, rfl⟩ : ∃ k, n = max N1 N2 + k := ⟨n - max N1 N2, by omega⟩
  have hk : N3 ≤ k := by omega
  obtain ⟨e0, -, -, -, -, -, v0, -, -, k0, -, -⟩ := any_step (f := f.stateAt x (max N1 N2 + k)) (x := x (max N1 N2 + k)) (G := G)
    (by rw [hcf]; exact hc) (by rw [hcf]; exact hP) (hx _) (If _).1 (If _).2.1 G1 (by rw [hcf]; exact hb _) (Wf _ (Nat.le_add_right _ _)) hV1
  obtain ⟨d0, -, -, -, -, -, w0, -, -, m0, -, -⟩ := any_step (f := g.stateAt x (max N1 N2 + k)) (x := x (max N1 N2 + k)) (G := G)
    (by rw [hcg']; exact hc) (by rw [hcg']; exact hP) (hx _) (Ig _).1 (Ig _).2.1 G1 (by rw [hcg']; exact hb _)
    (Wg _ (Nat.le_add_right _ _)) hV1
  rw [hcf] at v0
  rw [hcg'] at w0
  unfold Biquad.outAt
  rw [v0, w0]
  have a1 := (hE k).2
  have a2 := hN3 k hk
  have a3 := forget_aux M0 M1 gr (show (0:ℝ) ≤ 1 / 2 ^ 150 by positivity) (hL.trans rfl)
  rw [← hF] at a3
  have a4 : (200:ℝ) / 2 ^ 150 = 200 * (1 / 2 ^ 150) := by ring
  rw [a4]
  have a5 : 19 * F / circleMargin p q = 18 * F / circleMargin p q + F / circleMargin p q := by ring
  rw [a5] at a3
  have a6 := abs_add_three (((f.stateAt x (max N1 N2 + k)).z1.val : ℝ) - (g.stateAt x (max N1 N2 + k)).z1.val) e0 (-d0)
  rw [abs_neg] at a6
  rw [show (f.coeffs.b0.val : ℝ) * (x (max N1 N2 + k)).val + (f.stateAt x (max N1 N2 + k)).z1.val + e0 -
    (f.coeffs.b0.val * (x (max N1 N2 + k)).val + (g.stateAt x (max N1 N2 + k)).z1.val + d0) =
    ((f.stateAt x (max N1 N2 + k)).z1.val - (g.stateAt x (max N1 N2 + k)).z1.val) + e0 + -d0 by ring]
  refine a6.trans ?_
  generalize (1:ℝ) / 2 ^ 150 = η at *
  linarith

/-- A filter whose state a zero sample does not change keeps it, and its output, for ever. -/
theorem stays {f : Biquad F32} {x : ℕ → F32} (hx : ∀ n, x n = lit 0) (h : (f.process (lit 0)).1 = f) (n : ℕ) : f.stateAt x n = f := by
  induction n with
  | zero => rfl
  | succ n ih => simp only [Biquad.stateAt, ih, hx n, h]

theorem biquad_eq {f g : Biquad F32} (h : f.z1 = g.z1 ∧ f.z2 = g.z2) (hc : f.coeffs = g.coeffs) : f = g := by
  cases f; cases g; simp_all

theorem coeffs_eq {a b : BiquadCoeffs F32} (h : a.b0 = b.b0 ∧ a.b1 = b.b1 ∧ a.b2 = b.b2 ∧ a.a1 = b.a1 ∧ a.a2 = b.a2) : a = b := by
  cases a; cases b; simp_all

/-- C167 is refuted: `1 / (1 - 3/2 z⁻¹ + 9/16 z⁻²)`, whose two poles are at 3/4, goes on putting out the smallest denormal. -/
theorem C167_refuted : ¬ C167_Full := by
  intro h
  have n' : ‖(3 / 4 : ℂ)‖ = 3 / 4 := by
    rw [show (3 / 4 : ℂ) = ((3 / 4 : ℝ) : ℂ) by push_cast; rfl, Complex.norm_real]; norm_num
  have m : circleMargin (3 / 4) (3 / 4) = 1 / 16 := by unfold circleMargin; rw [n']; norm_num
  obtain ⟨f, hf⟩ : ∃ f : Biquad F32, f = ⟨⟨0x00000001#32⟩, ⟨0x80000001#32⟩, lit 1, lit 0, lit 0, lit (-3 / 2), lit (9 / 16)⟩ := ⟨_, rfl⟩
  have hs : (f.process (lit 0)).1 = f := biquad_eq (by rw [hf]; decide +kernel) rfl
  have a1 : f.coeffs.a1.val = -3 / 2 := by rw [hf]; decide +kernel
  have a2 : f.coeffs.a2.val = 9 / 16 := by rw [hf]; decide +kernel
  have z : |f.z1.val| + |f.z2.val| ≤ 2 ^ 60 := by rw [hf]; decide +kernel
  obtain ⟨N, hN⟩ := h f (3 / 4) (3 / 4) (fun _ => lit 0) (by unfold BiquadCoeffs.Fin; rw [hf]; decide +kernel)
    ⟨by rw [a1]; push_cast; norm_num, by rw [a2]; push_cast; norm_num, by rw [n']; norm_num, by rw [n']; norm_num⟩ (by rw [m]; norm_num)
    (by rw [hf]; decide +kernel) (by rw [hf]; decide +kernel) (by exact_mod_cast z) (fun _ => (by decide +kernel : (lit 0 : F32).isFin = true ∧ (lit 0 : F32).val = 0))
  have h0 := hN N le_rfl
  unfold Biquad.outAt at h0
  rw [stays (fun _ => rfl) hs, hf] at h0
  exact absurd h0 (by
    show ¬ (Biquad.process (⟨⟨0x00000001#32⟩, ⟨0x80000001#32⟩, lit 1, lit 0, lit 0, lit (-3 / 2), lit (9 / 16)⟩ : Biquad F32) (lit 0)).2.val = 0
    decide +kernel)

end

namespace Silence

/-- The coefficients that the low-pass at 3 kHz, quality 1/2, computes at 48 kHz. -/
def co : BiquadCoeffs F32 := ⟨⟨0x3ce17ef4#32⟩, ⟨0x3d617ef4#32⟩, ⟨0x3ce17ef4#32⟩, ⟨0xbfab0dc0#32⟩, ⟨0x3ee496c1#32⟩⟩

/-- A state as a number, for the kernel to work with. -/
def dec (s : ℕ) : Biquad F32 := ⟨⟨BitVec.ofNat 32 (s / 2 ^ 32)⟩, ⟨BitVec.ofNat 32 s⟩, co⟩
def enc (f : Biquad F32) : ℕ := f.z1.bits.toNat * 2 ^ 32 + f.z2.bits.toNat

theorem dec_enc (f : Biquad F32) (h : f.coeffs = co) : dec (enc f) = f := by
  obtain ⟨⟨a⟩, ⟨b⟩, c⟩ := f
  simp only at h
  subst h
  have ha := a.isLt
  have hb := b.isLt
  have e1 : (a.toNat * 2 ^ 32 + b.toNat) / 2 ^ 32 = a.toNat := by omega
  have e2 : BitVec.ofNat 32 (a.toNat * 2 ^ 32 + b.toNat) = b := by
    apply BitVec.eq_of_toNat_eq
    simp only [BitVec.toNat_ofNat]
    omega
  simp only [dec, enc, e1, e2, BitVec.ofNat_toNat, BitVec.setWidth_eq]

/-- One sample of silence, and `n` of them. -/
def fastSt (s : ℕ) : ℕ := enc ((dec s).process (lit 0)).1
def itOf (g : ℕ → ℕ) : ℕ → ℕ → ℕ
  | 0, s => s
  | n + 1, s => match g s with
    | 0 => itOf g n 0
    | k + 1 => itOf g n (k + 1)

theorem itOf_succ (g : ℕ → ℕ) (n s : ℕ) : itOf g (n + 1) s = itOf g n (g s) := by
  rw [itOf]
  generalize g s = t
  cases t <;> rfl

theorem itOf_succ' (g : ℕ → ℕ) (n s : ℕ) : itOf g (n + 1) s = g (itOf g n s) := by
  induction n generalizing s with
  | zero => rw [itOf_succ]; rfl
  | succ n ih => rw [itOf_succ, ih, ← itOf_succ]

theorem it_state {f : Biquad F32} (h : f.coeffs = co) {x : ℕ → F32} (hx : ∀ n, x n = lit 0) (n : ℕ) : dec (itOf fastSt n (enc f)) = f.stateAt x n := by
  induction n with
  | zero => exact dec_enc f h
  | succ n ih =>
    rw [itOf_succ', fastSt, ih, dec_enc]
    · simp only [Biquad.stateAt, hx n]
    · exact (coeffs_stateAt f x n).trans h

end Silence

open Silence in
set_option maxRecDepth 100000 in
/-- C167, what goes wrong: the low-pass at 3 kHz, quality 1/2, 48 kHz, hears a single sample of 1 and nothing after that. From the 263rd sample
of silence on it puts out 2^-148, for ever. -/
theorem C167_stuck {x : ℕ → F32} (h0 : x 0 = lit 1) (hx : ∀ n, x (n + 1) = lit 0) (n : ℕ) (hn : 263 ≤ n) :
    ((Biquad.new (lowpass powiMul (lit 3000) (lit (1 / 2)) (lit 48000))).outAt x n).val = 1 / 2 ^ 148 := by
  have hco : lowpass powiMul (lit 3000) (lit (1 / 2)) (lit 48000) = co := coeffs_eq (by decide +kernel)
  rw [hco]
  have hs : ∀ f : Biquad F32, ∀ n, f.stateAt x (n + 1) = (f.process (x 0)).1.stateAt (fun k => x (k + 1)) n := by
    intro f n
    induction n with
    | zero => rfl
    | succ n ih => rw [Biquad.stateAt, ih]; rfl
  obtain ⟨k, rfl⟩ : ∃ k, n = 262 + k + 1 := ⟨n - 263, by omega⟩
  have hadd : ∀ (f : Biquad F32) (y : ℕ → F32), (∀ n, y n = lit 0) → ∀ a b, f.stateAt y (a + b) = (f.stateAt y a).stateAt y b := by
    intro f y hy a b
    induction b with
    | zero => rfl
    | succ b ih => rw [← add_assoc, Biquad.stateAt, ih, hy]; simp only [Biquad.stateAt, hy]
  have hit : itOf fastSt 262 0x3dbc156f3c79a40c = 0x0000000280000001 := by decide +kernel
  have e : enc ((Biquad.new co).process (lit 1)).1 = 0x3dbc156f3c79a40c := by decide +kernel
  have hst : ((Biquad.new co).process (lit 1)).1.stateAt (fun k => x (k + 1)) 262 = dec 0x0000000280000001 := by
    rw [← it_state (f := ((Biquad.new co).process (lit 1)).1) (by rfl) hx 262, e, hit]
  have hfix : ((dec 0x0000000280000001).process (lit 0)).1 = dec 0x0000000280000001 := biquad_eq (by decide +kernel) rfl
  unfold Biquad.outAt
  rw [hs, h0, hadd _ _ hx, hst, stays hx hfix, hx]
  decide +kernel

/-- A filter that is left with a state of 1 and gets no more input: in the end there is next to nothing left of it. -/
example (x : ℕ → F32) (hx : NoInput x) : let f : Biquad F32 := ⟨lit 1, lit 0, lit 1, lit 0, lit 0, lit (-3 / 2), lit (9 / 16)⟩
    ∃ N, ∀ n ≥ N, |(f.outAt x n).val| < 1 / 2 ^ 126 := by
  intro f
  have n' : ‖(3 / 4 : ℂ)‖ = 3 / 4 := by
    rw [show (3 / 4 : ℂ) = ((3 / 4 : ℝ) : ℂ) by push_cast; rfl, Complex.norm_real]; norm_num
  have m : circleMargin (3 / 4) (3 / 4) = 1 / 16 := by unfold circleMargin; rw [n']; norm_num
  have a1 : f.coeffs.a1.val = -3 / 2 := by decide +kernel
  have a2 : f.coeffs.a2.val = 9 / 16 := by decide +kernel
  have z : |f.z1.val| + |f.z2.val| ≤ 2 ^ 60 := by decide +kernel
  obtain ⟨N, hN⟩ := C167_partial (f := f) (x := x) (p := 3 / 4) (q := 3 / 4) (by unfold BiquadCoeffs.Fin; decide +kernel)
    ⟨by rw [a1]; push_cast; norm_num, by rw [a2]; push_cast; norm_num, by rw [n']; norm_num, by rw [n']; norm_num⟩ (by rw [m]; norm_num)
    (by decide +kernel) (by decide +kernel) (by exact_mod_cast z) hx
  exact ⟨N, fun n hn => (hN n hn).2⟩

/-- Two exact filters with their poles at 3/4, one started at rest and one at 1: after 1000 samples of anything they are together to
a thousandth. -/
example (x : ℕ → ℝ) : |Biquad.outAt ⟨1, 0, ⟨1, 0, 0, -3 / 2, 9 / 16⟩⟩ x 1000 - Biquad.outAt ⟨0, 0, ⟨1, 0, 0, -3 / 2, 9 / 16⟩⟩ x 1000| ≤ 1 / 1000 := by
  have n' : ‖(3 / 4 : ℂ)‖ = 3 / 4 := by
    rw [show (3 / 4 : ℂ) = ((3 / 4 : ℝ) : ℂ) by push_cast; rfl, Complex.norm_real]; norm_num
  have m : circleMargin (3 / 4) (3 / 4) = 1 / 16 := by unfold circleMargin; rw [n']; norm_num
  refine (C167_forgets (p := 3 / 4) (q := 3 / 4) (co := ⟨1, 0, 0, -3 / 2, 9 / 16⟩)
    ⟨by push_cast; norm_num, by push_cast; norm_num, by rw [n']; norm_num, by rw [n']; norm_num⟩ 1 0 0 0 x 1000).trans ?_
  rw [m]
  have : ((63:ℝ) / 64) ^ 1000 ≤ 1 / 100000 := by
    rw [show (1000:ℕ) = 50 * 20 by norm_num, pow_mul]
    calc (((63:ℝ) / 64) ^ 50) ^ 20 ≤ (1 / 2) ^ 20 := pow_le_pow_left₀ (by positivity) (by norm_num) _
      _ ≤ 1 / 100000 := by norm_num
  rw [show (1:ℝ) - 1 / 16 / 4 = 63 / 64 by norm_num]
  generalize ((63:ℝ) / 64) ^ 1000 = t at *
  norm_num at this ⊢
  linarith

end Verif
