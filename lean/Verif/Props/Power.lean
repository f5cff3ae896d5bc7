import Verif.Props.Period
import Mathlib.Algebra.BigOperators.Field

/-! # C165: the loudness of the oscillators: the mean square of each wave over a period -/

namespace Verif
open F32 FunctionalOscillator

/-- Specification: the mean square (power) of the first `T` samples of a signal. -/
noncomputable def meanSquare (x : ℕ → ℝ) (T : ℕ) : ℝ := (∑ i ∈ Finset.range T, x i ^ 2) / T

/-- Signals that stay close have close powers. -/
theorem meanSquare_near {x y : ℕ → ℝ} {T : ℕ} (hT : 0 < T) {e : ℝ} (h : ∀ i < T, |x i - y i| ≤ e) (hy : ∀ i < T, |y i| ≤ 1) :
    |meanSquare x T - meanSquare y T| ≤ e * (2 + e) := by
  have hT' : (0:ℝ) < T := by exact_mod_cast hT
  unfold meanSquare
  rw [← sub_div, abs_div, abs_of_pos hT', div_le_iff₀ hT', ← Finset.sum_sub_distrib]
  refine (Finset.abs_sum_le_sum_abs _ _).trans ?_
  have : ∀ i ∈ Finset.range T, |x i ^ 2 - y i ^ 2| ≤ e * (2 + e) := by
    intro i hi
    have h1 := h i (Finset.mem_range.1 hi)
    have h2 := hy i (Finset.mem_range.1 hi)
    rw [show x i ^ 2 - y i ^ 2 = (x i - y i) * (2 * y i + (x i - y i)) by ring, abs_mul]
    have h3 : |2 * y i + (x i - y i)| ≤ 2 + e := by
      refine (abs_add_le _ _).trans (add_le_add ?_ h1)
      rw [abs_mul, abs_two]; linarith
    exact mul_le_mul h1 h3 (abs_nonneg _) ((abs_nonneg _).trans h1)
  refine (Finset.sum_le_sum this).trans ?_
  rw [Finset.sum_const, Finset.card_range, nsmul_eq_mul, mul_comm]

/-- The squares of `T` equidistant values from -1 to 1, in units of the distance. -/
theorem ramp_squares (ρ : ℝ) (T : ℝ) (n : ℕ) :
    ∑ j ∈ Finset.range n, (2 * (ρ + j) - T) ^ 2 =
      n * (2 * ρ - T) ^ 2 + 2 * (2 * ρ - T) * (n * (n - 1)) + 2 / 3 * ((n - 1) * n * (2 * n - 1)) := by
  induction n with
  | zero => simp
  | succ n ih => rw [Finset.sum_range_succ, ih]; push_cast; ring

/-- The mean square of a ramp from -1 to 1 sampled at `T` equidistant points is 1/3 up to `1/T^2`. -/
theorem ramp_mean_square {ρ : ℝ} (h0 : 0 ≤ ρ) (h1 : ρ ≤ 1) {T : ℕ} (hT : 0 < T) :
    |(∑ j ∈ Finset.range T, (2 * ((ρ + (j:ℝ)) / (T:ℝ)) - 1) ^ 2 : ℝ) / (T:ℝ) - 1 / 3| ≤ 1 / (T : ℝ) ^ 2 := by
  have hT' : (0:ℝ) < T := by exact_mod_cast hT
  have e : ∑ j ∈ Finset.range T, (2 * ((ρ + (j:ℝ)) / (T:ℝ)) - 1) ^ 2 = (∑ j ∈ Finset.range T, (2 * (ρ + j) - (T:ℝ)) ^ 2) / (T:ℝ) ^ 2 := by
    rw [Finset.sum_div]
    refine Finset.sum_congr rfl fun j _ => ?_
    field_simp
  have e2 : (∑ j ∈ Finset.range T, (2 * ((ρ + (j:ℝ)) / (T:ℝ)) - 1) ^ 2 : ℝ) / (T:ℝ) - 1 / 3 = ((2 * ρ - 1) ^ 2 - 1 / 3) / (T:ℝ) ^ 2 := by
    rw [e, ramp_squares]; field_simp; ring
  rw [e2, abs_div, abs_of_pos (by positivity : (0:ℝ) < (T:ℝ) ^ 2)]
  refine div_le_div_of_nonneg_right ?_ (by positivity)
  rw [abs_le]; constructor <;> nlinarith

section
variable {checks : Bool} {floor : F32 → F32} {rem : F32 → F32 → F32}

/-- C165: the power of a sawtooth over a period of `T` samples is 1/3, to within `1/T^2 + 2^-20`. -/
theorem C165_sawtooth (hrem : RemContract rem) (o : FunctionalOscillator SoftPhaseAccumulator) {sr : F32} (hw : o.wave = .sawtooth)
    (hc : o.acc.counter < 2 ^ 32) (hm : o.acc.minStep = u32MaxF / sr) {x : ℕ → F32} (hx : Plays checks floor rem o x) :
    |meanSquare (fun i => (x i).val) (period (phaseStep o.acc.freq sr)) - 1 / 3| ≤
      1 / (period (phaseStep o.acc.freq sr) : ℝ) ^ 2 + 1 / 2 ^ 20 := by
  set s := phaseStep o.acc.freq sr with hs
  set c := o.acc.counter + s + o.acc.shift with hcc
  have key := meanSquare_near (period_pos s) (x := fun i => ((x i).val : ℝ))
    (y := fun i => 2 * (((c + i * s) % 2 ^ 32 : ℕ) / 2 ^ 32 : ℝ) - 1) (e := 1 / 2 ^ 22) ?_ ?_
  rotate_left
  · intro i _
    obtain ⟨o', h1, h2, h3⟩ := plays (checks := checks) (floor := floor) hrem o hc hm i
    obtain ⟨o1, o2, g1, g2⟩ := hx i
    rw [h1] at g1; cases g1
    obtain ⟨o3, y, k1, -, k2⟩ := C70_saw checks floor rem o' (h2.trans hw)
    rw [g2] at k1; cases k1
    rw [h3] at k2
    have := (Rat.cast_le (K := ℝ)).2 k2
    push_cast at this
    exact_mod_cast this
  · intro i _
    have h1 : ((c + i * s) % 2 ^ 32 : ℕ) < 2 ^ 32 := Nat.mod_lt _ (by norm_num)
    have h2 : (((c + i * s) % 2 ^ 32 : ℕ) : ℝ) / 2 ^ 32 ≤ 1 := by
      rw [div_le_one (by norm_num)]; exact_mod_cast h1.le
    have h3 : (0:ℝ) ≤ (((c + i * s) % 2 ^ 32 : ℕ) : ℝ) / 2 ^ 32 := by positivity
    rw [abs_le]; constructor <;> linarith
  have hramp : |meanSquare (fun i => 2 * (((c + i * s) % 2 ^ 32 : ℕ) / 2 ^ 32 : ℝ) - 1) (period s) - 1 / 3| ≤ 1 / (period s : ℝ) ^ 2 := by
    unfold meanSquare
    rw [sum_phases c s (fun k => (2 * ((k : ℝ) / 2 ^ 32) - 1) ^ 2)]
    have g0 : 0 < Nat.gcd s (2 ^ 32) := Nat.gcd_pos_of_pos_right _ (by norm_num)
    have hT : period s * Nat.gcd s (2 ^ 32) = 2 ^ 32 := Nat.div_mul_cancel (Nat.gcd_dvd_right _ _)
    generalize Nat.gcd s (2 ^ 32) = g at *
    have hTr : (period s : ℝ) * g = 2 ^ 32 := by exact_mod_cast hT
    have g0' : (0:ℝ) < g := by exact_mod_cast g0
    have T0' : (0:ℝ) < period s := by exact_mod_cast period_pos s
    have e : ∀ j ∈ Finset.range (period s), (2 * (((c % g + j * g : ℕ) : ℝ) / 2 ^ 32) - 1) ^ 2 =
        (2 * ((((c % g : ℕ) : ℝ) / g + j) / period s) - 1) ^ 2 := by
      intro j _
      rw [← hTr]; push_cast; field_simp
    rw [Finset.sum_congr rfl e]
    refine ramp_mean_square (div_nonneg (Nat.cast_nonneg _) g0'.le) ?_ (period_pos s)
    rw [div_le_one g0']
    exact_mod_cast (Nat.mod_lt c g0).le
  have := abs_sub_le (meanSquare (fun i => ((x i).val : ℝ)) (period s))
    (meanSquare (fun i => 2 * (((c + i * s) % 2 ^ 32 : ℕ) / 2 ^ 32 : ℝ) - 1) (period s)) (1 / 3)
  refine this.trans ?_
  refine (add_le_add key hramp).trans ?_
  rw [add_comm]
  refine add_le_add le_rfl (by norm_num)

theorem idealTriangle_abs {t : ℚ} (h0 : 0 ≤ t) (h1 : t ≤ 1) : |idealTriangle t| ≤ 1 := by
  unfold idealTriangle
  split <;> (rw [abs_le]; constructor <;> linarith)

/-- Over a period, squares of a wave whose second half is the first half upside down add up to twice those of the first half. -/
theorem half_wave_squares {F : ℕ → ℝ} (hF : ∀ k < 2 ^ 31, F (k + 2 ^ 31) = -F k) (c : ℕ) {step M : ℕ} (hM : period step = 2 * M)
    (hg : M * Nat.gcd step (2 ^ 32) = 2 ^ 31) :
    ∑ i ∈ Finset.range (period step), F ((c + i * step) % 2 ^ 32) ^ 2 =
      2 * ∑ j ∈ Finset.range M, F (c % Nat.gcd step (2 ^ 32) + j * Nat.gcd step (2 ^ 32)) ^ 2 := by
  have g0 : 0 < Nat.gcd step (2 ^ 32) := Nat.gcd_pos_of_pos_right _ (by norm_num)
  rw [sum_phases c step (fun k => F k ^ 2), hM, two_mul M, Finset.sum_range_add, ← Finset.sum_add_distrib, Finset.mul_sum]
  refine Finset.sum_congr rfl fun j hj => ?_
  have hj := Finset.mem_range.1 hj
  have hr := Nat.mod_lt c g0
  have : c % Nat.gcd step (2 ^ 32) + j * Nat.gcd step (2 ^ 32) < 2 ^ 31 := by
    rw [← hg]; nlinarith
  rw [add_mul, hg, show c % Nat.gcd step (2 ^ 32) + (2 ^ 31 + j * Nat.gcd step (2 ^ 32)) =
    c % Nat.gcd step (2 ^ 32) + j * Nat.gcd step (2 ^ 32) + 2 ^ 31 by ring, hF _ this]
  ring

theorem triangle_half (k : ℕ) (hk : k < 2 ^ 31) :
    ((idealTriangle (((k + 2 ^ 31 : ℕ) : ℚ) / 2 ^ 32) : ℚ) : ℝ) = -((idealTriangle ((k : ℚ) / 2 ^ 32) : ℚ) : ℝ) := by
  have hk' : (k : ℚ) < 2 ^ 31 := by exact_mod_cast hk
  rw [← Rat.cast_neg]
  congr 1
  unfold idealTriangle
  have e : ((k + 2 ^ 31 : ℕ) : ℚ) / 2 ^ 32 = k / 2 ^ 32 + 1 / 2 := by push_cast; ring
  rw [e]
  have h1 : (k : ℚ) / 2 ^ 32 ≤ 1 / 2 := by rw [div_le_iff₀ (by norm_num)]; norm_num at hk' ⊢; linarith
  rw [if_pos h1]
  split
  · rename_i h2
    have : (k : ℚ) / 2 ^ 32 = 0 := le_antisymm (by linarith) (by positivity)
    rw [this]; norm_num
  · ring

/-- C165: the power of a triangle over a period of `T` samples is 1/3, to within `4/T^2 + 2^-18`. -/
theorem C165_triangle (hrem : RemContract rem) (o : FunctionalOscillator SoftPhaseAccumulator) {sr : F32} (hw : o.wave = .triangle)
    (hc : o.acc.counter < 2 ^ 32) (hm : o.acc.minStep = u32MaxF / sr) (h0 : 0 < phaseStep o.acc.freq sr) {x : ℕ → F32}
    (hx : Plays checks floor rem o x) :
    |meanSquare (fun i => (x i).val) (period (phaseStep o.acc.freq sr)) - 1 / 3| ≤
      4 / (period (phaseStep o.acc.freq sr) : ℝ) ^ 2 + 1 / 2 ^ 18 := by
  set s := phaseStep o.acc.freq sr with hs
  set c := o.acc.counter + s + o.acc.shift with hcc
  have key := meanSquare_near (period_pos s) (x := fun i => ((x i).val : ℝ))
    (y := fun i => ((idealTriangle ((((c + i * s) % 2 ^ 32 : ℕ) : ℚ) / 2 ^ 32) : ℚ) : ℝ)) (e := 1 / 2 ^ 20) ?_ ?_
  rotate_left
  · intro i _
    obtain ⟨o', h1, h2, h3⟩ := plays (checks := checks) (floor := floor) hrem o hc hm i
    obtain ⟨o1, o2, g1, g2⟩ := hx i
    rw [h1] at g1; cases g1
    obtain ⟨o3, y, k1, k2⟩ := C70_tri checks floor rem o' (h2.trans hw)
    rw [g2] at k1; cases k1
    rw [h3] at k2
    have := (Rat.cast_le (K := ℝ)).2 k2
    push_cast at this
    exact_mod_cast this
  · intro i _
    have h1 : ((c + i * s) % 2 ^ 32 : ℕ) < 2 ^ 32 := Nat.mod_lt _ (by norm_num)
    have h2 : (((c + i * s) % 2 ^ 32 : ℕ) : ℚ) / 2 ^ 32 ≤ 1 := by
      rw [div_le_one (by norm_num)]; exact_mod_cast h1.le
    have := (Rat.cast_le (K := ℝ)).2 (idealTriangle_abs (by positivity) h2)
    rw [Rat.cast_abs, Rat.cast_one] at this
    exact this
  obtain ⟨M, hM, hg⟩ := period_even h0 (phaseStep_lt _ _)
  have M0 : 0 < M := by have := period_pos s; omega
  have hramp : |meanSquare (fun i => ((idealTriangle ((((c + i * s) % 2 ^ 32 : ℕ) : ℚ) / 2 ^ 32) : ℚ) : ℝ)) (period s) - 1 / 3| ≤
      4 / (period s : ℝ) ^ 2 := by
    unfold meanSquare
    rw [half_wave_squares (F := fun k => ((idealTriangle ((k : ℚ) / 2 ^ 32) : ℚ) : ℝ)) triangle_half c hM hg]
    have g0 : 0 < Nat.gcd s (2 ^ 32) := Nat.gcd_pos_of_pos_right _ (by norm_num)
    generalize Nat.gcd s (2 ^ 32) = g at *
    have hTr : (M : ℝ) * g = 2 ^ 31 := by exact_mod_cast hg
    have g0' : (0:ℝ) < g := by exact_mod_cast g0
    have M0' : (0:ℝ) < M := by exact_mod_cast M0
    have e : ∀ j ∈ Finset.range M, ((idealTriangle (((c % g + j * g : ℕ) : ℚ) / 2 ^ 32) : ℚ) : ℝ) ^ 2 =
        (2 * ((((c % g : ℕ) : ℝ) / g + j) / M) - 1) ^ 2 := by
      intro j hj
      have hj := Finset.mem_range.1 hj
      have hr := Nat.mod_lt c g0
      have hlt : c % g + j * g < 2 ^ 31 := by
        rw [← hg]; nlinarith
      have hlt' : ((c % g + j * g : ℕ) : ℚ) < 2 ^ 31 := by exact_mod_cast hlt
      unfold idealTriangle
      rw [if_pos (by rw [div_le_iff₀ (by norm_num)]; norm_num at hlt' ⊢; linarith)]
      push_cast
      rw [show (4 * ((((c % g : ℕ) : ℝ) + j * g) / 2 ^ 32) - 1 : ℝ) = 2 * ((((c % g : ℕ) : ℝ) + j * g) / 2 ^ 31) - 1 by ring, ← hTr]
      congr 2
      field_simp
    rw [Finset.sum_congr rfl e, hM]
    have := ramp_mean_square (ρ := ((c % g : ℕ) : ℝ) / g) (div_nonneg (Nat.cast_nonneg _) g0'.le) (by
      rw [div_le_one g0']; exact_mod_cast (Nat.mod_lt c g0).le) M0
    push_cast
    rw [mul_div_mul_left _ _ two_ne_zero, show (4:ℝ) / (2 * M) ^ 2 = 1 / M ^ 2 by field_simp; norm_num]
    exact this
  have := abs_sub_le (meanSquare (fun i => ((x i).val : ℝ)) (period s))
    (meanSquare (fun i => ((idealTriangle ((((c + i * s) % 2 ^ 32 : ℕ) : ℚ) / 2 ^ 32) : ℚ) : ℝ)) (period s)) (1 / 3)
  refine this.trans ((add_le_add key hramp).trans ?_)
  rw [add_comm]
  refine add_le_add le_rfl (by norm_num)

/-- C165: the power of a sine over a period is 1/2, to within 0.001; at exactly half the sample rate (two samples a period) the phase
decides instead. -/
theorem C165_sine (hrem : RemContract rem) (o : FunctionalOscillator SoftPhaseAccumulator) {sr : F32} (hw : o.wave = .sine)
    (hc : o.acc.counter < 2 ^ 32) (hm : o.acc.minStep = u32MaxF / sr) (h0 : 0 < phaseStep o.acc.freq sr)
    (h2 : phaseStep o.acc.freq sr ≠ 2 ^ 31) {x : ℕ → F32} (hx : Plays checks floor rem o x) :
    |meanSquare (fun i => (x i).val) (period (phaseStep o.acc.freq sr)) - 1 / 2| ≤ 1 / 10 ^ 3 := by
  set s := phaseStep o.acc.freq sr with hs
  set c := o.acc.counter + s + o.acc.shift with hcc
  have key := meanSquare_near (period_pos s) (x := fun i => ((x i).val : ℝ))
    (y := fun i => Real.sin (2 * Real.pi * (((c + i * s) % 2 ^ 32 : ℕ) / 2 ^ 32))) (e := 4 / 10 ^ 4) ?_ ?_
  rotate_left
  · intro i _
    obtain ⟨o', h1, h2, h3⟩ := plays (checks := checks) (floor := floor) hrem o hc hm i
    obtain ⟨o1, o2, g1, g2⟩ := hx i
    rw [h1] at g1; cases g1
    obtain ⟨y, k1, -, -, -, k2⟩ := C95_sine_oscillator hrem checks floor o' (h2.trans hw)
    rw [g2] at k1; cases k1
    rw [h3] at k2
    exact k2
  · intro i _; exact Real.abs_sin_le_one _
  have hzero : ∑ i ∈ Finset.range (period s), Real.cos (2 * (2 * Real.pi * (((c + i * s) % 2 ^ 32 : ℕ) / 2 ^ 32))) = 0 := by
    obtain ⟨M, hM, hg⟩ := period_even h0 (phaseStep_lt _ _)
    have g0 : 0 < Nat.gcd s (2 ^ 32) := Nat.gcd_pos_of_pos_right _ (by norm_num)
    have hMK : ∃ K, M = 2 * K ∧ K * Nat.gcd s (2 ^ 32) = 2 ^ 30 := by
      have hd : M ∣ 2 ^ 31 := ⟨_, hg.symm⟩
      obtain ⟨k, -, hk⟩ := (Nat.dvd_prime_pow Nat.prime_two).1 hd
      rcases k with _ | k
      · exfalso
        rw [hk, pow_zero, one_mul] at hg
        obtain ⟨t, ht⟩ : (2:ℕ) ^ 31 ∣ s := by
          have := Nat.gcd_dvd_left s (2 ^ 32)
          rwa [hg] at this
        have := phaseStep_lt o.acc.freq sr
        rw [← hs] at this
        have h3 : t < 2 := by omega
        interval_cases t <;> omega
      · refine ⟨2 ^ k, by rw [hk]; ring, ?_⟩
        rw [hk, pow_succ] at hg
        rw [show (2:ℕ) ^ 31 = 2 ^ 30 * 2 by norm_num] at hg
        nlinarith
    obtain ⟨K, hK, hKg⟩ := hMK
    rw [sum_phases c s (fun k => Real.cos (2 * (2 * Real.pi * ((k : ℝ) / 2 ^ 32)))), hM, two_mul, Finset.sum_range_add, hK]
    have hhalf : ∀ j, Real.cos (2 * (2 * Real.pi * (((c % Nat.gcd s (2 ^ 32) + (K + j) * Nat.gcd s (2 ^ 32) : ℕ) : ℝ) / 2 ^ 32))) =
        -Real.cos (2 * (2 * Real.pi * (((c % Nat.gcd s (2 ^ 32) + j * Nat.gcd s (2 ^ 32) : ℕ) : ℝ) / 2 ^ 32))) := by
      intro j
      have : ((c % Nat.gcd s (2 ^ 32) + (K + j) * Nat.gcd s (2 ^ 32) : ℕ) : ℝ) =
          ((c % Nat.gcd s (2 ^ 32) + j * Nat.gcd s (2 ^ 32) : ℕ) : ℝ) + 2 ^ 30 := by
        rw [add_mul, hKg]; push_cast; ring
      rw [this, ← Real.cos_add_pi]
      congr 1
      ring
    have hblock : ∀ a : ℕ, ∑ j ∈ Finset.range (2 * K),
        Real.cos (2 * (2 * Real.pi * (((c % Nat.gcd s (2 ^ 32) + (a * K + j) * Nat.gcd s (2 ^ 32) : ℕ) : ℝ) / 2 ^ 32))) = 0 := by
      intro a
      rw [two_mul K, Finset.sum_range_add, ← Finset.sum_add_distrib]
      refine Finset.sum_eq_zero fun j _ => ?_
      rw [show a * K + (K + j) = K + (a * K + j) by ring, hhalf]
      ring
    have b0 := hblock 0
    have b2 := hblock 2
    simp only [zero_mul, zero_add] at b0
    rw [b0, b2, add_zero]
  have hpow : meanSquare (fun i => Real.sin (2 * Real.pi * (((c + i * s) % 2 ^ 32 : ℕ) / 2 ^ 32))) (period s) = 1 / 2 := by
    unfold meanSquare
    have T0' : (0:ℝ) < period s := by exact_mod_cast period_pos s
    rw [div_eq_iff T0'.ne']
    have e : ∀ i ∈ Finset.range (period s), Real.sin (2 * Real.pi * (((c + i * s) % 2 ^ 32 : ℕ) / 2 ^ 32)) ^ 2 =
        1 / 2 - Real.cos (2 * (2 * Real.pi * (((c + i * s) % 2 ^ 32 : ℕ) / 2 ^ 32))) / 2 := fun i _ => Real.sin_sq_eq_half_sub _
    rw [Finset.sum_congr rfl e, Finset.sum_sub_distrib, Finset.sum_const, Finset.card_range, nsmul_eq_mul, ← Finset.sum_div, hzero]
    ring
  rw [hpow] at key
  refine key.trans (by norm_num)

/-- C165: the power of a rectangle over a period of `T` samples is 1, to within `8/T + 2^-22`. -/
theorem C165_rectangle (hrem : RemContract rem) (hfl : FloorContract floor) (o : FunctionalOscillator SoftPhaseAccumulator) {sr : F32}
    (hw : o.wave = .rectangle) (hc : o.acc.counter < 2 ^ 32) (hm : o.acc.minStep = u32MaxF / sr) {x : ℕ → F32}
    (hx : Plays checks floor rem o x) :
    1 ≤ meanSquare (fun i => (x i).val) (period (phaseStep o.acc.freq sr)) ∧
    meanSquare (fun i => (x i).val) (period (phaseStep o.acc.freq sr)) ≤ 1 + 8 / period (phaseStep o.acc.freq sr) + 1 / 2 ^ 22 := by
  set s := phaseStep o.acc.freq sr with hs
  set c := o.acc.counter + s + o.acc.shift with hcc
  set E : ℕ → ℝ := fun k => 1 + if 2 ^ 32 - 128 ≤ k ∧ k < 2 ^ 32 - 128 + 128 then 8 else 0 with hE
  have hsq : ∀ i, ((x i).val : ℝ) ^ 2 = E ((c + i * s) % 2 ^ 32) := by
    intro i
    obtain ⟨o', h1, h2, h3⟩ := plays (checks := checks) (floor := floor) hrem o hc hm i
    obtain ⟨o1, o2, g1, g2⟩ := hx i
    rw [h1] at g1; cases g1
    set k := (c + i * s) % 2 ^ 32 with hk
    have h3 : o'.acc.nextValue.2 = k := h3
    have hk32 : k < 2 ^ 32 := Nat.mod_lt _ (by norm_num)
    by_cases hlast : 2 ^ 32 - 128 ≤ k
    · obtain ⟨o3, y, k1, k2⟩ := C69_actual checks rem hfl o' (h2.trans hw) (by omega)
      rw [g2] at k1; cases k1
      rw [k2]
      simp only [hE]
      rw [if_pos (by omega)]
      norm_num
    · obtain ⟨o3, y, k1, k2, -⟩ := C69_partial checks rem hfl o' (h2.trans hw) (by omega)
      rw [g2] at k1; cases k1
      simp only [hE]
      rw [if_neg (by omega)]
      rcases k2 with h | h
      · rw [h, litm1_val]; norm_num
      · rw [h, lit1_val]; norm_num
  have T0' : (0:ℝ) < period s := by exact_mod_cast period_pos s
  unfold meanSquare
  rw [Finset.sum_congr rfl fun i _ => hsq i, sum_phases c s E]
  set g := Nat.gcd s (2 ^ 32) with hg
  have g0 : 0 < g := Nat.gcd_pos_of_pos_right _ (by norm_num)
  have hT : period s * g = 2 ^ 32 := Nat.div_mul_cancel (Nat.gcd_dvd_right _ _)
  simp only [hE]
  rw [Finset.sum_add_distrib, ← Finset.sum_filter, Finset.sum_const, Finset.sum_const, nsmul_eq_mul, nsmul_eq_mul, Finset.card_range,
    mul_one]
  have w1 := window_count (c % g) g (period s) (2 ^ 32 - 128) 128 g0
  have hq : ((128 / g : ℕ) : ℝ) * 2 ^ 25 ≤ period s := by
    have : 128 / g * 2 ^ 25 ≤ period s := by
      have h1 : 128 / g * g ≤ 128 := Nat.div_mul_le_self _ _
      have h2 : 128 / g * 2 ^ 25 * g ≤ period s * g := by rw [hT]; nlinarith
      exact Nat.le_of_mul_le_mul_right h2 g0
    exact_mod_cast this
  have w1' := (Nat.cast_le (α := ℝ)).2 w1
  push_cast at w1'
  constructor
  · rw [le_div_iff₀ T0', one_mul]
    have : (0:ℝ) ≤ (({j ∈ Finset.range (period s) | 2 ^ 32 - 128 ≤ c % g + j * g ∧ c % g + j * g < 2 ^ 32 - 128 + 128}).card : ℝ) * 8 := by
      positivity
    linarith
  · rw [div_le_iff₀ T0', add_mul, add_mul, one_mul, div_mul_cancel₀ _ T0'.ne']
    have : ((128 / g : ℕ) : ℝ) * 8 ≤ 1 / 2 ^ 22 * period s := by
      rw [div_mul_eq_mul_div, one_mul, le_div_iff₀ (by norm_num)]
      norm_num at hq ⊢; linarith
    linarith

end

/-- At half the sample rate the power of a sine is what the phase makes it: two samples at the zeros, or two at the peaks. -/
example : phaseStep (lit 24000) (lit 48000) = 2 ^ 31 ∧ period (2 ^ 31) = 2 ∧
    (([0, 1].map fun i => ((runOsc true mmFloor mmRem ⟨SoftPhaseAccumulator.new (lit 24000) (lit 48000), .sine⟩
      (List.replicate i .next)).bind fun o => o.next true mmFloor mmRem).toOption.map (·.2)) = [some (lit 0), some (lit 0)]) ∧
    (([0, 1].map fun i => ((runOsc true mmFloor mmRem
      ⟨{ SoftPhaseAccumulator.new (lit 24000) (lit 48000) with shift := 2 ^ 30 }, .sine⟩
      (List.replicate i .next)).bind fun o => o.next true mmFloor mmRem).toOption.map (·.2)) ≠ [some (lit 0), some (lit 0)]) :=
  ⟨by decide +kernel, by decide +kernel, by decide +kernel, by decide +kernel⟩

/-- A sawtooth and a rectangle at a quarter of the sample rate: the mean squares of four samples are 3/8 and 1. -/
example : (([0, 1, 2, 3].map fun i => ((runOsc true mmFloor mmRem ⟨SoftPhaseAccumulator.new (lit 12000) (lit 48000), .sawtooth⟩
      (List.replicate i .next)).bind fun o => o.next true mmFloor mmRem).toOption.map (·.2.val ^ 2)) =
        [some (1 / 4), some 0, some (1 / 4), some 1]) ∧
    (([0, 1, 2, 3].map fun i => ((runOsc true mmFloor mmRem ⟨SoftPhaseAccumulator.new (lit 12000) (lit 48000), .rectangle⟩
      (List.replicate i .next)).bind fun o => o.next true mmFloor mmRem).toOption.map (·.2.val ^ 2)) =
        [some 1, some 1, some 1, some 1]) := ⟨by decide +kernel, by decide +kernel⟩

end Verif
