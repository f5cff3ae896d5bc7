import Verif.Props.Period
import Mathlib.Algebra.BigOperators.Field
import Mathlib.Analysis.SpecialFunctions.Complex.Circle

/-! # C173: the spectrum of the oscillators

The harmonics of each wave, measured over one period: what remains of the sound once the tone at `m` times the frequency is
turned to a standstill. -/

namespace Verif
open F32 FunctionalOscillator

/-- A point of the unit circle, given in turns. -/
noncomputable def spin (a : ℝ) : ℂ := Complex.exp ((2 * Real.pi * a : ℝ) * Complex.I)

theorem spin_add (a b : ℝ) : spin (a + b) = spin a * spin b := by
  unfold spin; rw [← Complex.exp_add]; congr 1; push_cast; ring
theorem spin_zero : spin 0 = 1 := by unfold spin; simp
theorem spin_norm (a : ℝ) : ‖spin a‖ = 1 := Complex.norm_exp_ofReal_mul_I _
theorem spin_ne (a : ℝ) : spin a ≠ 0 := Complex.exp_ne_zero _
theorem spin_nat_mul (n : ℕ) (a : ℝ) : spin (n * a) = spin a ^ n := by
  unfold spin; rw [← Complex.exp_nat_mul]; congr 1; push_cast; ring
theorem spin_int (n : ℤ) : spin n = 1 := by
  unfold spin
  rw [Complex.exp_eq_one_iff]
  exact ⟨n, by push_cast; ring⟩
theorem spin_eq_one {a : ℝ} : spin a = 1 ↔ ∃ n : ℤ, a = n := by
  constructor
  · intro h
    unfold spin at h
    rw [Complex.exp_eq_one_iff] at h
    obtain ⟨n, hn⟩ := h
    refine ⟨n, ?_⟩
    have h2 : (2 * (Real.pi:ℂ) * Complex.I) ≠ 0 := by simp [Real.pi_ne_zero]
    have : (a : ℂ) = (n : ℂ) := by
      apply mul_left_cancel₀ h2
      push_cast at hn
      linear_combination hn
    exact_mod_cast this
  · rintro ⟨n, rfl⟩; exact spin_int n
theorem spin_half : spin (1 / 2) = -1 := by
  unfold spin
  rw [show (2 * Real.pi * (1 / 2) : ℝ) = Real.pi by ring, Complex.exp_pi_mul_I]
theorem spin_conj (a : ℝ) : (starRingEnd ℂ) (spin a) = spin (-a) := by
  unfold spin
  rw [← Complex.exp_conj]
  congr 1
  rw [map_mul, Complex.conj_I, Complex.conj_ofReal]
  push_cast; ring
theorem spin_sub_one (a : ℝ) : ‖spin a - 1‖ = 2 * |Real.sin (Real.pi * a)| := by
  unfold spin
  rw [mul_comm, Complex.norm_exp_I_mul_ofReal_sub_one, Real.norm_eq_abs, abs_mul, abs_two]
  congr 3
  ring

/-- Specification: the `m`-th harmonic of a sound whose phase advances by `step` units of `2^-32` turn per sample, over one period. -/
noncomputable def harmonic (x : ℕ → ℝ) (step : ℕ) (m : ℤ) : ℂ :=
  (∑ i ∈ Finset.range (period step), (x i : ℂ) * spin (-(m * (i * step / 2 ^ 32)))) / period step

/-- Sounds close to each other on average have close harmonics. -/
theorem harmonic_near {x y e : ℕ → ℝ} {step : ℕ} (h : ∀ i, |x i - y i| ≤ e i) (m : ℤ) :
    ‖harmonic x step m - harmonic y step m‖ ≤ (∑ i ∈ Finset.range (period step), e i) / period step := by
  have T0 : (0:ℝ) < period step := by exact_mod_cast period_pos step
  unfold harmonic
  rw [← sub_div, ← Finset.sum_sub_distrib, norm_div, Complex.norm_natCast]
  refine div_le_div_of_nonneg_right ((norm_sum_le _ _).trans (Finset.sum_le_sum fun i _ => ?_)) T0.le
  rw [← sub_mul, norm_mul, spin_norm, mul_one, ← Complex.ofReal_sub, Complex.norm_real]
  exact h i

theorem harmonic_near' {x y : ℕ → ℝ} {step : ℕ} {e : ℝ} (h : ∀ i, |x i - y i| ≤ e) (m : ℤ) :
    ‖harmonic x step m - harmonic y step m‖ ≤ e := by
  refine (harmonic_near h m).trans ?_
  have T0 : (0:ℝ) < period step := by exact_mod_cast period_pos step
  rw [Finset.sum_const, Finset.card_range, nsmul_eq_mul, mul_comm, mul_div_assoc, div_self T0.ne', mul_one]

/-- The points a wave is sampled at in one period, and the factor from one to the next. -/
theorem harmonic_wave (F : ℕ → ℝ) (c step : ℕ) (m : ℤ) :
    harmonic (fun i => F ((c + i * step) % 2 ^ 32)) step m =
      spin (m * c / 2 ^ 32 - m * (c % Nat.gcd step (2 ^ 32) : ℕ) / 2 ^ 32) *
      (∑ j ∈ Finset.range (period step), (F (c % Nat.gcd step (2 ^ 32) + j * Nat.gcd step (2 ^ 32)) : ℂ) *
        spin (-(m / period step)) ^ j) / period step := by
  set g := Nat.gcd step (2 ^ 32) with hg
  have g0 : 0 < g := Nat.gcd_pos_of_pos_right _ (by norm_num)
  have hT : period step * g = 2 ^ 32 := Nat.div_mul_cancel (Nat.gcd_dvd_right _ _)
  have hTr : (period step : ℝ) * g = 2 ^ 32 := by exact_mod_cast hT
  have T0 : (0:ℝ) < period step := by exact_mod_cast period_pos step
  unfold harmonic
  congr 1
  show ∑ i ∈ Finset.range (period step), (F ((c + i * step) % 2 ^ 32) : ℂ) * spin (-(m * (i * step / 2 ^ 32))) = _
  have e1 : ∀ i ∈ Finset.range (period step), (F ((c + i * step) % 2 ^ 32) : ℂ) * spin (-(m * (i * step / 2 ^ 32))) =
      spin (m * c / 2 ^ 32) * ((fun k : ℕ => (F k : ℂ) * spin (-(m * k / 2 ^ 32))) ((c + i * step) % 2 ^ 32)) := by
    intro i _
    have hk : (c : ℝ) + i * step = ((c + i * step) % 2 ^ 32 : ℕ) + 2 ^ 32 * ((c + i * step) / 2 ^ 32 : ℕ) := by
      exact_mod_cast (Nat.mod_add_div (c + i * step) (2 ^ 32)).symm
    generalize (c + i * step) % 2 ^ 32 = k at *
    generalize (c + i * step) / 2 ^ 32 = q at *
    have : -(m * ((i : ℝ) * step / 2 ^ 32)) = m * c / 2 ^ 32 + -(m * k / 2 ^ 32) + ((-(m * (q : ℤ)) : ℤ) : ℝ) := by
      rw [show (i : ℝ) * step = k + 2 ^ 32 * q - c by linarith]
      push_cast; ring
    rw [this, spin_add, spin_int, spin_add]
    ring
  have e2 : ∀ j ∈ Finset.range (period step), (F (c % g + j * g) : ℂ) * spin (-(m * (c % g + j * g : ℕ) / 2 ^ 32)) =
      spin (-(m * (c % g : ℕ) / 2 ^ 32)) * ((F (c % g + j * g) : ℂ) * spin (-(m / period step)) ^ j) := by
    intro j _
    have : -((m:ℝ) * (c % g + j * g : ℕ) / 2 ^ 32) = -(m * (c % g : ℕ) / 2 ^ 32) + j * -(m / period step) := by
      rw [← hTr]
      push_cast
      have : (g:ℝ) ≠ 0 := by exact_mod_cast g0.ne'
      field_simp
      ring
    rw [this, spin_add, spin_nat_mul]
    ring
  rw [Finset.sum_congr rfl e1, ← Finset.mul_sum,
    sum_phases (R := ℂ) c step (fun k : ℕ => (F k : ℂ) * spin (-(m * k / 2 ^ 32))), ← hg, Finset.sum_congr rfl e2, ← Finset.mul_sum,
    sub_eq_add_neg, spin_add, mul_assoc]

theorem harmonic_norm (F : ℕ → ℝ) (c step : ℕ) (m : ℤ) :
    ‖harmonic (fun i => F ((c + i * step) % 2 ^ 32)) step m‖ =
      ‖∑ j ∈ Finset.range (period step), (F (c % Nat.gcd step (2 ^ 32) + j * Nat.gcd step (2 ^ 32)) : ℂ) *
        spin (-(m / period step)) ^ j‖ / period step := by
  rw [harmonic_wave, norm_div, norm_mul, spin_norm, one_mul, Complex.norm_natCast]

section
variable {step : ℕ} {m : ℤ}

theorem root_period : spin (-(m / period step)) ^ period step = 1 := by
  have T0 : (period step : ℝ) ≠ 0 := by exact_mod_cast (period_pos step).ne'
  rw [← spin_nat_mul, show (period step : ℝ) * -(m / period step) = ((-m : ℤ) : ℝ) by push_cast; field_simp, spin_int]

theorem root_ne_one (h : ¬ (period step : ℤ) ∣ m) : spin (-(m / period step)) ≠ 1 := by
  intro h1
  obtain ⟨n, hn⟩ := spin_eq_one.1 h1
  have T0 : (period step : ℝ) ≠ 0 := by exact_mod_cast (period_pos step).ne'
  apply h
  refine ⟨-n, ?_⟩
  have : (m : ℝ) = period step * -n := by rw [← hn]; field_simp
  exact_mod_cast this

theorem root_eq_one (h : (period step : ℤ) ∣ m) : spin (-(m / period step)) = 1 := by
  obtain ⟨n, rfl⟩ := h
  have T0 : (period step : ℝ) ≠ 0 := by exact_mod_cast (period_pos step).ne'
  rw [show -(((period step * n : ℤ) : ℝ) / period step) = ((-n : ℤ) : ℝ) by push_cast; field_simp, spin_int]

theorem root_norm : ‖spin (-(m / period step)) - 1‖ = 2 * |Real.sin (Real.pi * (m / period step))| := by
  rw [spin_sub_one, mul_neg, Real.sin_neg, abs_neg]

theorem root_half {M : ℕ} (hM : period step = 2 * M) (hm : Odd m) : spin (-(m / period step)) ^ M = -1 := by
  have M0 : (M : ℝ) ≠ 0 := by
    have := period_pos step
    have : M ≠ 0 := by omega
    exact_mod_cast this
  obtain ⟨k, rfl⟩ := hm
  rw [← spin_nat_mul, hM, show (M : ℝ) * -(((2 * k + 1 : ℤ) : ℝ) / ((2 * M : ℕ) : ℝ)) = ((-k - 1 : ℤ) : ℝ) + 1 / 2 by
    push_cast; field_simp; ring, spin_add, spin_int, spin_half, one_mul]

theorem root_half_even {M : ℕ} (hM : period step = 2 * M) (hm : Even m) : spin (-(m / period step)) ^ M = 1 := by
  have M0 : (M : ℝ) ≠ 0 := by
    have := period_pos step
    have : M ≠ 0 := by omega
    exact_mod_cast this
  obtain ⟨k, rfl⟩ := hm
  rw [← spin_nat_mul, hM, show (M : ℝ) * -(((k + k : ℤ) : ℝ) / ((2 * M : ℕ) : ℝ)) = ((-k : ℤ) : ℝ) by
    push_cast; field_simp; ring, spin_int]

end

/-- The weighted geometric sum. -/
theorem weighted_geom (w : ℂ) (n : ℕ) :
    (∑ j ∈ Finset.range n, (j : ℂ) * w ^ j) * (w - 1) ^ 2 = n * w ^ n * (w - 1) - w * (w ^ n - 1) := by
  induction n with
  | zero => simp
  | succ n ih => rw [Finset.sum_range_succ, add_mul, ih]; push_cast; ring

/-- The harmonics of an ideal ramp from -1 to 1 over one period of `T` samples have size `1 / (T sin(π m / T))`. -/
theorem ramp_harmonic (c step : ℕ) {m : ℤ} (h : ¬ (period step : ℤ) ∣ m) :
    ‖harmonic (fun i => 2 * (((c + i * step) % 2 ^ 32 : ℕ) / 2 ^ 32 : ℝ) - 1) step m‖ =
      1 / (period step * |Real.sin (Real.pi * (m / period step))|) := by
  rw [harmonic_norm (fun k => 2 * ((k : ℝ) / 2 ^ 32) - 1)]
  set g := Nat.gcd step (2 ^ 32) with hg
  have g0 : 0 < g := Nat.gcd_pos_of_pos_right _ (by norm_num)
  have hT : period step * g = 2 ^ 32 := Nat.div_mul_cancel (Nat.gcd_dvd_right _ _)
  have hTr : (period step : ℂ) * g = 2 ^ 32 := by exact_mod_cast hT
  have T0 : (0:ℝ) < period step := by exact_mod_cast period_pos step
  have T0c : (period step : ℂ) ≠ 0 := by exact_mod_cast (period_pos step).ne'
  have g0c : (g : ℂ) ≠ 0 := by exact_mod_cast g0.ne'
  have hw := root_ne_one h
  have hp := root_period (step := step) (m := m)
  have hn := root_norm (step := step) (m := m)
  generalize spin (-(m / period step)) = w at *
  have hw' : w - 1 ≠ 0 := sub_ne_zero.2 hw
  have s0 : ∑ j ∈ Finset.range (period step), w ^ j = 0 := by
    have := geom_sum_mul w (period step)
    rw [hp, sub_self] at this
    exact (mul_eq_zero.1 this).resolve_right hw'
  have s1 : ∑ j ∈ Finset.range (period step), (j : ℂ) * w ^ j = period step / (w - 1) := by
    have := weighted_geom w (period step)
    rw [hp] at this
    rw [eq_div_iff hw']
    apply mul_right_cancel₀ hw'
    linear_combination this
  have e : ∀ j ∈ Finset.range (period step), ((2 * (((c % g + j * g : ℕ) : ℝ) / 2 ^ 32) - 1 : ℝ) : ℂ) * w ^ j =
      (2 * ((c % g : ℕ) : ℂ) / 2 ^ 32 - 1) * w ^ j + 2 / period step * (j * w ^ j) := by
    intro j _
    push_cast
    rw [← hTr]
    field_simp
    ring
  rw [Finset.sum_congr rfl e, Finset.sum_add_distrib, ← Finset.mul_sum, ← Finset.mul_sum, s0, s1, mul_zero, zero_add,
    show (2 : ℂ) / period step * (period step / (w - 1)) = 2 / (w - 1) by field_simp, norm_div, hn]
  simp only [Complex.norm_ofNat]
  rw [div_div, mul_comm (2 * _), mul_left_comm, mul_comm (2:ℝ), ← div_div, div_right_comm, div_self two_ne_zero]

/-- A wave whose second half is the first half upside down. -/
theorem half_wave_harmonic {F : ℕ → ℝ} (hF : ∀ k < 2 ^ 31, F (k + 2 ^ 31) = -F k) (c : ℕ) {step M : ℕ} (hM : period step = 2 * M)
    (hg : M * Nat.gcd step (2 ^ 32) = 2 ^ 31) (w : ℂ) :
    ∑ j ∈ Finset.range (period step), (F (c % Nat.gcd step (2 ^ 32) + j * Nat.gcd step (2 ^ 32)) : ℂ) * w ^ j =
      (1 - w ^ M) * ∑ j ∈ Finset.range M, (F (c % Nat.gcd step (2 ^ 32) + j * Nat.gcd step (2 ^ 32)) : ℂ) * w ^ j := by
  have g0 : 0 < Nat.gcd step (2 ^ 32) := Nat.gcd_pos_of_pos_right _ (by norm_num)
  rw [hM, two_mul, Finset.sum_range_add, sub_mul, one_mul, sub_eq_add_neg, Finset.mul_sum, ← Finset.sum_neg_distrib]
  congr 1
  refine Finset.sum_congr rfl fun j hj => ?_
  have hj := Finset.mem_range.1 hj
  have hr := Nat.mod_lt c g0
  have : c % Nat.gcd step (2 ^ 32) + j * Nat.gcd step (2 ^ 32) < 2 ^ 31 := by
    rw [← hg]; nlinarith
  rw [add_mul, hg, show c % Nat.gcd step (2 ^ 32) + (2 ^ 31 + j * Nat.gcd step (2 ^ 32)) =
    c % Nat.gcd step (2 ^ 32) + j * Nat.gcd step (2 ^ 32) + 2 ^ 31 by ring, hF _ this, pow_add]
  push_cast
  ring

section
variable {step : ℕ} {m : ℤ}

theorem even_harmonic_zero {F : ℕ → ℝ} (hF : ∀ k < 2 ^ 31, F (k + 2 ^ 31) = -F k) (c : ℕ) (h0 : 0 < step) (h1 : step < 2 ^ 32) (hm : Even m) :
    harmonic (fun i => F ((c + i * step) % 2 ^ 32)) step m = 0 := by
  obtain ⟨M, hM, hg⟩ := period_even h0 h1
  rw [← norm_eq_zero, harmonic_norm, half_wave_harmonic hF c hM hg, root_half_even hM hm, sub_self, zero_mul, norm_zero, zero_div]

theorem odd_not_dvd {M : ℕ} (hM : period step = 2 * M) (hm : Odd m) : ¬ (period step : ℤ) ∣ m := by
  intro h
  rw [hM] at h
  have h2 : (2 : ℤ) ∣ m := (Dvd.intro (M : ℤ) (by push_cast; ring)).trans h
  rw [Int.odd_iff] at hm
  omega

/-- What enters the odd harmonics. -/
theorem odd_harmonic_norm {F : ℕ → ℝ} (hF : ∀ k < 2 ^ 31, F (k + 2 ^ 31) = -F k) (c : ℕ) {M : ℕ} (hM : period step = 2 * M)
    (hg : M * Nat.gcd step (2 ^ 32) = 2 ^ 31) (hm : Odd m) :
    ‖harmonic (fun i => F ((c + i * step) % 2 ^ 32)) step m‖ =
      2 * ‖∑ j ∈ Finset.range M, (F (c % Nat.gcd step (2 ^ 32) + j * Nat.gcd step (2 ^ 32)) : ℂ) * spin (-(m / period step)) ^ j‖ /
        period step := by
  rw [harmonic_norm, half_wave_harmonic hF c hM hg, root_half hM hm, norm_mul]
  norm_num

/-- Specification: a rectangle, by the phase in units of `2^-32` turn. -/
def idealRect (k : ℕ) : ℝ := if k < 2 ^ 31 then -1 else 1

theorem idealRect_half_wave (k : ℕ) (hk : k < 2 ^ 31) : idealRect (k + 2 ^ 31) = -idealRect k := by
  unfold idealRect
  rw [if_neg (by omega), if_pos hk]; norm_num

theorem rect_harmonic (c : ℕ) (h0 : 0 < step) (h1 : step < 2 ^ 32) (hm : Odd m) :
    ‖harmonic (fun i => idealRect ((c + i * step) % 2 ^ 32)) step m‖ =
      2 / (period step * |Real.sin (Real.pi * (m / period step))|) := by
  obtain ⟨M, hM, hg⟩ := period_even h0 h1
  rw [odd_harmonic_norm idealRect_half_wave c hM hg hm]
  have g0 : 0 < Nat.gcd step (2 ^ 32) := Nat.gcd_pos_of_pos_right _ (by norm_num)
  have hr := Nat.mod_lt c g0
  have e : ∀ j ∈ Finset.range M, (idealRect (c % Nat.gcd step (2 ^ 32) + j * Nat.gcd step (2 ^ 32)) : ℂ) *
      spin (-(m / period step)) ^ j = -(spin (-(m / period step)) ^ j) := by
    intro j hj
    have hj := Finset.mem_range.1 hj
    have hlt : c % Nat.gcd step (2 ^ 32) + j * Nat.gcd step (2 ^ 32) < 2 ^ 31 := by rw [← hg]; nlinarith
    rw [idealRect, if_pos hlt]
    push_cast; ring
  rw [Finset.sum_congr rfl e, Finset.sum_neg_distrib, norm_neg]
  have hw := root_ne_one (odd_not_dvd hM hm)
  have hn := root_norm (step := step) (m := m)
  have hp := root_half hM hm
  have T0 : (0:ℝ) < period step := by exact_mod_cast period_pos step
  generalize spin (-(m / period step)) = w at *
  have hw' : w - 1 ≠ 0 := sub_ne_zero.2 hw
  have s0 : ∑ j ∈ Finset.range M, w ^ j = -2 / (w - 1) := by
    have := geom_sum_mul w M
    rw [hp] at this
    rw [eq_div_iff hw', this]; norm_num
  rw [s0, norm_div, hn]
  norm_num
  rw [← mul_div_assoc, mul_div_mul_left _ _ two_ne_zero, div_div, mul_comm (period step : ℝ)]

/-- The ideal triangle: the odd harmonics, up to where the corners fall between the samples. -/
theorem tri_harmonic (c : ℕ) (h0 : 0 < step) (h1 : step < 2 ^ 32) (hm : Odd m) :
    4 * |Real.cos (Real.pi * (m / period step))| / (period step * |Real.sin (Real.pi * (m / period step))|) ^ 2 ≤
      ‖harmonic (fun i => ((idealTriangle ((((c + i * step) % 2 ^ 32 : ℕ) : ℚ) / 2 ^ 32) : ℚ) : ℝ)) step m‖ ∧
    ‖harmonic (fun i => ((idealTriangle ((((c + i * step) % 2 ^ 32 : ℕ) : ℚ) / 2 ^ 32) : ℚ) : ℝ)) step m‖ ≤
      4 / (period step * |Real.sin (Real.pi * (m / period step))|) ^ 2 := by
  obtain ⟨M, hM, hg⟩ := period_even h0 h1
  rw [odd_harmonic_norm (F := fun k => ((idealTriangle ((k : ℚ) / 2 ^ 32) : ℚ) : ℝ)) ideal_half_wave c hM hg hm]
  set g := Nat.gcd step (2 ^ 32) with hgg
  have g0 : 0 < g := Nat.gcd_pos_of_pos_right _ (by norm_num)
  have hr := Nat.mod_lt c g0
  have hT : period step * g = 2 ^ 32 := Nat.div_mul_cancel (Nat.gcd_dvd_right _ _)
  have hTr : (period step : ℂ) * g = 2 ^ 32 := by exact_mod_cast hT
  have T0 : (0:ℝ) < period step := by exact_mod_cast period_pos step
  have T0c : (period step : ℂ) ≠ 0 := by exact_mod_cast (period_pos step).ne'
  have g0c : (g : ℂ) ≠ 0 := by exact_mod_cast g0.ne'
  have g0r : (0:ℝ) < g := by exact_mod_cast g0
  have hMc : (period step : ℂ) = 2 * M := by exact_mod_cast hM
  obtain ⟨ρ, hρ⟩ : ∃ ρ : ℝ, ρ = ((c % g : ℕ) : ℝ) / g := ⟨_, rfl⟩
  have ρ0 : 0 ≤ ρ := by rw [hρ]; positivity
  have ρ1 : ρ ≤ 1 := by rw [hρ, div_le_one g0r]; exact_mod_cast hr.le
  have hρc : ((c % g : ℕ) : ℂ) = ρ * g := by rw [hρ]; push_cast; field_simp
  have hw := root_ne_one (odd_not_dvd hM hm)
  have hn := root_norm (step := step) (m := m)
  have hp := root_half hM hm
  have hone : ‖spin (-(m / period step))‖ = 1 := spin_norm _
  have hcos : ‖spin (-(m / period step)) + 1‖ = 2 * |Real.cos (Real.pi * (m / period step))| := by
    have : spin (-(m / period step)) + 1 = -(spin (-(m / period step) + 1 / 2) - 1) := by rw [spin_add, spin_half]; ring
    rw [this, norm_neg, spin_sub_one, mul_add, show Real.pi * (1 / 2) = Real.pi / 2 by ring, Real.sin_add_pi_div_two, mul_neg, Real.cos_neg]
  have e : ∀ j ∈ Finset.range M, (((idealTriangle (((c % g + j * g : ℕ) : ℚ) / 2 ^ 32) : ℚ) : ℝ) : ℂ) * spin (-(m / period step)) ^ j =
      (4 * ρ / period step - 1) * spin (-(m / period step)) ^ j + 4 / period step * (j * spin (-(m / period step)) ^ j) := by
    intro j hj
    have hj := Finset.mem_range.1 hj
    have hlt : c % g + j * g < 2 ^ 31 := by rw [← hg]; nlinarith
    have hle : ((c % g + j * g : ℕ) : ℚ) / 2 ^ 32 ≤ 1 / 2 := by
      rw [div_le_iff₀ (by norm_num)]
      have : ((c % g + j * g : ℕ) : ℚ) < ((2 ^ 31 : ℕ) : ℚ) := by exact_mod_cast hlt
      refine this.le.trans ?_
      norm_num
    unfold idealTriangle
    rw [if_pos hle]
    push_cast
    rw [hρc, ← hTr]
    field_simp
    ring
  rw [Finset.sum_congr rfl e, Finset.sum_add_distrib, ← Finset.mul_sum, ← Finset.mul_sum]
  generalize spin (-(m / period step)) = w at *
  have hw' : w - 1 ≠ 0 := sub_ne_zero.2 hw
  have s0 : ∑ j ∈ Finset.range M, w ^ j = -2 / (w - 1) := by
    have := geom_sum_mul w M
    rw [hp] at this
    rw [eq_div_iff hw', this]; norm_num
  have s1 : ∑ j ∈ Finset.range M, (j : ℂ) * w ^ j = (-M * (w - 1) + 2 * w) / (w - 1) ^ 2 := by
    have := weighted_geom w M
    rw [hp] at this
    rw [eq_div_iff (pow_ne_zero 2 hw')]
    linear_combination this
  have e2 : (4 * (ρ:ℂ) / period step - 1) * (-2 / (w - 1)) + 4 / period step * ((-M * (w - 1) + 2 * w) / (w - 1) ^ 2) =
      8 * ((1 - ρ) * w + ρ) / (period step * (w - 1) ^ 2) := by
    have hMh : (M : ℂ) = period step / 2 := by rw [hMc]; ring
    rw [hMh]
    field_simp
    ring
  rw [s0, s1, e2, norm_div, norm_mul, norm_mul, norm_pow, hn, Complex.norm_natCast]
  simp only [Complex.norm_ofNat]
  set S := |Real.sin (Real.pi * (m / period step))| with hS
  have S0 : 0 < S := by
    have : 0 < ‖w - 1‖ := norm_pos_iff.2 hw'
    rw [hn] at this; linarith
  have e3 : 2 * (8 * ‖(1 - (ρ:ℂ)) * w + ρ‖ / (period step * (2 * S) ^ 2)) / period step = 4 * ‖(1 - (ρ:ℂ)) * w + ρ‖ / (period step * S) ^ 2 := by
    field_simp
    ring
  rw [e3]
  constructor
  · refine div_le_div_of_nonneg_right (mul_le_mul_of_nonneg_left ?_ (by norm_num)) (by positivity)
    have h2 : (2 * |Real.cos (Real.pi * (m / period step))|) ^ 2 ≤ (2 * ‖(1 - (ρ:ℂ)) * w + ρ‖) ^ 2 := by
      rw [← hcos, mul_pow, ← Complex.normSq_eq_norm_sq, ← Complex.normSq_eq_norm_sq]
      have hq : w.re * w.re + w.im * w.im = 1 := by
        have := Complex.normSq_eq_norm_sq w
        rw [hone, Complex.normSq_apply] at this
        linarith
      rw [Complex.normSq_apply, Complex.normSq_apply]
      simp
      nlinarith [mul_nonneg (sq_nonneg (1 - 2 * ρ)) (show 0 ≤ 1 - w.re by nlinarith [sq_nonneg w.im])]
    have := (sq_le_sq₀ (by positivity) (by positivity)).1 h2
    linarith
  · refine div_le_div_of_nonneg_right ?_ (by positivity)
    have : ‖(1 - (ρ:ℂ)) * w + ρ‖ ≤ 1 := by
      refine (norm_add_le _ _).trans ?_
      rw [norm_mul, hone, mul_one, ← Complex.ofReal_one, ← Complex.ofReal_sub, Complex.norm_real, Complex.norm_real, Real.norm_eq_abs,
        Real.norm_eq_abs, abs_of_nonneg ρ0, abs_of_nonneg (by linarith)]
      linarith
    linarith

/-- Sums of the powers of a root of unity. -/
theorem root_sum : ∑ j ∈ Finset.range (period step), spin (-(m / period step)) ^ j = if (period step : ℤ) ∣ m then (period step : ℂ) else 0 := by
  split
  · rename_i h
    rw [root_eq_one h]; simp
  · rename_i h
    have hw' : spin (-(m / period step)) - 1 ≠ 0 := sub_ne_zero.2 (root_ne_one h)
    have := geom_sum_mul (spin (-(m / period step))) (period step)
    rw [root_period, sub_self] at this
    exact (mul_eq_zero.1 this).resolve_right hw'

theorem sine_spin (a : ℝ) : ((Real.sin (2 * Real.pi * a) : ℝ) : ℂ) = (spin a - spin (-a)) / (2 * Complex.I) := by
  unfold spin
  rw [Complex.ofReal_sin, Complex.sin]
  have : Complex.I ≠ 0 := Complex.I_ne_zero
  push_cast
  field_simp
  rw [Complex.I_sq]
  ring_nf

/-- The ideal sine has nothing but its fundamental. -/
theorem sine_harmonic (c : ℕ) :
    ‖harmonic (fun i => Real.sin (2 * Real.pi * (((c + i * step) % 2 ^ 32 : ℕ) / 2 ^ 32))) step m‖ =
      ‖(if (period step : ℤ) ∣ m - 1 then spin ((c % Nat.gcd step (2 ^ 32) : ℕ) / 2 ^ 32) else 0) -
        (if (period step : ℤ) ∣ m + 1 then spin (-((c % Nat.gcd step (2 ^ 32) : ℕ) / 2 ^ 32)) else 0)‖ / 2 := by
  rw [harmonic_norm (fun k => Real.sin (2 * Real.pi * ((k : ℝ) / 2 ^ 32)))]
  set g := Nat.gcd step (2 ^ 32) with hg
  have g0 : 0 < g := Nat.gcd_pos_of_pos_right _ (by norm_num)
  have hT : period step * g = 2 ^ 32 := Nat.div_mul_cancel (Nat.gcd_dvd_right _ _)
  have hTr : (period step : ℝ) * g = 2 ^ 32 := by exact_mod_cast hT
  have g0r : (g : ℝ) ≠ 0 := by exact_mod_cast g0.ne'
  have T0 : (0:ℝ) < period step := by exact_mod_cast period_pos step
  have T0c : (period step : ℂ) ≠ 0 := by exact_mod_cast (period_pos step).ne'
  obtain ⟨a, ha⟩ : ∃ a : ℝ, a = (c % g : ℕ) / 2 ^ 32 := ⟨_, rfl⟩
  rw [← ha]
  have e : ∀ j ∈ Finset.range (period step), ((Real.sin (2 * Real.pi * (((c % g + j * g : ℕ) : ℝ) / 2 ^ 32)) : ℝ) : ℂ) *
      spin (-(m / period step)) ^ j =
      (spin a * spin (-(((m - 1 : ℤ) : ℝ) / period step)) ^ j - spin (-a) * spin (-(((m + 1 : ℤ) : ℝ) / period step)) ^ j) /
        (2 * Complex.I) := by
    intro j _
    have h1 : ((c % g + j * g : ℕ) : ℝ) / 2 ^ 32 = a + j * (1 / period step) := by
      rw [ha, ← hTr]; push_cast; field_simp
    rw [h1, sine_spin, neg_add, spin_add, spin_add, ← mul_neg, spin_nat_mul, spin_nat_mul,
      show -(((m - 1 : ℤ) : ℝ) / period step) = 1 / period step + -(m / period step) by push_cast; ring,
      show -(((m + 1 : ℤ) : ℝ) / period step) = -(1 / period step) + -(m / period step) by push_cast; ring, spin_add, spin_add, mul_pow, mul_pow]
    ring
  rw [Finset.sum_congr rfl e, ← Finset.sum_div, Finset.sum_sub_distrib, ← Finset.mul_sum, ← Finset.mul_sum, root_sum, root_sum]
  have : (spin a * (if (period step : ℤ) ∣ m - 1 then (period step : ℂ) else 0) -
      spin (-a) * (if (period step : ℤ) ∣ m + 1 then (period step : ℂ) else 0)) =
      ((if (period step : ℤ) ∣ m - 1 then spin a else 0) - (if (period step : ℤ) ∣ m + 1 then spin (-a) else 0)) * period step := by
    split <;> split <;> ring
  rw [this, norm_div, norm_mul, norm_mul, Complex.norm_I, Complex.norm_natCast]
  simp only [Complex.norm_ofNat]
  field_simp

end

/-! ## C173 -/

section
variable {checks : Bool} {floor : F32 → F32} {rem : F32 → F32 → F32}

/-- C173: a sawtooth has all harmonics, the `m`-th of size `1 / (T sin(π m / T))`, to within `2^-22`. -/
theorem C173_sawtooth (hrem : RemContract rem) (o : FunctionalOscillator SoftPhaseAccumulator) {sr : F32} (hw : o.wave = .sawtooth)
    (hc : o.acc.counter < 2 ^ 32) (hm : o.acc.minStep = u32MaxF / sr) {x : ℕ → F32} (hx : Plays checks floor rem o x) {m : ℤ}
    (h : ¬ (period (phaseStep o.acc.freq sr) : ℤ) ∣ m) :
    |‖harmonic (fun i => (x i).val) (phaseStep o.acc.freq sr) m‖ -
      1 / (period (phaseStep o.acc.freq sr) * |Real.sin (Real.pi * (m / period (phaseStep o.acc.freq sr)))|)| ≤ 1 / 2 ^ 22 := by
  set s := phaseStep o.acc.freq sr with hs
  set c := o.acc.counter + s + o.acc.shift with hcc
  rw [← ramp_harmonic c s h]
  refine (abs_norm_sub_norm_le _ _).trans (harmonic_near' (fun i => ?_) m)
  obtain ⟨o', h1, h2, h3⟩ := plays (checks := checks) (floor := floor) hrem o hc hm i
  obtain ⟨o1, o2, g1, g2⟩ := hx i
  rw [h1] at g1; cases g1
  obtain ⟨o3, y, k1, -, k2⟩ := C70_saw checks floor rem o' (h2.trans hw)
  rw [g2] at k1; cases k1
  rw [h3] at k2
  have := (Rat.cast_le (K := ℝ)).2 k2
  push_cast at this
  exact_mod_cast this

/-- C173: a triangle has the odd harmonics only, the `m`-th at most of size `4 / (T sin(π m / T))^2` and at least of that times
`cos(π m / T)`, to within `2^-20`. -/
theorem C173_triangle (hrem : RemContract rem) (o : FunctionalOscillator SoftPhaseAccumulator) {sr : F32} (hw : o.wave = .triangle)
    (hc : o.acc.counter < 2 ^ 32) (hm : o.acc.minStep = u32MaxF / sr) (h0 : 0 < phaseStep o.acc.freq sr) {x : ℕ → F32}
    (hx : Plays checks floor rem o x) (m : ℤ) :
    (Even m → ‖harmonic (fun i => (x i).val) (phaseStep o.acc.freq sr) m‖ ≤ 1 / 2 ^ 20) ∧
    (Odd m →
      4 * |Real.cos (Real.pi * (m / period (phaseStep o.acc.freq sr)))| /
        (period (phaseStep o.acc.freq sr) * |Real.sin (Real.pi * (m / period (phaseStep o.acc.freq sr)))|) ^ 2 - 1 / 2 ^ 20 ≤
        ‖harmonic (fun i => (x i).val) (phaseStep o.acc.freq sr) m‖ ∧
      ‖harmonic (fun i => (x i).val) (phaseStep o.acc.freq sr) m‖ ≤
        4 / (period (phaseStep o.acc.freq sr) * |Real.sin (Real.pi * (m / period (phaseStep o.acc.freq sr)))|) ^ 2 + 1 / 2 ^ 20) := by
  set s := phaseStep o.acc.freq sr with hs
  set c := o.acc.counter + s + o.acc.shift with hcc
  have hnear : ‖harmonic (fun i => (x i).val) s m -
      harmonic (fun i => ((idealTriangle ((((c + i * s) % 2 ^ 32 : ℕ) : ℚ) / 2 ^ 32) : ℚ) : ℝ)) s m‖ ≤ 1 / 2 ^ 20 := by
    refine harmonic_near' (fun i => ?_) m
    obtain ⟨o', h1, h2, h3⟩ := plays (checks := checks) (floor := floor) hrem o hc hm i
    obtain ⟨o1, o2, g1, g2⟩ := hx i
    rw [h1] at g1; cases g1
    obtain ⟨o3, y, k1, k2⟩ := C70_tri checks floor rem o' (h2.trans hw)
    rw [g2] at k1; cases k1
    rw [h3] at k2
    have := (Rat.cast_le (K := ℝ)).2 k2
    push_cast at this
    exact_mod_cast this
  have habs := abs_le.1 ((abs_norm_sub_norm_le _ _).trans hnear)
  refine ⟨fun he => ?_, fun ho => ?_⟩
  · rw [even_harmonic_zero (F := fun k => ((idealTriangle ((k : ℚ) / 2 ^ 32) : ℚ) : ℝ)) ideal_half_wave c h0 (phaseStep_lt _ _) he,
      sub_zero] at hnear
    exact hnear
  · obtain ⟨t1, t2⟩ := tri_harmonic c h0 (phaseStep_lt o.acc.freq sr) ho
    exact ⟨by linarith [habs.1], by linarith [habs.2]⟩

/-- C173: a rectangle has the odd harmonics only, the `m`-th of size `2 / (T sin(π m / T))`, to within `4/T + 2^-22`. -/
theorem C173_rectangle (hrem : RemContract rem) (hfl : FloorContract floor) (o : FunctionalOscillator SoftPhaseAccumulator) {sr : F32}
    (hw : o.wave = .rectangle) (hc : o.acc.counter < 2 ^ 32) (hm : o.acc.minStep = u32MaxF / sr) (h0 : 0 < phaseStep o.acc.freq sr)
    {x : ℕ → F32} (hx : Plays checks floor rem o x) (m : ℤ) :
    (Even m → ‖harmonic (fun i => (x i).val) (phaseStep o.acc.freq sr) m‖ ≤ 4 / period (phaseStep o.acc.freq sr) + 1 / 2 ^ 22) ∧
    (Odd m → |‖harmonic (fun i => (x i).val) (phaseStep o.acc.freq sr) m‖ -
      2 / (period (phaseStep o.acc.freq sr) * |Real.sin (Real.pi * (m / period (phaseStep o.acc.freq sr)))|)| ≤
        4 / period (phaseStep o.acc.freq sr) + 1 / 2 ^ 22) := by
  set s := phaseStep o.acc.freq sr with hs
  set c := o.acc.counter + s + o.acc.shift with hcc
  have T0 : (0:ℝ) < period s := by exact_mod_cast period_pos s
  have hnear : ‖harmonic (fun i => (x i).val) s m - harmonic (fun i => idealRect ((c + i * s) % 2 ^ 32)) s m‖ ≤
      4 / period s + 1 / 2 ^ 22 := by
    refine (harmonic_near (e := fun i => rectEdge ((c + i * s) % 2 ^ 32)) (fun i => rect_near hrem hfl o hw hc hm hx i) m).trans ?_
    refine (div_le_div_of_nonneg_right (rect_edges c s) T0.le).trans ?_
    rw [add_div, mul_div_assoc, div_self T0.ne', mul_one]
  refine ⟨fun he => ?_, fun ho => ?_⟩
  · rwa [even_harmonic_zero idealRect_half_wave c h0 (phaseStep_lt _ _) he, sub_zero] at hnear
  · rw [← rect_harmonic c h0 (phaseStep_lt o.acc.freq sr) ho]
    exact (abs_norm_sub_norm_le _ _).trans hnear

theorem sine_near (hrem : RemContract rem) (o : FunctionalOscillator SoftPhaseAccumulator) {sr : F32} (hw : o.wave = .sine)
    (hc : o.acc.counter < 2 ^ 32) (hm : o.acc.minStep = u32MaxF / sr) {x : ℕ → F32} (hx : Plays checks floor rem o x) (i : ℕ) :
    |((x i).val : ℝ) - Real.sin (2 * Real.pi *
      (((o.acc.counter + phaseStep o.acc.freq sr + o.acc.shift + i * phaseStep o.acc.freq sr) % 2 ^ 32 : ℕ) / 2 ^ 32))| ≤ 4 / 10 ^ 4 := by
  obtain ⟨o', h1, h2, h3⟩ := plays (checks := checks) (floor := floor) hrem o hc hm i
  obtain ⟨o1, o2, g1, g2⟩ := hx i
  rw [h1] at g1; cases g1
  obtain ⟨y, k1, -, -, -, k2⟩ := C95_sine_oscillator hrem checks floor o' (h2.trans hw)
  rw [g2] at k1; cases k1
  rw [h3] at k2
  exact k2

/-- C173: a sine has its fundamental, of size 1/2 to within 0.0004, and no other harmonic above 0.0004. -/
theorem C173_sine (hrem : RemContract rem) (o : FunctionalOscillator SoftPhaseAccumulator) {sr : F32} (hw : o.wave = .sine)
    (hc : o.acc.counter < 2 ^ 32) (hm : o.acc.minStep = u32MaxF / sr) (h2 : 2 < period (phaseStep o.acc.freq sr)) {x : ℕ → F32}
    (hx : Plays checks floor rem o x) :
    |‖harmonic (fun i => (x i).val) (phaseStep o.acc.freq sr) 1‖ - 1 / 2| ≤ 4 / 10 ^ 4 ∧
    ∀ m : ℤ, ¬ (period (phaseStep o.acc.freq sr) : ℤ) ∣ m - 1 → ¬ (period (phaseStep o.acc.freq sr) : ℤ) ∣ m + 1 →
      ‖harmonic (fun i => (x i).val) (phaseStep o.acc.freq sr) m‖ ≤ 4 / 10 ^ 4 := by
  set s := phaseStep o.acc.freq sr with hs
  set c := o.acc.counter + s + o.acc.shift with hcc
  have hnear : ∀ m : ℤ, ‖harmonic (fun i => (x i).val) s m -
      harmonic (fun i => Real.sin (2 * Real.pi * (((c + i * s) % 2 ^ 32 : ℕ) / 2 ^ 32))) s m‖ ≤ 4 / 10 ^ 4 :=
    harmonic_near' (sine_near hrem o hw hc hm hx)
  constructor
  · have hh := sine_harmonic (step := s) (m := 1) c
    rw [if_pos (by simp), if_neg (fun h => by have := Int.le_of_dvd (by norm_num) h; omega), sub_zero, spin_norm] at hh
    rw [← hh]
    exact (abs_norm_sub_norm_le _ _).trans (hnear 1)
  · intro m h1 h3
    have hh := sine_harmonic (step := s) (m := m) c
    rw [if_neg h1, if_neg h3, sub_zero, norm_zero, zero_div, norm_eq_zero] at hh
    have := hnear m
    rwa [hh, sub_zero] at this

end

/-- The harmonics together carry the power of the sound. -/
theorem parseval (x : ℕ → ℝ) (step : ℕ) :
    ∑ m ∈ Finset.range (period step), ‖harmonic x step m‖ ^ 2 = (∑ i ∈ Finset.range (period step), x i ^ 2) / period step := by
  set T := period step with hTT
  have T0 : 0 < T := period_pos step
  have T0r : (T : ℝ) ≠ 0 := by exact_mod_cast T0.ne'
  have T0c : (T : ℂ) ≠ 0 := by exact_mod_cast T0.ne'
  have hT : T * Nat.gcd step (2 ^ 32) = 2 ^ 32 := Nat.div_mul_cancel (Nat.gcd_dvd_right _ _)
  have cross : ∀ i ∈ Finset.range T, ∀ l ∈ Finset.range T,
      ∑ m ∈ Finset.range T, spin ((l * step / 2 ^ 32 : ℝ) - i * step / 2 ^ 32) ^ m = if i = l then (T : ℂ) else 0 := by
    intro i hi l hl
    split
    · rename_i h
      rw [h, sub_self, spin_zero]; simp
    · rename_i h
      have hi := Finset.mem_range.1 hi
      have hl := Finset.mem_range.1 hl
      have hne : spin ((l * step / 2 ^ 32 : ℝ) - i * step / 2 ^ 32) ≠ 1 := by
        intro h1
        obtain ⟨n, hn⟩ := spin_eq_one.1 h1
        have e : ((l:ℤ) * step - i * step : ℤ) = n * 2 ^ 32 := by
          have : ((l:ℝ) * step - i * step) = n * 2 ^ 32 := by rw [← hn]; ring
          exact_mod_cast this
        have h2 : (0 + l * step) % 2 ^ 32 = (0 + i * step) % 2 ^ 32 := by
          have : (l * step : ℕ) ≡ (i * step : ℕ) [MOD 2 ^ 32] := by
            rw [Nat.modEq_iff_dvd]
            refine ⟨-n, ?_⟩
            push_cast
            linarith
          rw [zero_add, zero_add]; exact this
        have h3 := (phase_period 0 step l i).1 h2
        rw [← hTT] at h3
        unfold Nat.ModEq at h3
        rw [Nat.mod_eq_of_lt hi, Nat.mod_eq_of_lt hl] at h3
        exact h h3.symm
      have hpow : spin ((l * step / 2 ^ 32 : ℝ) - i * step / 2 ^ 32) ^ T = 1 := by
        obtain ⟨t, ht⟩ := Nat.gcd_dvd_left step (2 ^ 32)
        have hTt : (T : ℝ) * step = 2 ^ 32 * t := by
          have : T * step = 2 ^ 32 * t := by rw [← hT, mul_assoc, ← ht]
          exact_mod_cast this
        rw [← spin_nat_mul, show (T : ℝ) * (l * step / 2 ^ 32 - i * step / 2 ^ 32) = ((l * t - i * t : ℤ) : ℝ) by
          push_cast
          rw [← sub_div, mul_div_assoc', div_eq_iff (by norm_num)]
          linear_combination ((l:ℝ) - i) * hTt, spin_int]
      have := geom_sum_mul (spin ((l * step / 2 ^ 32 : ℝ) - i * step / 2 ^ 32)) T
      rw [hpow, sub_self] at this
      exact (mul_eq_zero.1 this).resolve_right (sub_ne_zero.2 hne)
  have main : ((∑ m ∈ Finset.range T, ‖harmonic x step m‖ ^ 2 : ℝ) : ℂ) = (((∑ i ∈ Finset.range T, x i ^ 2) / T : ℝ) : ℂ) := by
    push_cast
    have e1 : ∀ m ∈ Finset.range T, ((‖harmonic x step m‖ : ℝ) : ℂ) ^ 2 =
        (∑ i ∈ Finset.range T, ∑ l ∈ Finset.range T, (x i * x l : ℂ) * spin ((l * step / 2 ^ 32 : ℝ) - i * step / 2 ^ 32) ^ m) / T ^ 2 := by
      intro m _
      rw [← Complex.mul_conj']
      unfold harmonic
      rw [map_div₀, map_sum, Complex.conj_natCast, ← hTT, div_mul_div_comm, Finset.sum_mul_sum, ← pow_two]
      congr 1
      refine Finset.sum_congr rfl fun i _ => Finset.sum_congr rfl fun l _ => ?_
      rw [map_mul, Complex.conj_ofReal, spin_conj, ← spin_nat_mul]
      have : (m : ℝ) * (l * step / 2 ^ 32 - i * step / 2 ^ 32) =
          -(((m : ℤ) : ℝ) * (i * step / 2 ^ 32)) + - -(((m : ℤ) : ℝ) * (l * step / 2 ^ 32)) := by push_cast; ring
      rw [this, spin_add]
      ring
    rw [Finset.sum_congr rfl e1, ← Finset.sum_div, Finset.sum_comm]
    have e2 : ∀ i ∈ Finset.range T, ∑ m ∈ Finset.range T, ∑ l ∈ Finset.range T,
        (x i * x l : ℂ) * spin ((l * step / 2 ^ 32 : ℝ) - i * step / 2 ^ 32) ^ m = (x i : ℂ) ^ 2 * T := by
      intro i hi
      rw [Finset.sum_comm]
      have e3 : ∀ l ∈ Finset.range T, ∑ m ∈ Finset.range T, (x i * x l : ℂ) * spin ((l * step / 2 ^ 32 : ℝ) - i * step / 2 ^ 32) ^ m =
          if i = l then (x i * x l : ℂ) * T else 0 := by
        intro l hl
        rw [← Finset.mul_sum, cross i hi l hl]
        split <;> simp
      rw [Finset.sum_congr rfl e3, Finset.sum_ite_eq, if_pos hi]
      ring
    rw [Finset.sum_congr rfl e2, ← Finset.sum_mul]
    field_simp
  exact_mod_cast main

/-- C173: all that a sine oscillator puts out beside its tone, at whatever frequencies, has at most 1.6 * 10^-7 of power; the tone has
1/2. -/
theorem C173_distortion {checks : Bool} {floor : F32 → F32} {rem : F32 → F32 → F32} (hrem : RemContract rem)
    (o : FunctionalOscillator SoftPhaseAccumulator) {sr : F32} (hw : o.wave = .sine)
    (hc : o.acc.counter < 2 ^ 32) (hm : o.acc.minStep = u32MaxF / sr) {x : ℕ → F32} (hx : Plays checks floor rem o x) :
    ∑ m ∈ (Finset.range (period (phaseStep o.acc.freq sr))).filter (fun m : ℕ =>
        ¬ (period (phaseStep o.acc.freq sr) : ℤ) ∣ m - 1 ∧ ¬ (period (phaseStep o.acc.freq sr) : ℤ) ∣ m + 1),
      ‖harmonic (fun i => (x i).val) (phaseStep o.acc.freq sr) m‖ ^ 2 ≤ 16 / 10 ^ 8 := by
  set s := phaseStep o.acc.freq sr with hs
  set c := o.acc.counter + s + o.acc.shift with hcc
  have T0 : (0:ℝ) < period s := by exact_mod_cast period_pos s
  set y : ℕ → ℝ := fun i => Real.sin (2 * Real.pi * (((c + i * s) % 2 ^ 32 : ℕ) / 2 ^ 32)) with hy
  have hnear : ∀ i, |((x i).val : ℝ) - y i| ≤ 4 / 10 ^ 4 := sine_near hrem o hw hc hm hx
  have hsub : ∀ m : ℤ, harmonic (fun i => ((x i).val : ℝ) - y i) s m = harmonic (fun i => (x i).val) s m - harmonic y s m := by
    intro m
    unfold harmonic
    rw [← sub_div, ← Finset.sum_sub_distrib]
    congr 1
    refine Finset.sum_congr rfl fun i _ => ?_
    push_cast; ring
  have e : ∀ m ∈ (Finset.range (period s)).filter (fun m : ℕ => ¬ (period s : ℤ) ∣ m - 1 ∧ ¬ (period s : ℤ) ∣ m + 1),
      ‖harmonic (fun i => ((x i).val : ℝ)) s m‖ ^ 2 = ‖harmonic (fun i => ((x i).val : ℝ) - y i) s m‖ ^ 2 := by
    intro m hm
    obtain ⟨-, h1, h3⟩ := Finset.mem_filter.1 hm
    have hh := sine_harmonic (step := s) (m := m) c
    rw [if_neg h1, if_neg h3, sub_zero, norm_zero, zero_div, norm_eq_zero] at hh
    rw [hsub, hy, hh, sub_zero]
  rw [Finset.sum_congr rfl e]
  refine (Finset.sum_le_sum_of_subset_of_nonneg (Finset.filter_subset _ _) fun _ _ _ => sq_nonneg _).trans ?_
  rw [parseval, div_le_iff₀ T0]
  have : ∀ i ∈ Finset.range (period s), (((x i).val : ℝ) - y i) ^ 2 ≤ 16 / 10 ^ 8 := by
    intro i _
    have := abs_le.1 (hnear i)
    nlinarith
  refine (Finset.sum_le_sum this).trans ?_
  rw [Finset.sum_const, Finset.card_range, nsmul_eq_mul, mul_comm]

/-- A sine of 440 Hz at 48 kHz (a period of `2^30` samples): nothing beside its tone, of the `2^30` possible harmonics together. -/
example : ∃ x, Plays true mmFloor mmRem ⟨SoftPhaseAccumulator.new (lit 440) (lit 48000), .sine⟩ x ∧
    |‖harmonic (fun i => (x i).val) 39370532 1‖ - 1 / 2| ≤ 4 / 10 ^ 4 ∧ ‖harmonic (fun i => (x i).val) 39370532 2‖ ≤ 4 / 10 ^ 4 ∧
    ∑ m ∈ (Finset.range (2 ^ 30)).filter (fun m : ℕ => ¬ ((2 ^ 30 : ℕ) : ℤ) ∣ m - 1 ∧ ¬ ((2 ^ 30 : ℕ) : ℤ) ∣ m + 1),
      ‖harmonic (fun i => (x i).val) 39370532 m‖ ^ 2 ≤ 16 / 10 ^ 8 := by
  obtain ⟨x, hx⟩ := plays_exists (checks := true) (floor := mmFloor) mmRem_contract ⟨SoftPhaseAccumulator.new (lit 440) (lit 48000), .sine⟩
  have hs : phaseStep (lit 440) (lit 48000) = 39370532 := by decide +kernel
  have hp : period 39370532 = 2 ^ 30 := by decide +kernel
  have h1 := C173_sine mmRem_contract _ rfl (by decide) (sr := lit 48000) rfl (by
    show 2 < period (phaseStep (lit 440) (lit 48000))
    rw [hs, hp]; norm_num) hx
  have h2 := C173_distortion mmRem_contract _ rfl (by decide) (sr := lit 48000) rfl hx
  change |‖harmonic _ (phaseStep (lit 440) (lit 48000)) 1‖ - 1 / 2| ≤ _ ∧ ∀ m : ℤ, ¬ (period (phaseStep (lit 440) (lit 48000)) : ℤ) ∣ _ →
    ¬ (period (phaseStep (lit 440) (lit 48000)) : ℤ) ∣ _ → ‖harmonic _ (phaseStep (lit 440) (lit 48000)) m‖ ≤ _ at h1
  change ∑ m ∈ (Finset.range (period (phaseStep (lit 440) (lit 48000)))).filter (fun m : ℕ =>
    ¬ (period (phaseStep (lit 440) (lit 48000)) : ℤ) ∣ m - 1 ∧ ¬ (period (phaseStep (lit 440) (lit 48000)) : ℤ) ∣ m + 1),
    ‖harmonic _ (phaseStep (lit 440) (lit 48000)) m‖ ^ 2 ≤ _ at h2
  rw [hs, hp] at h1 h2
  exact ⟨x, hx, h1.1, h1.2 2 (by norm_num) (by norm_num), h2⟩

/-- The fundamental of a sawtooth at a quarter of the sample rate, four samples a period: `1 / (4 sin(π/4))`. -/
example : ∃ x, Plays true mmFloor mmRem ⟨SoftPhaseAccumulator.new (lit 12000) (lit 48000), .sawtooth⟩ x ∧
    |‖harmonic (fun i => (x i).val) (2 ^ 30) 1‖ - 1 / (4 * (Real.sqrt 2 / 2))| ≤ 1 / 2 ^ 22 := by
  obtain ⟨x, hx⟩ := plays_exists (checks := true) (floor := mmFloor) mmRem_contract
    ⟨SoftPhaseAccumulator.new (lit 12000) (lit 48000), .sawtooth⟩
  have hs : phaseStep (lit 12000) (lit 48000) = 2 ^ 30 := by decide +kernel
  have hp : period (2 ^ 30) = 4 := by decide +kernel
  have h1 := C173_sawtooth mmRem_contract _ rfl (by decide) (sr := lit 48000) rfl hx (m := 1) (by
    show ¬ (period (phaseStep (lit 12000) (lit 48000)) : ℤ) ∣ 1
    rw [hs, hp]; norm_num)
  change |‖harmonic _ (phaseStep (lit 12000) (lit 48000)) 1‖ - 1 / (period (phaseStep (lit 12000) (lit 48000)) *
    |Real.sin (Real.pi * (((1 : ℤ) : ℝ) / period (phaseStep (lit 12000) (lit 48000))))|)| ≤ _ at h1
  rw [hs, hp, show Real.pi * (((1 : ℤ) : ℝ) / ((4 : ℕ) : ℝ)) = Real.pi / 4 by push_cast; ring, Real.sin_pi_div_four,
    abs_of_pos (show 0 < Real.sqrt 2 / 2 by positivity)] at h1
  exact ⟨x, hx, by exact_mod_cast h1⟩

end Verif
