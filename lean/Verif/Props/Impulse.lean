import Mathlib.Algebra.Order.Antidiag.Prod
import Verif.Props.AnyOrder

/-! # C200: a chain of effects is known by its impulse response -/

namespace Verif

/-- One sample of 1, then silence. -/
def impulse {K : Type} [Field K] (n : ℕ) : K := if n = 0 then 1 else 0

section
variable {K : Type} [Field K]
open PowerSeries

theorem chain_series {c : Cfg} : ∀ (l : List (Stage K)) (_ : ∀ s ∈ l, s.Silent c),
    ∃ D N : PowerSeries K, D ≠ 0 ∧ ∀ x y, InSeries c l x y → D * mk y = N * mk x
  | [], _ => ⟨1, 1, one_ne_zero, by rintro x y rfl; rfl⟩
  | s :: l, hs => by
    obtain ⟨D, N, hD, hN⟩ := chain_series l (fun s h => hs s (List.mem_cons_of_mem _ h))
    obtain ⟨-, D', N', hD', hN'⟩ := s.series (hs s List.mem_cons_self)
    refine ⟨D' * D, N' * N, mul_ne_zero hD' hD, ?_⟩
    rintro x y ⟨w, hw, h⟩
    linear_combination D' * hN w y h + N * hN' x w hw

/-- C200: what a silent chain answers to any signal is the sum of its impulse responses to each of the samples. -/
theorem C200_convolution {c : Cfg} {l : List (Stage K)} (hs : ∀ s ∈ l, s.Silent c) {h : ℕ → K} (hh : InSeries c l impulse h)
    {x y : ℕ → K} (hy : InSeries c l x y) (n : ℕ) : y n = ∑ k ∈ Finset.range (n + 1), h k * x (n - k) := by
  obtain ⟨D, N, hD, hN⟩ := chain_series l hs
  have e1 := hN _ _ hh
  have e2 := hN _ _ hy
  have hi : mk (impulse : ℕ → K) = 1 := by
    ext n; simp [impulse, coeff_one]
  rw [hi, mul_one] at e1
  rw [← e1, mul_assoc] at e2
  have := congrArg (coeff n) (mul_left_cancel₀ hD e2)
  rw [coeff_mk, coeff_mul, Finset.Nat.sum_antidiagonal_eq_sum_range_succ_mk] at this
  simpa using this

/-- C200: two chains with the same impulse response do the same to every signal. -/
theorem C200_determines {c c' : Cfg} {l l' : List (Stage K)} (hs : ∀ s ∈ l, s.Silent c) (hs' : ∀ s ∈ l', s.Silent c')
    {h : ℕ → K} (hh : InSeries c l impulse h) (hh' : InSeries c' l' impulse h) (x y : ℕ → K) :
    InSeries c l x y ↔ InSeries c' l' x y := by
  obtain ⟨u, h1, h2⟩ := in_series l hs x
  obtain ⟨v, h3, h4⟩ := in_series l' hs' x
  have : u = v := funext fun n => by rw [C200_convolution hs hh h1 n, C200_convolution hs' hh' h3 n]
  subst this
  exact ⟨fun h => h2 y h ▸ h3, fun h => h4 y h ▸ h1⟩

end

/-- C200: the most a chain makes of a signal within `B` is `B` times the sum of the magnitudes of its impulse response up to now, and some
signal gets there. -/
theorem C200_peak {c : Cfg} {l : List (Stage ℝ)} (hs : ∀ s ∈ l, s.Silent c) {h : ℕ → ℝ} (hh : InSeries c l impulse h) {B : ℝ} (hB : 0 ≤ B) (n : ℕ) :
    IsGreatest {r | ∃ x y : ℕ → ℝ, (∀ m, |x m| ≤ B) ∧ InSeries c l x y ∧ r = |y n|} (B * ∑ k ∈ Finset.range (n + 1), |h k|) := by
  constructor
  · obtain ⟨y, hy, -⟩ := in_series l hs (fun m => if 0 ≤ h (n - m) then B else -B)
    refine ⟨_, y, fun m => ?_, hy, ?_⟩
    · split <;> simp [abs_of_nonneg hB]
    · rw [C200_convolution hs hh hy n, Finset.mul_sum]
      have : ∀ k ∈ Finset.range (n + 1), B * |h k| = h k * (if 0 ≤ h (n - (n - k)) then B else -B) := by
        intro k hk
        have hk' : k ≤ n := by simpa [Nat.lt_succ_iff] using hk
        rw [Nat.sub_sub_self hk']
        split
        · rename_i h0; rw [abs_of_nonneg h0, mul_comm]
        · rename_i h0; rw [abs_of_neg (not_le.1 h0)]; ring
      rw [Finset.sum_congr rfl this, eq_comm, abs_of_nonneg]
      rw [← Finset.sum_congr rfl this]
      exact Finset.sum_nonneg fun k _ => by positivity
  · rintro r ⟨x, y, hx, hy, rfl⟩
    rw [C200_convolution hs hh hy n, Finset.mul_sum]
    refine (Finset.abs_sum_le_sum_abs _ _).trans (Finset.sum_le_sum fun k _ => ?_)
    rw [abs_mul, mul_comm]
    exact mul_le_mul_of_nonneg_right (hx _) (abs_nonneg _)

/-- The average of neighbours, twice over: the impulse response is 1/4, 1/2, 1/4, and that is what any signal is weighted with. -/
example {x y : ℕ → ℝ} (hy : InSeries Cfg.debug64 [.filter (Biquad.new ⟨1/2, 1/2, 0, 0, 0⟩), .filter (Biquad.new ⟨1/2, 1/2, 0, 0, 0⟩)] x y) :
    y 2 = 1/4 * x 2 + 1/2 * x 1 + 1/4 * x 0 := by
  have hs : ∀ s ∈ ([.filter (Biquad.new ⟨1/2, 1/2, 0, 0, 0⟩), .filter (Biquad.new ⟨1/2, 1/2, 0, 0, 0⟩)] : List (Stage ℝ)), s.Silent Cfg.debug64 := by
    intro s h
    simp only [List.mem_cons, List.not_mem_nil, or_false, or_self] at h
    subst h
    exact ⟨by simp [Biquad.new, Lit.lit], by simp [Biquad.new, Lit.lit]⟩
  have hh : InSeries Cfg.debug64 [.filter (Biquad.new ⟨1/2, 1/2, 0, 0, 0⟩), .filter (Biquad.new ⟨1/2, 1/2, 0, 0, 0⟩)] impulse
    ((Biquad.new ⟨1/2, 1/2, 0, 0, 0⟩ : Biquad ℝ).outAt ((Biquad.new ⟨1/2, 1/2, 0, 0, 0⟩ : Biquad ℝ).outAt impulse)) :=
    ⟨_, fun n => rfl, _, fun n => rfl, rfl⟩
  rw [C200_convolution hs hh hy 2]
  norm_num [Finset.sum_range_succ, Biquad.outAt, Biquad.stateAt, Biquad.process, Biquad.new, Lit.lit, impulse]

end Verif
