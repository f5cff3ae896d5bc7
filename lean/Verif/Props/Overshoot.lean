import Verif.Props.Butterworth
import Mathlib.Topology.Order.MonotoneConvergence

/-! # C174: which filters overshoot a step, in exact (real) arithmetic -/

namespace Verif
open Butterworth

/-- The difference equation of a filter that has run for two samples on a signal of 1. -/
theorem step_rec (co : BiquadCoeffs ℝ) (n : ℕ) :
    (Biquad.new co).outAt (fun _ => 1) (n + 2) = co.b0 + co.b1 + co.b2
      - co.a1 * (Biquad.new co).outAt (fun _ => 1) (n + 1) - co.a2 * (Biquad.new co).outAt (fun _ => 1) n := by
  rw [C27_difference_equation]
  simp [past]

theorem step_zero (co : BiquadCoeffs ℝ) : (Biquad.new co).outAt (fun _ => 1) 0 = co.b0 := by
  rw [C27_difference_equation]
  simp [past]

theorem step_one (co : BiquadCoeffs ℝ) :
    (Biquad.new co).outAt (fun _ => 1) 1 = co.b0 + co.b1 - co.a1 * co.b0 := by
  rw [C27_difference_equation]
  simp [past, step_zero]

/-- A sequence with complex roots changes its sign. -/
theorem swings {e : ℕ → ℝ} {s p : ℝ} (h : ∀ n, e (n + 2) = s * e (n + 1) - p * e n) (d : s ^ 2 < 4 * p)
    (h0 : 0 < e 0) : ∃ n, e n < 0 := by
  by_contra! nn
  have pp : 0 < p := by nlinarith [sq_nonneg s]
  have pos : ∀ n, 0 < e n := by
    intro n
    induction n with
    | zero => exact h0
    | succ n ih =>
      refine lt_of_le_of_ne (nn _) fun z => ?_
      have := h n
      rw [← z] at this
      have h3 := nn (n + 2)
      nlinarith [mul_pos pp ih]
  set t : ℕ → ℝ := fun n => e (n + 1) / e n with ht
  have tp : ∀ n, 0 < t n := fun n => div_pos (pos _) (pos _)
  have tr : ∀ n, t (n + 1) = s - p / t n := by
    intro n
    have a := (pos n).ne'
    have b := (pos (n + 1)).ne'
    simp only [ht]
    rw [show n + 1 + 1 = n + 2 from rfl, h n]
    field_simp
  set δ := p - s ^ 2 / 4 with hδ
  have dp : 0 < δ := by rw [hδ]; linarith
  have drop : ∀ n, t (n + 1) * t n ≤ t n * t n - δ := by
    intro n
    have e1 : t (n + 1) * t n = s * t n - p := by rw [tr n]; have := (tp n).ne'; field_simp
    rw [e1, hδ]
    nlinarith [sq_nonneg (t n - s / 2)]
  have down : ∀ n, t n ≤ t 0 := by
    intro n
    induction n with
    | zero => exact le_rfl
    | succ n ih =>
      have := drop n
      have : t (n + 1) ≤ t n := by
        by_contra! c
        nlinarith [mul_lt_mul_of_pos_right c (tp n)]
      linarith
  have fall : ∀ n : ℕ, t n ≤ t 0 - n * (δ / t 0) := by
    intro n
    induction n with
    | zero => simp
    | succ n ih =>
      have a := drop n
      have q1 : δ / t 0 ≤ δ / t n := div_le_div_of_nonneg_left dp.le (tp n) (down n)
      have q2 : t (n + 1) ≤ t n - δ / t n := by
        rw [← sub_nonneg]
        have : t n - δ / t n - t (n + 1) = (t n * t n - δ - t (n + 1) * t n) / t n := by
          have := (tp n).ne'; field_simp
        rw [this]
        exact div_nonneg (by linarith) (tp n).le
      push_cast
      linarith
  obtain ⟨n, hn⟩ := exists_nat_gt (t 0 / (δ / t 0))
  have c := fall n
  have : t 0 < n * (δ / t 0) := by rwa [div_lt_iff₀ (div_pos dp (tp 0))] at hn
  linarith [tp n]

variable {powi : ℝ → ℕ → ℝ} {fc q sr : ℝ}

/-- C174: a low-pass with a quality above 1/2 lets a step rise above its final value 1. -/
theorem C174_overshoot (hp : PowiExact powi) (hfc : 0 < fc) (hsr : 0 < sr) (hq : 1 / 2 < q) :
    ∃ n, 1 < (Biquad.new (lowpass powi fc q sr)).outAt (fun _ => 1) n := by
  have hk := warp_pos hp hfc hsr
  set y := (Biquad.new (lowpass powi fc q sr)).outAt (fun _ => 1) with hy
  have q0 : 0 < q := by linarith
  have r := step_rec (lowpass powi fc q sr)
  have z := step_zero (lowpass powi fc q sr)
  rw [← hy] at r z
  simp only [lowpass, setup_eq, lowpassOf, Lit.lit] at r z
  generalize warp powi fc sr = k at *
  have hr : (k / q) ^ 2 < 4 * k ^ 2 := by
    have : k / q < 2 * k := by rw [div_lt_iff₀ q0]; nlinarith
    have h0 : 0 < k / q := by positivity
    nlinarith
  have kq : 0 < k / q := by positivity
  generalize k / q = κ at *
  have D : 0 < 1 + κ + k ^ 2 := by positivity
  push_cast at r z
  obtain ⟨n, hn⟩ := swings (e := fun n => 1 - y n) (s := 2 * (1 - k ^ 2) / (1 + κ + k ^ 2))
    (p := (1 - κ + k ^ 2) / (1 + κ + k ^ 2)) (by
      intro n
      simp only [r n]
      field_simp
      ring) (by
      rw [div_pow, ← mul_div_assoc, div_lt_div_iff₀ (by positivity) D]
      have : (2 * (1 - k ^ 2)) ^ 2 < 4 * (1 - κ + k ^ 2) * (1 + κ + k ^ 2) := by nlinarith
      nlinarith [mul_lt_mul_of_pos_right this D]) (by
      simp only [z]
      have : 1 - 1 / (1 + κ + k ^ 2) * k ^ 2 = (1 + κ) / (1 + κ + k ^ 2) := by field_simp; ring
      rw [this]
      positivity)
  exact ⟨n, by simpa using hn⟩

/-- A sequence with real roots that are not negative never falls once it has a head start. -/
theorem climbs {d : ℕ → ℝ} {s p r : ℝ} (h : ∀ n, d (n + 2) = s * d (n + 1) - p * d n) (r0 : 0 ≤ r) (r1 : 0 ≤ s - r)
    (rp : r * (s - r) = p) (h0 : 0 ≤ d 0) (h1 : r * d 0 ≤ d 1) (n : ℕ) : 0 ≤ d n ∧ r * d n ≤ d (n + 1) := by
  induction n with
  | zero => exact ⟨h0, h1⟩
  | succ n ih =>
    obtain ⟨a, b⟩ := ih
    refine ⟨le_trans (mul_nonneg r0 a) b, ?_⟩
    rw [show n + 1 + 1 = n + 2 from rfl, h n, ← rp]
    nlinarith [mul_nonneg r1 (sub_nonneg.2 b)]

/-- C174: a low-pass with a quality of at most 1/2 and a cutoff in the lower half of the band lets a step climb to 1
without turning back, as long as both of its poles stay on the right-hand side. -/
theorem C174_no_overshoot (hp : PowiExact powi) (hfc : 0 < fc) (hsr : 0 < sr) (q0 : 0 < q) (hq : q ≤ 1 / 2)
    (k1 : warp powi fc sr ≤ 1) (hr : warp powi fc sr / q ≤ 1 + warp powi fc sr ^ 2) :
    Monotone ((Biquad.new (lowpass powi fc q sr)).outAt (fun _ => 1)) ∧
      ∀ n, 0 ≤ (Biquad.new (lowpass powi fc q sr)).outAt (fun _ => 1) n ∧
        (Biquad.new (lowpass powi fc q sr)).outAt (fun _ => 1) n ≤ 1 := by
  have lim : Filter.Tendsto ((Biquad.new (lowpass powi fc q sr)).outAt (fun _ => 1)) Filter.atTop (nhds 1) :=
    (C31_lowpass_measured hp hfc q0 hsr (lit 0) (lit 0)).1
  have hk := warp_pos hp hfc hsr
  set y := (Biquad.new (lowpass powi fc q sr)).outAt (fun _ => 1) with hy
  have r := step_rec (lowpass powi fc q sr)
  have z := step_zero (lowpass powi fc q sr)
  have z1 := step_one (lowpass powi fc q sr)
  rw [← hy] at r z z1
  simp only [lowpass, setup_eq, lowpassOf, Lit.lit] at r z z1
  generalize warp powi fc sr = k at *
  have hd : 4 * k ^ 2 ≤ (k / q) ^ 2 := by
    have : 2 * k ≤ k / q := by rw [le_div_iff₀ q0]; nlinarith
    nlinarith
  have kq : 0 < k / q := by positivity
  generalize k / q = κ at *
  have D : 0 < 1 + κ + k ^ 2 := by positivity
  have k2 : k ^ 2 ≤ 1 := by nlinarith
  push_cast at r z z1
  set s := 2 * (1 - k ^ 2) / (1 + κ + k ^ 2) with hs
  set p := (1 - κ + k ^ 2) / (1 + κ + k ^ 2) with hpd
  set b := k ^ 2 / (1 + κ + k ^ 2) with hb
  have s0 : 0 ≤ s := div_nonneg (by linarith) D.le
  have p0 : 0 ≤ p := div_nonneg (by linarith) D.le
  have p1 : p ≤ 1 := by rw [hpd, div_le_one D]; linarith
  have b0 : 0 ≤ b := by positivity
  have disc : 0 ≤ s ^ 2 - 4 * p := by
    have : s ^ 2 - 4 * p = 4 * (κ ^ 2 - 4 * k ^ 2) / (1 + κ + k ^ 2) ^ 2 := by rw [hs, hpd]; field_simp; ring
    rw [this]
    exact div_nonneg (by linarith) (by positivity)
  set w := Real.sqrt (s ^ 2 - 4 * p) with hw
  have ww : w ^ 2 = s ^ 2 - 4 * p := Real.sq_sqrt disc
  have w0 : 0 ≤ w := Real.sqrt_nonneg _
  have ws : w ≤ s := by
    rw [hw]; refine Real.sqrt_le_iff.2 ⟨s0, by linarith⟩
  have y0 : y 0 = b := by rw [z, hb]; ring
  have y1 : y 1 = 3 * b + s * b := by rw [z1, hb, hs]; ring
  have yr : ∀ n, y (n + 2) = 4 * b + s * y (n + 1) - p * y n := by
    intro n; rw [r n, hb, hs, hpd]; ring
  have c := climbs (d := fun n => y (n + 1) - y n) (s := s) (p := p) (r := (s - w) / 2) (by
      intro n
      have := yr (n + 1)
      have e2 := yr n
      simp only [show n + 1 + 2 = n + 2 + 1 from rfl, show n + 1 + 1 = n + 2 from rfl] at this ⊢
      rw [this, e2]; ring) (by linarith) (by linarith) (by nlinarith) (by
      simp only [zero_add, y0, y1]; nlinarith [mul_nonneg s0 b0]) (by
      simp only [zero_add, show (1 + 1) = 0 + 2 from rfl, yr 0, y0, y1]
      have : 0 ≤ (s + w) / 2 * (2 * b + s * b) := by positivity
      have : 0 ≤ b * (1 - p) := mul_nonneg b0 (by linarith)
      nlinarith)
  have mono : Monotone y := monotone_nat_of_le_succ fun n => by have := (c n).1; linarith
  refine ⟨mono, fun n => ⟨?_, mono.ge_of_tendsto lim n⟩⟩
  exact le_trans (by rw [y0]; exact b0) (mono (Nat.zero_le n))

/-- C174: a high-pass always answers a step with some output of the opposite sign. -/
theorem C174_highpass (hp : PowiExact powi) (hfc : 0 < fc) (hsr : 0 < sr) (hq : 0 < q) :
    ∃ n, (Biquad.new (highpass powi fc q sr)).outAt (fun _ => 1) n < 0 := by
  by_contra! nn
  have hk := warp_pos hp hfc hsr
  set y := (Biquad.new (highpass powi fc q sr)).outAt (fun _ => 1) with hy
  have r := step_rec (highpass powi fc q sr)
  have z := step_zero (highpass powi fc q sr)
  have z1 := step_one (highpass powi fc q sr)
  rw [← hy] at r z z1
  simp only [highpass, setup_eq, highpassOf, Lit.lit] at r z z1
  generalize warp powi fc sr = k at *
  have kq : 0 < k / q := by positivity
  generalize k / q = κ at *
  have D : 0 < 1 + κ + k ^ 2 := by positivity
  push_cast at r z z1
  set p := (1 - κ + k ^ 2) / (1 + κ + k ^ 2) with hpd
  set c := 4 * k ^ 2 / (1 + κ + k ^ 2) with hc
  set b := 1 / (1 + κ + k ^ 2) with hb
  have b0 : 0 < b := by positivity
  have c0 : 0 < c := by positivity
  have p1 : p ≤ 1 := by rw [hpd, div_le_one D]; linarith
  have y1 : y 1 = p * b - c * b := by rw [z1, hb, hc, hpd]; field_simp; ring
  have yr : ∀ n, y (n + 2) = (1 + p - c) * y (n + 1) - p * y n := by
    intro n; rw [r n, hb, hc, hpd]; field_simp; ring
  have acc : ∀ n, y (n + 1) = p * y n - c * ∑ i ∈ Finset.range (n + 1), y i := by
    intro n
    induction n with
    | zero => simp [z, y1]
    | succ n ih =>
      rw [show n + 1 + 1 = n + 2 from rfl, yr n, Finset.sum_range_succ]
      linarith
  have big : ∀ n, b ≤ ∑ i ∈ Finset.range (n + 1), y i := by
    intro n
    rw [← z]
    exact Finset.single_le_sum (fun i _ => nn i) (Finset.mem_range.2 (Nat.succ_pos n))
  have fall : ∀ n : ℕ, y n ≤ b - n * (c * b) := by
    intro n
    induction n with
    | zero => simp [z]
    | succ n ih =>
      have a1 := mul_le_mul_of_nonneg_left (big n) c0.le
      have a2 := mul_le_mul_of_nonneg_right p1 (nn n)
      rw [acc n]
      push_cast
      linarith
  obtain ⟨n, hn⟩ := exists_nat_gt (1 / c)
  rw [div_lt_iff₀ c0] at hn
  have := fall n
  have := nn n
  nlinarith [mul_lt_mul_of_pos_right hn b0]

/-- A low-pass at 1 kHz with the usual quality of 0.7 overshoots. -/
example : ∃ n, 1 < (Biquad.new (lowpass (fun x n => x ^ n) 1000 (7 / 10) 48000)).outAt (fun _ => (1 : ℝ)) n :=
  C174_overshoot (fun _ _ => rfl) (by norm_num) (by norm_num) (by norm_num)

/-- A low-pass at 1 kHz with a quality of 1/2 does not: its conditions hold. -/
example : warp (fun x n => x ^ n) 1000 48000 ≤ 1 ∧
    warp (fun x n => x ^ n) 1000 48000 / (1 / 2) ≤ 1 + warp (fun x n => x ^ n) 1000 48000 ^ 2 := by
  have : warp (fun x n => x ^ n) 1000 48000 ≤ 1 := by
    simp only [warp, FMath.fastTan, FMath.piQ, Lit.lit]
    norm_num
  exact ⟨this, by nlinarith [sq_nonneg (warp (fun x n => x ^ n) 1000 48000 - 1)]⟩

end Verif
