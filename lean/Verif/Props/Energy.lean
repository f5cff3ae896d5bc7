import Verif.Props.Cascade
import Verif.Props.Forget

/-! # C177: what the filters do to the energy of a signal, in exact (real) arithmetic

The energy of a signal is the sum of the squares of its samples. The filters of one frequency and quality share their denominator; the
output of that denominator alone is an inner signal, and a quadratic form of two samples of it is the energy the filter still holds. -/

namespace Verif
open Butterworth

/-- The energy of the first `n` samples. -/
def energy (x : ℕ → ℝ) (n : ℕ) : ℝ := ∑ k ∈ Finset.range n, x k ^ 2

theorem past_past (s : ℕ → ℝ) (n i j : ℕ) : past (fun m => past s m i) n j = past s n (i + j) := by
  simp only [past]
  by_cases h : j ≤ n
  · by_cases h2 : i ≤ n - j
    · rw [if_pos h, if_pos h2, if_pos (by omega)]; congr 1; omega
    · rw [if_pos h, if_neg h2, if_neg (by omega)]
  · rw [if_neg h, if_neg (by omega)]

/-- Only one signal satisfies the difference equation. -/
theorem only_output {co : BiquadCoeffs ℝ} {x y : ℕ → ℝ}
    (h : ∀ n, y n = co.b0 * past x n 0 + co.b1 * past x n 1 + co.b2 * past x n 2 - co.a1 * past y n 1 - co.a2 * past y n 2) (n : ℕ) :
    (Biquad.new co).outAt x n = y n := by
  induction n using Nat.strong_induction_on with
  | _ n ih =>
    have p : ∀ k, 1 ≤ k → past ((Biquad.new co).outAt x) n k = past y n k := by
      intro k hk
      unfold past
      split_ifs with hn
      · exact ih _ (by omega)
      · rfl
    rw [C27_difference_equation, p 1 le_rfl, p 2 (by norm_num), h n]

/-- The inner signal: what the input becomes in the denominator alone. -/
noncomputable def inner (co : BiquadCoeffs ℝ) (x : ℕ → ℝ) : ℕ → ℝ := (Biquad.new ⟨1, 0, 0, co.a1, co.a2⟩).outAt x

theorem inner_in (co : BiquadCoeffs ℝ) (x : ℕ → ℝ) (n : ℕ) :
    x n = inner co x n + co.a1 * past (inner co x) n 1 + co.a2 * past (inner co x) n 2 := by
  have := C27_difference_equation ⟨1, 0, 0, co.a1, co.a2⟩ x n
  simp only [one_mul, zero_mul, add_zero] at this
  rw [show past x n 0 = x n by simp [past]] at this
  unfold inner
  linarith

theorem inner_past (co : BiquadCoeffs ℝ) (x : ℕ → ℝ) (n k : ℕ) :
    past x n k = past (inner co x) n k + co.a1 * past (inner co x) n (1 + k) + co.a2 * past (inner co x) n (2 + k) := by
  rw [← past_past, ← past_past]
  unfold past
  split_ifs with h
  · exact inner_in co x (n - k)
  · simp

/-- The output is the numerator's work on the inner signal. -/
theorem inner_out (co : BiquadCoeffs ℝ) (x : ℕ → ℝ) (n : ℕ) :
    (Biquad.new co).outAt x n = co.b0 * inner co x n + co.b1 * past (inner co x) n 1 + co.b2 * past (inner co x) n 2 := by
  set u := inner co x with hu
  refine only_output (y := fun m => co.b0 * u m + co.b1 * past u m 1 + co.b2 * past u m 2) (fun m => ?_) n
  have pd : ∀ k, past (fun m => co.b0 * u m + co.b1 * past u m 1 + co.b2 * past u m 2) m k =
      co.b0 * past u m k + co.b1 * past u m (1 + k) + co.b2 * past u m (2 + k) := by
    intro k
    rw [← past_past, ← past_past]
    unfold past
    split_ifs <;> simp
  rw [pd 1, pd 2, inner_past co x m 0, inner_past co x m 1, inner_past co x m 2, ← hu]
  rw [show past u m 0 = u m by simp [past]]
  simp only [Nat.reduceAdd]
  ring

/-- What telescopes adds up to what is held. -/
theorem held {u d : ℕ → ℝ} {V : ℝ → ℝ → ℝ} (V0 : V 0 0 = 0)
    (h : ∀ n, d n = V (u n) (past u n 1) - V (past u n 1) (past u n 2)) (n : ℕ) :
    ∑ k ∈ Finset.range n, d k = V (past u n 1) (past u n 2) := by
  induction n with
  | zero => simp [past, V0]
  | succ n ih =>
    rw [Finset.sum_range_succ, ih, h n]
    have e1 : past u (n + 1) 1 = u n := by simp [past]
    have e2 : past u (n + 1) 2 = past u n 1 := by
      unfold past
      by_cases hn : 1 ≤ n
      · rw [if_pos (by omega), if_pos hn]; congr 1
      · rw [if_neg (by omega), if_neg hn]
    rw [e1, e2]; ring

/-- The energy held by the all-pass, per unit of `4 K / q`, for inner samples `a` and `b`. -/
def heldAllpass (k : ℝ) (a b : ℝ) : ℝ := (1 + k ^ 2) * (a ^ 2 + b ^ 2) - 2 * (1 - k ^ 2) * a * b

theorem heldAllpass_nonneg (k a b : ℝ) : 0 ≤ heldAllpass k a b := by
  unfold heldAllpass
  nlinarith [sq_nonneg (a - b), mul_nonneg (sq_nonneg k) (sq_nonneg (a + b))]

/-- The energy held by a low-pass and a high-pass together. -/
def heldSplit (k r : ℝ) (a b : ℝ) : ℝ := 2 * r * heldAllpass k a b + 4 * k ^ 2 * (a ^ 2 - b ^ 2)

theorem heldSplit_nonneg {k r : ℝ} (hr : 0 < r) (h : k ^ 2 ≤ r ^ 2) (a b : ℝ) : 0 ≤ heldSplit k r a b := by
  set A := 2 * r * (1 + k ^ 2) + 4 * k ^ 2 with hA
  set B := 2 * r * (1 - k ^ 2) with hB
  have A0 : 0 < A := by positivity
  have e : A * heldSplit k r a b = (A * a - B * b) ^ 2 + 16 * k ^ 2 * (r ^ 2 - k ^ 2) * b ^ 2 := by
    rw [hA, hB]; unfold heldSplit heldAllpass; ring
  have : 0 ≤ A * heldSplit k r a b := by
    rw [e]
    have := mul_nonneg (mul_nonneg (sq_nonneg k) (sub_nonneg.2 h)) (sq_nonneg b)
    nlinarith [sq_nonneg (A * a - B * b)]
  exact nonneg_of_mul_nonneg_right this A0

/-! ## Signals that die away -/

/-- A quantity that contracts and is fed less and less dies away. -/
theorem starves {a e : ℕ → ℝ} {r : ℝ} (a0 : ∀ n, 0 ≤ a n) (r0 : 0 ≤ r) (r1 : r < 1) (h : ∀ n, a (n + 1) ≤ r * a n + e n)
    (he : Filter.Tendsto e Filter.atTop (nhds 0)) : Filter.Tendsto a Filter.atTop (nhds 0) := by
  rw [Metric.tendsto_atTop]
  intro ε hε
  have d : 0 < ε * (1 - r) / 2 := by have : 0 < 1 - r := by linarith
                                     positivity
  obtain ⟨N, hN⟩ := (Metric.tendsto_atTop.1 he) _ d
  have step : ∀ m, a (N + m) ≤ r ^ m * a N + ε / 2 := by
    intro m
    induction m with
    | zero => simp; linarith
    | succ m ih =>
      have h1 := h (N + m)
      have h2 := hN (N + m) (by omega)
      rw [Real.dist_eq, sub_zero] at h2
      have h3 := (abs_lt.1 h2).2
      have h4 := mul_le_mul_of_nonneg_left ih r0
      rw [show N + (m + 1) = N + m + 1 by ring, pow_succ]
      nlinarith
  have hp : Filter.Tendsto (fun m => r ^ m * a N) Filter.atTop (nhds 0) := by
    simpa using (tendsto_pow_atTop_nhds_zero_of_lt_one r0 r1).mul_const (a N)
  obtain ⟨M, hM⟩ := (Metric.tendsto_atTop.1 hp) (ε / 2) (by positivity)
  refine ⟨N + M, fun n hn => ?_⟩
  obtain ⟨m, rfl⟩ : ∃ m, n = N + m := ⟨n - N, by omega⟩
  have h1 := hM m (by omega)
  rw [Real.dist_eq, sub_zero] at h1 ⊢
  rw [abs_of_nonneg (a0 _)]
  have := (abs_lt.1 h1).2
  linarith [step m]

/-- C177: a stable filter whose input dies away dies away, whatever state it starts in. -/
theorem C177_fades {co : BiquadCoeffs ℝ} (hs : co.Stable) (z1 z2 : ℝ) {x : ℕ → ℝ} (hx : Filter.Tendsto x Filter.atTop (nhds 0)) :
    Filter.Tendsto (Biquad.outAt ⟨z1, z2, co⟩ x) Filter.atTop (nhds 0) := by
  obtain ⟨p, q, hP⟩ : ∃ p q, Poles co.a1 co.a2 p q := by
    obtain ⟨s, hs'⟩ := IsAlgClosed.exists_eq_mul_self ((co.a1 : ℂ) ^ 2 - 4 * (co.a2 : ℂ))
    have root : ∀ z : ℂ, z ^ 2 + (co.a1 : ℂ) * z + (co.a2 : ℂ) = 0 → ‖z‖ < 1 := hs
    exact ⟨(-(co.a1 : ℂ) + s) / 2, (-(co.a1 : ℂ) - s) / 2, by ring, by linear_combination (1 / 4) * hs',
      root _ (by linear_combination (-1 / 4) * hs'), root _ (by linear_combination (-1 / 4) * hs')⟩
  set f : Biquad ℝ := ⟨z1, z2, co⟩ with hf
  have hc : ∀ n, (f.stateAt x n).coeffs = co := fun n => coeffs_stateAt _ _ _
  have ha : Filter.Tendsto (fun n => |x n|) Filter.atTop (nhds 0) := by simpa using hx.abs
  have step := fun n => modalOf_step hP (f.stateAt x n).z1 (f.stateAt x n).z2 (co.b0 * x n) (co.b1 * x n) (co.b2 * x n) 0 0
  have w1 : ∀ n, co.b1 * x n + (f.stateAt x n).z2 - co.a1 * (co.b0 * x n + (f.stateAt x n).z1) + 0 = (f.stateAt x (n + 1)).z1 := by
    intro n; simp only [Biquad.stateAt, Biquad.process, hc]; ring
  have w2 : ∀ n, co.b2 * x n - co.a2 * (co.b0 * x n + (f.stateAt x n).z1) + 0 = (f.stateAt x (n + 1)).z2 := by
    intro n; simp only [Biquad.stateAt, Biquad.process, hc]; ring
  simp only [w1, w2, abs_mul, abs_zero, add_zero] at step
  have m0 : Filter.Tendsto (fun n => ‖modalOf p (f.stateAt x n).z1 (f.stateAt x n).z2‖) Filter.atTop (nhds 0) := by
    refine starves (e := fun n => (3 * |co.b0| + |co.b1| + |co.b2|) * |x n|) (fun _ => norm_nonneg _) (norm_nonneg p) hP.left (fun n => ?_) ?_
    · refine (step n).1.trans (le_of_eq (by ring))
    · simpa using ha.const_mul (3 * |co.b0| + |co.b1| + |co.b2|)
  have s0 : Filter.Tendsto (fun n => |(f.stateAt x n).z1|) Filter.atTop (nhds 0) := by
    refine starves (e := fun n => ‖modalOf p (f.stateAt x n).z1 (f.stateAt x n).z2‖ + (2 * |co.b0| + |co.b1|) * |x n|)
      (fun _ => abs_nonneg _) (norm_nonneg q) hP.right (fun n => ?_) ?_
    · refine (step n).2.trans (le_of_eq (by ring))
    · simpa using m0.add (ha.const_mul (2 * |co.b0| + |co.b1|))
  have e : Biquad.outAt f x = fun n => co.b0 * x n + (f.stateAt x n).z1 := by
    funext n; simp only [Biquad.outAt, Biquad.process, hc]
  rw [e]
  simpa using (hx.const_mul co.b0).add (tendsto_zero_iff_abs_tendsto_zero _ |>.2 s0)

theorem inner_fades {co : BiquadCoeffs ℝ} (hs : co.Stable) {x : ℕ → ℝ} (hx : Filter.Tendsto x Filter.atTop (nhds 0)) (k : ℕ) :
    Filter.Tendsto (fun n => past (inner co x) n k) Filter.atTop (nhds 0) := by
  have h : Filter.Tendsto (inner co x) Filter.atTop (nhds 0) :=
    C177_fades (co := ⟨1, 0, 0, co.a1, co.a2⟩) hs (lit 0) (lit 0) hx
  have : Filter.Tendsto (fun n => inner co x (n - k)) Filter.atTop (nhds 0) := h.comp (Filter.tendsto_sub_atTop_nat k)
  refine this.congr' ?_
  filter_upwards [Filter.eventually_ge_atTop k] with n hn
  simp [past, hn]

/-- The samples of a signal of finite energy die away. -/
theorem finite_energy_fades {x : ℕ → ℝ} {E : ℝ} (h : HasSum (fun n => x n ^ 2) E) : Filter.Tendsto x Filter.atTop (nhds 0) := by
  have := h.summable.tendsto_atTop_zero
  rw [tendsto_zero_iff_abs_tendsto_zero]
  have h2 := this.sqrt
  simpa [Real.sqrt_sq_eq_abs, Function.comp_def] using h2

section
variable {powi : ℝ → ℕ → ℝ} {fc q gain sr : ℝ}

/-- What the coefficients of the filters make of the inner signal: `h` and `l` are the high-pass and the low-pass, `d` the difference. -/
theorem filters_inner (hp : PowiExact powi) (hfc : 0 < fc) (hq : 0 < q) (hsr : 0 < sr) (x : ℕ → ℝ) :
    ∃ u : ℕ → ℝ, (∀ n, x n = (u n - 2 * past u n 1 + past u n 2) + warp powi fc sr / q * (u n - past u n 2)
        + warp powi fc sr ^ 2 * (u n + 2 * past u n 1 + past u n 2)) ∧
      (∀ n, (Biquad.new (lowpass powi fc q sr)).outAt x n = warp powi fc sr ^ 2 * (u n + 2 * past u n 1 + past u n 2)) ∧
      (∀ n, (Biquad.new (highpass powi fc q sr)).outAt x n = u n - 2 * past u n 1 + past u n 2) ∧
      (Filter.Tendsto x Filter.atTop (nhds 0) → ∀ k, Filter.Tendsto (fun n => past u n k) Filter.atTop (nhds 0)) := by
  have hk := warp_pos hp hfc hsr
  have hn := nondegenerate hq hk
  set L := lowpass powi fc q sr with hL
  set H := highpass powi fc q sr with hH
  have La1 : L.a1 = 2 * (warp powi fc sr ^ 2 - 1) / (1 + warp powi fc sr / q + warp powi fc sr ^ 2) := by
    simp [hL, lowpass, lowpassOf, setup_eq, Lit.lit]; field_simp
  have La2 : L.a2 = (1 - warp powi fc sr / q + warp powi fc sr ^ 2) / (1 + warp powi fc sr / q + warp powi fc sr ^ 2) := by
    simp [hL, lowpass, lowpassOf, setup_eq, Lit.lit]; field_simp
  have L0 : L.b0 = warp powi fc sr ^ 2 / (1 + warp powi fc sr / q + warp powi fc sr ^ 2) := by
    simp [hL, lowpass, lowpassOf, setup_eq, Lit.lit]; field_simp
  have L1 : L.b1 = 2 * warp powi fc sr ^ 2 / (1 + warp powi fc sr / q + warp powi fc sr ^ 2) := by
    simp [hL, lowpass, lowpassOf, setup_eq, Lit.lit]; field_simp
  have L2 : L.b2 = warp powi fc sr ^ 2 / (1 + warp powi fc sr / q + warp powi fc sr ^ 2) := by
    simp [hL, lowpass, lowpassOf, setup_eq, Lit.lit]; field_simp
  have H0 : H.b0 = 1 / (1 + warp powi fc sr / q + warp powi fc sr ^ 2) := by
    simp [hH, highpass, highpassOf, setup_eq, Lit.lit]
  have H1 : H.b1 = -2 / (1 + warp powi fc sr / q + warp powi fc sr ^ 2) := by
    simp [hH, highpass, highpassOf, setup_eq, Lit.lit]; field_simp
  have H2 : H.b2 = 1 / (1 + warp powi fc sr / q + warp powi fc sr ^ 2) := by
    simp [hH, highpass, highpassOf, setup_eq, Lit.lit]
  have iH : inner H = inner L := by
    unfold inner
    rw [show H.a1 = L.a1 by simp [hL, hH, lowpass, highpass, lowpassOf, highpassOf, setup_eq, Lit.lit]; ring,
      show H.a2 = L.a2 by simp [hL, hH, lowpass, highpass, lowpassOf, highpassOf, setup_eq, Lit.lit]]
  have hs := (C35_stable (sqrt := fun x => x) (gain := 1) hp hfc hq hsr).1
  rw [← hL] at hs
  generalize warp powi fc sr = k at *
  generalize k / q = r at *
  have p : ∀ n j, past (fun m => inner L x m / (1 + r + k ^ 2)) n j = past (inner L x) n j / (1 + r + k ^ 2) := by
    intro n j; unfold past; split_ifs <;> simp
  refine ⟨fun n => inner L x n / (1 + r + k ^ 2), fun n => ?_, fun n => ?_, fun n => ?_, fun hx j => ?_⟩
  · rw [p, p, inner_in L x n, La1, La2]
    field_simp
    ring
  · rw [p, p, inner_out, L0, L1, L2]
    field_simp
  · rw [p, p, inner_out, iH, H0, H1, H2]
    field_simp
    ring
  · simp only [p]
    simpa using (inner_fades hs hx j).div_const (1 + r + k ^ 2)

/-- The step every energy claim needs: the product of the difference and the sum signal telescopes. -/
theorem cross_telescopes (k a b c : ℝ) :
    (a - c) * ((a - 2 * b + c) + k ^ 2 * (a + 2 * b + c)) = heldAllpass k a b - heldAllpass k b c := by
  unfold heldAllpass; ring

theorem energy_sub (x y : ℕ → ℝ) (n : ℕ) : energy x n - energy y n = ∑ k ∈ Finset.range n, (x k ^ 2 - y k ^ 2) := by
  unfold energy; rw [← Finset.sum_sub_distrib]

theorem allpass_balance (hp : PowiExact powi) (hfc : 0 < fc) (hq : 0 < q) (hsr : 0 < sr) (x : ℕ → ℝ) :
    ∃ u : ℕ → ℝ, (∀ n, energy x n - energy ((Biquad.new (allpass powi fc q sr)).outAt x) n =
        4 * (warp powi fc sr / q) * heldAllpass (warp powi fc sr) (past u n 1) (past u n 2)) ∧
      (Filter.Tendsto x Filter.atTop (nhds 0) → ∀ k, Filter.Tendsto (fun n => past u n k) Filter.atTop (nhds 0)) := by
  obtain ⟨u, hx, hl, hh, hf⟩ := filters_inner hp hfc hq hsr x
  refine ⟨u, fun n => ?_, hf⟩
  rw [energy_sub]
  refine held (u := u) (V := fun a b => 4 * (warp powi fc sr / q) * heldAllpass (warp powi fc sr) a b) (by simp [heldAllpass]) (fun m => ?_) n
  rw [C147_allpass hp hfc hq hsr, C147_notch hp hfc hq hsr, hl, hh]
  have := cross_telescopes (warp powi fc sr) (u m) (past u m 1) (past u m 2)
  linear_combination 4 * (warp powi fc sr / q) * this +
    4 * (warp powi fc sr ^ 2 * (u m + 2 * past u m 1 + past u m 2) + (u m - 2 * past u m 1 + past u m 2)) * hx m

/-- C177: the energy that has come out of the all-pass is never more than what has gone in. -/
theorem C177_allpass (hp : PowiExact powi) (hfc : 0 < fc) (hq : 0 < q) (hsr : 0 < sr) (x : ℕ → ℝ) (n : ℕ) :
    energy ((Biquad.new (allpass powi fc q sr)).outAt x) n ≤ energy x n := by
  obtain ⟨u, h, -⟩ := allpass_balance hp hfc hq hsr x
  have hk := warp_pos hp hfc hsr
  have := mul_nonneg (show 0 ≤ 4 * (warp powi fc sr / q) by positivity) (heldAllpass_nonneg (warp powi fc sr) (past u n 1) (past u n 2))
  linarith [h n]

theorem hasSum_energy {x : ℕ → ℝ} {E : ℝ} (h : HasSum (fun n => x n ^ 2) E) : Filter.Tendsto (energy x) Filter.atTop (nhds E) :=
  h.tendsto_sum_nat

theorem energy_hasSum {x : ℕ → ℝ} {E : ℝ} (h : Filter.Tendsto (energy x) Filter.atTop (nhds E)) : HasSum (fun n => x n ^ 2) E :=
  (hasSum_iff_tendsto_nat_of_nonneg (fun n => sq_nonneg (x n)) E).2 h

theorem held_fades {k : ℝ} {u : ℕ → ℝ} (h : ∀ j, Filter.Tendsto (fun n => past u n j) Filter.atTop (nhds 0)) :
    Filter.Tendsto (fun n => heldAllpass k (past u n 1) (past u n 2)) Filter.atTop (nhds 0) := by
  have c : Continuous (fun p : ℝ × ℝ => heldAllpass k p.1 p.2) := by unfold heldAllpass; fun_prop
  have := (c.tendsto (0, 0)).comp ((h 1).prodMk_nhds (h 2))
  simpa [heldAllpass, Function.comp_def] using this

/-- C177: and all of it comes out: the all-pass keeps the energy of every signal that has one. -/
theorem C177_allpass_total (hp : PowiExact powi) (hfc : 0 < fc) (hq : 0 < q) (hsr : 0 < sr) {x : ℕ → ℝ} {E : ℝ}
    (hx : HasSum (fun n => x n ^ 2) E) : HasSum (fun n => (Biquad.new (allpass powi fc q sr)).outAt x n ^ 2) E := by
  obtain ⟨u, h, hf⟩ := allpass_balance hp hfc hq hsr x
  apply energy_hasSum
  have h1 := (hasSum_energy hx).sub ((held_fades (k := warp powi fc sr) (hf (finite_energy_fades hx))).const_mul (4 * (warp powi fc sr / q)))
  rw [mul_zero, sub_zero] at h1
  exact h1.congr (fun n => by rw [← h n]; ring)

/-- What a low-pass and a high-pass leave over of the energy. -/
theorem split_balance (hp : PowiExact powi) (hfc : 0 < fc) (hq : 0 < q) (hsr : 0 < sr) (x : ℕ → ℝ) :
    ∃ u : ℕ → ℝ, (∀ n, energy x n - energy ((Biquad.new (lowpass powi fc q sr)).outAt x) n
        - energy ((Biquad.new (highpass powi fc q sr)).outAt x) n =
        heldSplit (warp powi fc sr) (warp powi fc sr / q) (past u n 1) (past u n 2) +
        warp powi fc sr ^ 2 * (1 / q ^ 2 - 2) * ∑ j ∈ Finset.range n, (u j - past u j 2) ^ 2) ∧
      (Filter.Tendsto x Filter.atTop (nhds 0) → ∀ k, Filter.Tendsto (fun n => past u n k) Filter.atTop (nhds 0)) := by
  obtain ⟨u, hx, hl, hh, hf⟩ := filters_inner hp hfc hq hsr x
  refine ⟨u, fun n => ?_, hf⟩
  set k := warp powi fc sr
  set L := (Biquad.new (lowpass powi fc q sr)).outAt x
  set H := (Biquad.new (highpass powi fc q sr)).outAt x
  have key := held (u := u) (d := fun m => x m ^ 2 - L m ^ 2 - H m ^ 2 - k ^ 2 * (1 / q ^ 2 - 2) * (u m - past u m 2) ^ 2)
    (V := heldSplit k (k / q)) (by simp [heldSplit, heldAllpass]) (fun m => by
      simp only [hl, hh]
      have := cross_telescopes k (u m) (past u m 1) (past u m 2)
      simp only [heldSplit]
      have hxm := hx m
      linear_combination 2 * (k / q) * this + (x m + ((u m - 2 * past u m 1 + past u m 2) + k / q * (u m - past u m 2)
        + k ^ 2 * (u m + 2 * past u m 1 + past u m 2))) * hxm) n
  rw [Finset.sum_sub_distrib, Finset.sum_sub_distrib, Finset.sum_sub_distrib, ← Finset.mul_sum] at key
  unfold energy
  linarith

/-- C177: a low-pass and a high-pass of one frequency and a quality of at most `1/√2` share the energy of the signal between them: together
they never give out more than came in. -/
theorem C177_split (hp : PowiExact powi) (hfc : 0 < fc) (hq : 0 < q) (hr : q ^ 2 ≤ 1 / 2) (hsr : 0 < sr) (x : ℕ → ℝ) (n : ℕ) :
    energy ((Biquad.new (lowpass powi fc q sr)).outAt x) n + energy ((Biquad.new (highpass powi fc q sr)).outAt x) n ≤ energy x n := by
  obtain ⟨u, h, -⟩ := split_balance hp hfc hq hsr x
  have hk := warp_pos hp hfc hsr
  have s2 : 2 ≤ 1 / q ^ 2 := by rw [le_div_iff₀ (by positivity)]; linarith
  have h1 := heldSplit_nonneg (k := warp powi fc sr) (r := warp powi fc sr / q) (by positivity) (by
    rw [div_pow, div_eq_mul_one_div]; nlinarith [sq_nonneg (warp powi fc sr)]) (past u n 1) (past u n 2)
  have h2 := mul_nonneg (mul_nonneg (sq_nonneg (warp powi fc sr)) (sub_nonneg.2 s2))
    (Finset.sum_nonneg (s := Finset.range n) (fun j _ => sq_nonneg (u j - past u j 2)))
  linarith [h n]

/-- C177: at `q = 1/√2`, the Butterworth case, nothing is lost either: the energies of the two add up to the energy of the signal. -/
theorem C177_split_total (hp : PowiExact powi) (hfc : 0 < fc) (hq : 0 < q) (hr : q ^ 2 = 1 / 2) (hsr : 0 < sr) {x : ℕ → ℝ} {E : ℝ}
    (hx : HasSum (fun n => x n ^ 2) E) :
    HasSum (fun n => (Biquad.new (lowpass powi fc q sr)).outAt x n ^ 2 + (Biquad.new (highpass powi fc q sr)).outAt x n ^ 2) E := by
  obtain ⟨u, h, hf⟩ := split_balance hp hfc hq hsr x
  have hu := hf (finite_energy_fades hx)
  rw [hasSum_iff_tendsto_nat_of_nonneg (fun n => by positivity)]
  have h0 : Filter.Tendsto (fun n => heldSplit (warp powi fc sr) (warp powi fc sr / q) (past u n 1) (past u n 2)) Filter.atTop (nhds 0) := by
    have := ((held_fades (k := warp powi fc sr) hu).const_mul (2 * (warp powi fc sr / q))).add
      ((((hu 1).pow 2).sub ((hu 2).pow 2)).const_mul (4 * warp powi fc sr ^ 2))
    simpa [heldSplit] using this
  have h1 := (hasSum_energy hx).sub h0
  rw [sub_zero] at h1
  refine h1.congr (fun n => ?_)
  have := h n
  rw [hr, show (1 / (1 / 2 : ℝ) - 2) = 0 by norm_num, mul_zero, zero_mul, add_zero] at this
  rw [← this, Finset.sum_add_distrib]
  unfold energy; ring

/-- Inner signals make the energies of the boosting bell, the notch and the input comparable. -/
theorem bell_balance (hp : PowiExact powi) (hfc : 0 < fc) (hq : 0 < q) (hsr : 0 < sr) (x : ℕ → ℝ) :
    ∃ s d : ℕ → ℝ, (∀ n, x n = s n + d n) ∧ (∀ n, (Biquad.new (notch powi fc q sr)).outAt x n = s n) ∧
      (∀ gain n, (Biquad.new (bellBoost powi fc q gain sr)).outAt x n = s n + gain * d n) ∧
      ∀ n, 0 ≤ ∑ j ∈ Finset.range n, s j * d j := by
  obtain ⟨u, hx, hl, hh, -⟩ := filters_inner hp hfc hq hsr x
  have hk := warp_pos hp hfc hsr
  set k := warp powi fc sr
  have hN : ∀ n, (Biquad.new (notch powi fc q sr)).outAt x n =
      k ^ 2 * (u n + 2 * past u n 1 + past u n 2) + (u n - 2 * past u n 1 + past u n 2) := by
    intro n; rw [C147_notch hp hfc hq hsr, hl, hh]
  refine ⟨fun n => k ^ 2 * (u n + 2 * past u n 1 + past u n 2) + (u n - 2 * past u n 1 + past u n 2),
    fun n => k / q * (u n - past u n 2), fun n => by rw [hx n]; ring, hN, fun gain n => ?_, fun n => ?_⟩
  · rw [C147_bell hp hfc hq hsr, hN, hx n]; ring
  · rw [held (u := u) (V := fun a b => k / q * heldAllpass k a b) (by simp [heldAllpass]) (fun m => by
      have := cross_telescopes k (u m) (past u m 1) (past u m 2)
      linear_combination (k / q) * this) n]
    exact mul_nonneg (by positivity) (heldAllpass_nonneg _ _ _)

/-- C177: the notch never adds energy. -/
theorem C177_notch (hp : PowiExact powi) (hfc : 0 < fc) (hq : 0 < q) (hsr : 0 < sr) (x : ℕ → ℝ) (n : ℕ) :
    energy ((Biquad.new (notch powi fc q sr)).outAt x) n ≤ energy x n := by
  obtain ⟨s, d, hx, hn, -, h⟩ := bell_balance hp hfc hq hsr x
  have e : energy x n - energy ((Biquad.new (notch powi fc q sr)).outAt x) n =
      2 * ∑ j ∈ Finset.range n, s j * d j + ∑ j ∈ Finset.range n, d j ^ 2 := by
    rw [energy_sub, Finset.mul_sum, ← Finset.sum_add_distrib]
    exact Finset.sum_congr rfl (fun j _ => by rw [hx, hn]; ring)
  have := Finset.sum_nonneg (s := Finset.range n) (fun j _ => sq_nonneg (d j))
  linarith [h n]

/-- The energy a bell adds, and what is missing to the square of its gain. -/
theorem bell_energy (hp : PowiExact powi) (hfc : 0 < fc) (hq : 0 < q) (hsr : 0 < sr) (gain : ℝ) (x : ℕ → ℝ) (n : ℕ) :
    ∃ S D P : ℝ, 0 ≤ S ∧ 0 ≤ D ∧ 0 ≤ P ∧
      energy ((Biquad.new (bellBoost powi fc q gain sr)).outAt x) n - energy x n = 2 * (gain - 1) * P + (gain ^ 2 - 1) * D ∧
      gain ^ 2 * energy x n - energy ((Biquad.new (bellBoost powi fc q gain sr)).outAt x) n =
        2 * gain * (gain - 1) * P + (gain ^ 2 - 1) * S := by
  obtain ⟨s, d, hx, -, hb, h⟩ := bell_balance hp hfc hq hsr x
  refine ⟨∑ j ∈ Finset.range n, s j ^ 2, ∑ j ∈ Finset.range n, d j ^ 2, ∑ j ∈ Finset.range n, s j * d j,
    Finset.sum_nonneg (fun j _ => sq_nonneg (s j)), Finset.sum_nonneg (fun j _ => sq_nonneg (d j)), h n, ?_, ?_⟩
  · rw [energy_sub, Finset.mul_sum, Finset.mul_sum, ← Finset.sum_add_distrib]
    exact Finset.sum_congr rfl (fun j _ => by rw [hx, hb]; ring)
  · unfold energy
    rw [Finset.mul_sum, Finset.mul_sum, Finset.mul_sum, ← Finset.sum_sub_distrib, ← Finset.sum_add_distrib]
    exact Finset.sum_congr rfl (fun j _ => by rw [hx, hb]; ring)

/-- C177: a bell that boosts never takes energy away and raises it to the square of its gain at most. -/
theorem C177_bell_boost (hp : PowiExact powi) (hfc : 0 < fc) (hq : 0 < q) (hsr : 0 < sr) (hg : 1 ≤ gain) (x : ℕ → ℝ) (n : ℕ) :
    energy x n ≤ energy ((Biquad.new (bellBoost powi fc q gain sr)).outAt x) n ∧
    energy ((Biquad.new (bellBoost powi fc q gain sr)).outAt x) n ≤ gain ^ 2 * energy x n := by
  obtain ⟨S, D, P, hS, hD, hP, e1, e2⟩ := bell_energy hp hfc hq hsr gain x n
  have g2 : 0 ≤ gain ^ 2 - 1 := by nlinarith
  have g1 : 0 ≤ gain - 1 := by linarith
  have n1 := mul_nonneg g2 hD
  have n2 := mul_nonneg g2 hS
  have n3 := mul_nonneg (mul_nonneg (by norm_num : (0:ℝ) ≤ 2) g1) hP
  have n4 := mul_nonneg (mul_nonneg (by linarith : (0:ℝ) ≤ 2 * gain) g1) hP
  constructor <;> linarith

/-- C177: a bell with a gain between 0 and 1 never adds energy and lowers it to the square of its gain at least. -/
theorem C177_bell_below_one (hp : PowiExact powi) (hfc : 0 < fc) (hq : 0 < q) (hsr : 0 < sr) (g0 : 0 ≤ gain) (hg : gain ≤ 1) (x : ℕ → ℝ)
    (n : ℕ) :
    gain ^ 2 * energy x n ≤ energy ((Biquad.new (bellBoost powi fc q gain sr)).outAt x) n ∧
    energy ((Biquad.new (bellBoost powi fc q gain sr)).outAt x) n ≤ energy x n := by
  obtain ⟨S, D, P, hS, hD, hP, e1, e2⟩ := bell_energy hp hfc hq hsr gain x n
  have g2 : 0 ≤ 1 - gain ^ 2 := by nlinarith
  have g1 : 0 ≤ 1 - gain := by linarith
  have n1 := mul_nonneg g2 hD
  have n2 := mul_nonneg g2 hS
  have n3 := mul_nonneg (mul_nonneg (by norm_num : (0:ℝ) ≤ 2) g1) hP
  have n4 := mul_nonneg (mul_nonneg (by linarith : (0:ℝ) ≤ 2 * gain) g1) hP
  constructor <;> linarith

/-- The cutting bell undoes the boosting bell of the opposite gain. -/
theorem bell_inverse (hp : PowiExact powi) (hfc : 0 < fc) (hq : 0 < q) (hsr : 0 < sr) (hg : 0 ≤ gain) (x : ℕ → ℝ) :
    (Biquad.new (bellBoost powi fc q gain sr)).outAt ((Biquad.new (bellCut powi fc q (-gain) sr)).outAt x) = x := by
  have hk := warp_pos hp hfc hsr
  have ha := nondegenerate hq hk
  have hb : 1 + warp powi fc sr / q * gain + warp powi fc sr ^ 2 ≠ 0 := by positivity
  funext m
  apply inverse_filter <;> simp only [bellBoost, bellCut, setup_eq, bellBoostOf, bellCutOf, Lit.lit] <;>
    push_cast <;> simp only [neg_neg] <;> generalize warp powi fc sr = k at * <;> generalize k / q = r at * <;>
    field_simp

/-- C177: a bell that cuts never adds energy and lowers it to one over the square of its gain at least. -/
theorem C177_bell_cut (hp : PowiExact powi) (hfc : 0 < fc) (hq : 0 < q) (hsr : 0 < sr) (hg : 1 ≤ gain) (x : ℕ → ℝ) (n : ℕ) :
    energy ((Biquad.new (bellCut powi fc q (-gain) sr)).outAt x) n ≤ energy x n ∧
    energy x n ≤ gain ^ 2 * energy ((Biquad.new (bellCut powi fc q (-gain) sr)).outAt x) n := by
  have := C177_bell_boost hp hfc hq hsr hg ((Biquad.new (bellCut powi fc q (-gain) sr)).outAt x) n
  rwa [bell_inverse hp hfc hq hsr (by linarith)] at this

/-- C177: a bell with a gain between -1 and 0 boosts: it never takes energy away. -/
theorem C177_bell_cut_below_one (hp : PowiExact powi) (hfc : 0 < fc) (hq : 0 < q) (hsr : 0 < sr) (g0 : 0 ≤ gain) (hg : gain ≤ 1)
    (x : ℕ → ℝ) (n : ℕ) :
    energy x n ≤ energy ((Biquad.new (bellCut powi fc q (-gain) sr)).outAt x) n ∧
    gain ^ 2 * energy ((Biquad.new (bellCut powi fc q (-gain) sr)).outAt x) n ≤ energy x n := by
  have := C177_bell_below_one hp hfc hq hsr g0 hg ((Biquad.new (bellCut powi fc q (-gain) sr)).outAt x) n
  rw [bell_inverse hp hfc hq hsr g0] at this
  exact ⟨this.2, this.1⟩

/-- What is held, in terms of the difference and the sum of the inner samples. -/
theorem heldSplit_eq (k r a b : ℝ) :
    heldSplit k r a b = 2 * r * ((a - b) ^ 2 + k ^ 2 * (a + b) ^ 2) + 4 * k ^ 2 * ((a - b) * (a + b)) := by
  unfold heldSplit heldAllpass; ring

theorem shelf_held {k r t : ℝ} (hr : 0 < r) (h : r ^ 2 = 2 * k ^ 2) (ht : 1 ≤ t) (a b : ℝ) :
    heldSplit k r a b ≤ heldSplit (t * k) (t * r) a b ∧ heldSplit (t * k) (t * r) a b ≤ t ^ 4 * heldSplit k r a b := by
  rw [heldSplit_eq, heldSplit_eq]
  generalize a - b = P
  generalize a + b = Q
  have k0 : k ^ 2 = r ^ 2 / 2 := by linarith
  have t0 : 0 ≤ t - 1 := by linarith
  constructor
  · have e : 2 * (t * r) * (P ^ 2 + (t * k) ^ 2 * Q ^ 2) + 4 * (t * k) ^ 2 * (P * Q) -
        (2 * r * (P ^ 2 + k ^ 2 * Q ^ 2) + 4 * k ^ 2 * (P * Q)) =
        (t - 1) * r * (2 * (P + (t + 1) / 2 * (r * Q)) ^ 2 + (t ^ 2 + 1) / 2 * (r * Q) ^ 2) := by
      rw [mul_pow, k0]; ring
    have := mul_nonneg (mul_nonneg t0 hr.le) (show 0 ≤ 2 * (P + (t + 1) / 2 * (r * Q)) ^ 2 + (t ^ 2 + 1) / 2 * (r * Q) ^ 2 by positivity)
    linarith
  · have e : t ^ 4 * (2 * r * (P ^ 2 + k ^ 2 * Q ^ 2) + 4 * k ^ 2 * (P * Q)) -
        (2 * (t * r) * (P ^ 2 + (t * k) ^ 2 * Q ^ 2) + 4 * (t * k) ^ 2 * (P * Q)) =
        t * ((t - 1) * r) * ((t * (r * Q) + (t + 1) * P) ^ 2 + (t ^ 2 + 1) * P ^ 2) := by
      rw [mul_pow, k0]; ring
    have := mul_nonneg (mul_nonneg (by linarith : 0 ≤ t) (mul_nonneg t0 hr.le))
      (show 0 ≤ (t * (r * Q) + (t + 1) * P) ^ 2 + (t ^ 2 + 1) * P ^ 2 by positivity)
    linarith

/-- C177: a low shelf of quality `1/√2` that boosts never takes energy away and raises it to the square of its gain at most. -/
theorem C177_low_shelf_boost {sqrt : ℝ → ℝ} (hp : PowiExact powi) (hsq : SqrtExact sqrt) (hfc : 0 < fc) (hq : 0 < q) (hr : q ^ 2 = 1 / 2)
    (hsr : 0 < sr) (hg : 1 ≤ gain) (x : ℕ → ℝ) (n : ℕ) :
    energy x n ≤ energy ((Biquad.new (lowShelfBoost powi sqrt fc q gain sr)).outAt x) n ∧
    energy ((Biquad.new (lowShelfBoost powi sqrt fc q gain sr)).outAt x) n ≤ gain ^ 2 * energy x n := by
  have hk := warp_pos hp hfc hsr
  have hn := nondegenerate hq hk
  obtain ⟨t, t1, hgt⟩ : ∃ t : ℝ, 1 ≤ t ∧ gain = t ^ 2 := ⟨√gain, Real.one_le_sqrt.2 hg, (Real.sq_sqrt (by linarith)).symm⟩
  have r2 : (warp powi fc sr / q) ^ 2 = 2 * warp powi fc sr ^ 2 := by rw [div_pow, hr]; ring
  have root : sqrt (gain * 2 * warp powi fc sr ^ 2) = t * (warp powi fc sr / q) := by
    rw [hsq _ (by positivity), hgt, show t ^ 2 * 2 * warp powi fc sr ^ 2 = (t * (warp powi fc sr / q)) ^ 2 by rw [mul_pow, r2]; ring]
    exact Real.sqrt_sq (by positivity)
  obtain ⟨u, hx, hl, hh, -⟩ := filters_inner hp hfc hq hsr x
  have hy : ∀ m, (Biquad.new (lowShelfBoost powi sqrt fc q gain sr)).outAt x m =
      (1 - t) * (Biquad.new (highpass powi fc q sr)).outAt x m + (t ^ 2 - t) * (Biquad.new (lowpass powi fc q sr)).outAt x m + t * x m := by
    intro m
    apply combine <;> simp only [lowShelfBoost, lowShelfBoostOf, highpass, highpassOf, lowpass, lowpassOf, setup_eq, Lit.lit] <;>
      push_cast <;> (try rw [root]) <;> (try rw [hgt]) <;> generalize warp powi fc sr = k at * <;>
      generalize k / q = r at * <;> field_simp <;> try ring
  set k := warp powi fc sr
  set r := k / q with hrr
  have rp : 0 < r := by positivity
  set H := (Biquad.new (highpass powi fc q sr)).outAt x
  set L := (Biquad.new (lowpass powi fc q sr)).outAt x
  have ex : energy x n = energy H n + energy L n + heldSplit k r (past u n 1) (past u n 2) := by
    rw [← held (u := u) (d := fun m => x m ^ 2 - H m ^ 2 - L m ^ 2) (V := heldSplit k r) (by simp [heldSplit, heldAllpass]) (fun m => by
      simp only [hl, hh]
      have := cross_telescopes k (u m) (past u m 1) (past u m 2)
      have hxm := hx m
      simp only [heldSplit]
      linear_combination 2 * r * this + (u m - past u m 2) ^ 2 * r2 + (x m + ((u m - 2 * past u m 1 + past u m 2) + r * (u m - past u m 2)
        + k ^ 2 * (u m + 2 * past u m 1 + past u m 2))) * hxm) n]
    rw [Finset.sum_sub_distrib, Finset.sum_sub_distrib]; unfold energy; ring
  have ey : energy ((Biquad.new (lowShelfBoost powi sqrt fc q gain sr)).outAt x) n =
      energy H n + t ^ 4 * energy L n + heldSplit (t * k) (t * r) (past u n 1) (past u n 2) := by
    rw [← held (u := u) (d := fun m => (Biquad.new (lowShelfBoost powi sqrt fc q gain sr)).outAt x m ^ 2 - H m ^ 2 - t ^ 4 * L m ^ 2)
      (V := heldSplit (t * k) (t * r)) (by simp [heldSplit, heldAllpass]) (fun m => by
      simp only [hy, hl, hh]
      have := cross_telescopes (t * k) (u m) (past u m 1) (past u m 2)
      rw [hx m]
      simp only [heldSplit]
      linear_combination 2 * (t * r) * this + t ^ 2 * (u m - past u m 2) ^ 2 * r2) n]
    rw [Finset.sum_sub_distrib, Finset.sum_sub_distrib, ← Finset.mul_sum]; unfold energy; ring
  obtain ⟨h1, h2⟩ := shelf_held rp r2 t1 (past u n 1) (past u n 2)
  have nH : 0 ≤ energy H n := Finset.sum_nonneg fun j _ => sq_nonneg _
  have nL : 0 ≤ energy L n := Finset.sum_nonneg fun j _ => sq_nonneg _
  have t4 : 1 ≤ t ^ 4 := one_le_pow₀ t1
  have m1 := mul_nonneg (sub_nonneg.2 t4) nH
  have m2 := mul_nonneg (sub_nonneg.2 t4) nL
  rw [ey, ex, hgt]
  constructor <;> nlinarith

/-- C177: and one that cuts undoes this. -/
theorem C177_low_shelf_cut {sqrt : ℝ → ℝ} (hp : PowiExact powi) (hsq : SqrtExact sqrt) (hfc : 0 < fc) (hq : 0 < q) (hr : q ^ 2 = 1 / 2)
    (hsr : 0 < sr) (hg : 1 ≤ gain) (x : ℕ → ℝ) (n : ℕ) :
    energy ((Biquad.new (lowShelfCut powi sqrt fc q (-gain) sr)).outAt x) n ≤ energy x n ∧
    energy x n ≤ gain ^ 2 * energy ((Biquad.new (lowShelfCut powi sqrt fc q (-gain) sr)).outAt x) n := by
  have hk := warp_pos hp hfc hsr
  have ha := nondegenerate hq hk
  have s0 : 0 ≤ sqrt (gain * 2 * warp powi fc sr ^ 2) := by rw [hsq _ (by positivity)]; exact Real.sqrt_nonneg _
  have hb : 1 + sqrt (gain * 2 * warp powi fc sr ^ 2) + gain * warp powi fc sr ^ 2 ≠ 0 := by positivity
  have inv : (Biquad.new (lowShelfBoost powi sqrt fc q gain sr)).outAt ((Biquad.new (lowShelfCut powi sqrt fc q (-gain) sr)).outAt x) = x := by
    funext m
    apply inverse_filter <;> simp only [lowShelfBoost, lowShelfCut, setup_eq, lowShelfBoostOf, lowShelfCutOf, Lit.lit] <;>
      push_cast <;> simp only [neg_neg] <;> generalize sqrt (gain * 2 * warp powi fc sr ^ 2) = s at * <;>
      generalize warp powi fc sr = k at * <;> generalize k / q = r at * <;> field_simp
  have := C177_low_shelf_boost hp hsq hfc hq hr hsr hg ((Biquad.new (lowShelfCut powi sqrt fc q (-gain) sr)).outAt x) n
  rwa [inv] at this

/-- A filter that lifts some frequency adds energy to some signal. -/
theorem lifts_energy {co : BiquadCoeffs ℝ} (hs : co.Stable) {z : ℂ} (hz : ‖z‖ = 1) (hg : 1 < ‖co.cgain z‖) :
    ∃ x n, energy x n < energy ((Biquad.new co).outAt x) n := by
  set f : Biquad ℝ := Biquad.new co with hf
  set F : Biquad ℂ := ⟨(f.z1 : ℂ), f.z2, f.coeffs.map (fun r : ℝ => (r : ℂ))⟩ with hF
  set Y : ℕ → ℂ := F.outAt (fun m => z ^ m) with hY
  have hre : ∀ n, (Y n).re = f.outAt (fun m => (z ^ m).re) n := fun n => outAt_re f _ n
  have him : ∀ n, (Y n).im = f.outAt (fun m => (z ^ m).im) n := by
    intro n
    have h1 := outAt_re f (fun m => -Complex.I * z ^ m) n
    have h2 : F.outAt (fun m => -Complex.I * z ^ m) n = -Complex.I * Y n := by
      have e : F = Biquad.new (co.map (fun r : ℝ => (r : ℂ))) := by simp [hF, hf, Biquad.new, Lit.lit]
      have := C28_linear (co.map (fun r : ℝ => (r : ℂ))) (-Complex.I) 0 (fun m => z ^ m) (fun m => z ^ m) n
      simp only [zero_mul, add_zero] at this
      rw [hY, e, this]
    rw [← hF, h2] at h1
    simpa using h1
  have lim : Filter.Tendsto (fun n => Y n - co.cgain z * z ^ n) Filter.atTop (nhds 0) :=
    gain_measured (co := co.map (fun r : ℝ => (r : ℂ))) hs hz F rfl
  obtain ⟨c, c1, c2⟩ := exists_between hg
  obtain ⟨N, hN⟩ := Metric.tendsto_atTop.1 lim (‖co.cgain z‖ - c) (by linarith)
  have big : ∀ n ≥ N, c ^ 2 ≤ ‖Y n‖ ^ 2 := by
    intro n hn
    have h1 := hN n hn
    rw [dist_zero_right] at h1
    have h2 := norm_sub_norm_le (co.cgain z * z ^ n) (co.cgain z * z ^ n - Y n)
    rw [sub_sub_cancel, norm_mul, norm_pow, hz, one_pow, mul_one, norm_sub_rev] at h2
    exact pow_le_pow_left₀ (by linarith) (by linarith) 2
  obtain ⟨M, hM⟩ := exists_nat_gt (N * c ^ 2 / (c ^ 2 - 1))
  have cc : 0 < c ^ 2 - 1 := by nlinarith
  rw [div_lt_iff₀ cc] at hM
  have low : ((M : ℝ)) * c ^ 2 ≤ ∑ j ∈ Finset.range (N + M), ‖Y j‖ ^ 2 := by
    rw [Finset.sum_range_add]
    have h1 := Finset.sum_nonneg (s := Finset.range N) (fun j _ => sq_nonneg ‖Y j‖)
    have h2 := Finset.card_nsmul_le_sum (Finset.range M) (fun j => ‖Y (N + j)‖ ^ 2) (c ^ 2) (fun j _ => big _ (by omega))
    rw [Finset.card_range, nsmul_eq_mul] at h2
    linarith
  have sq : ∀ w : ℂ, ‖w‖ ^ 2 = w.re ^ 2 + w.im ^ 2 := fun w => by rw [Complex.sq_norm, Complex.normSq_apply]; ring
  have split : ∑ j ∈ Finset.range (N + M), ‖Y j‖ ^ 2 =
      energy (f.outAt (fun m => (z ^ m).re)) (N + M) + energy (f.outAt (fun m => (z ^ m).im)) (N + M) := by
    unfold energy
    rw [← Finset.sum_add_distrib]
    exact Finset.sum_congr rfl (fun j _ => by rw [sq, hre, him])
  have inp : ((N + M : ℕ) : ℝ) = energy (fun m => (z ^ m).re) (N + M) + energy (fun m => (z ^ m).im) (N + M) := by
    unfold energy
    rw [← Finset.sum_add_distrib, Finset.sum_congr rfl (fun j _ => (sq (z ^ j)).symm)]
    simp [hz]
  by_contra! no
  have k1 := no (fun m => (z ^ m).re) (N + M)
  have k2 := no (fun m => (z ^ m).im) (N + M)
  push_cast at inp
  have : 1 ≤ c ^ 2 := by linarith
  nlinarith [Nat.cast_nonneg (α := ℝ) N]

/-- C177: above `q = 1/√2` both add energy to some signal. -/
theorem C177_resonance (hp : PowiExact powi) (hfc : 0 < fc) (hq : 0 < q) (hr : 1 / 2 < q ^ 2) (hsr : 0 < sr) :
    (∃ x n, energy x n < energy ((Biquad.new (lowpass powi fc q sr)).outAt x) n) ∧
    ∃ x n, energy x n < energy ((Biquad.new (highpass powi fc q sr)).outAt x) n := by
  obtain ⟨s1, s2, -⟩ := C35_stable (sqrt := fun x => x) (gain := 1) hp hfc hq hsr
  obtain ⟨⟨⟨z, hz, e1⟩, -⟩, ⟨⟨w, hw, e2⟩, -⟩⟩ := C134_peak hp hfc hq hsr hr.le
  have d : 0 < 1 - 1 / (4 * q ^ 2) := by rw [sub_pos, div_lt_one (by positivity)]; linarith
  have peak : 1 < q / Real.sqrt (1 - 1 / (4 * q ^ 2)) := by
    rw [one_lt_div (Real.sqrt_pos.2 d), Real.sqrt_lt' hq, sub_lt_iff_lt_add, ← sub_lt_iff_lt_add']
    rw [lt_div_iff₀ (by positivity)]
    nlinarith [sq_nonneg (2 * q ^ 2 - 1), sq_pos_of_pos (show 0 < 2 * q ^ 2 - 1 by linarith)]
  exact ⟨lifts_energy s1 hz (e1 ▸ peak), lifts_energy s2 hw (e2 ▸ peak)⟩

/-- A click of energy 1 through the all-pass at 1 kHz. -/
example : HasSum (fun n => (Biquad.new (allpass (fun x n => x ^ n) 1000 (1 / 2) 48000)).outAt (fun m => if m = 0 then (1 : ℝ) else 0) n ^ 2) 1 :=
  C177_allpass_total (fun _ _ => rfl) (by norm_num) (by norm_num) (by norm_num) (by
    have := hasSum_single (f := fun n => (if n = 0 then (1 : ℝ) else 0) ^ 2) 0 (fun n hn => by simp [hn])
    simpa using this)

end

end Verif
