import Verif.Props.CombResponse
import Verif.Props.Forget
import Verif.Props.Period
import Mathlib.Analysis.SpecificLimits.Basic
import Mathlib.Data.Fintype.EquivFin
import Mathlib.Data.Fintype.Pigeonhole

/-! # C187: periodic in, periodic out -/

namespace Verif
open F32

/-- Repeats every `P` samples. -/
def Repeats {α : Type} (P : ℕ) (x : ℕ → α) : Prop := ∀ n, x (n + P) = x n

theorem Repeats.mul {α : Type} {P : ℕ} {x : ℕ → α} (h : Repeats P x) (m n : ℕ) : x (n + m * P) = x n := by
  induction m with
  | zero => simp
  | succ m ih => rw [show n + (m + 1) * P = n + m * P + P by ring, h, ih]

/-- The sum over a period does not depend on where it starts. -/
theorem Repeats.sum {P : ℕ} {x : ℕ → ℝ} (h : Repeats P x) (k : ℕ) : ∑ n ∈ Finset.range P, x (n + k) = ∑ n ∈ Finset.range P, x n := by
  induction k with
  | zero => rfl
  | succ k ih =>
    rw [← ih]
    have h1 := Finset.sum_range_succ (fun n => x (n + k)) P
    have h2 := Finset.sum_range_succ' (fun n => x (n + k)) P
    have h3 : x (P + k) = x (0 + k) := by rw [Nat.zero_add, add_comm, h]
    rw [h1, h3] at h2
    have : ∀ n, x (n + (k + 1)) = x (n + 1 + k) := fun n => by congr 1; ring
    simp only [this]
    linarith

/-- A sequence that comes back to itself ever more closely after every period settles on one that repeats. -/
theorem periodic_limit {P : ℕ} (hP : 0 < P) {y : ℕ → ℝ} {A r : ℝ} (r0 : 0 < r) (r1 : r < 1) (h : ∀ n, |y (n + P) - y n| ≤ A * r ^ n) :
    ∃ p : ℕ → ℝ, Repeats P p ∧ Filter.Tendsto (fun n => y n - p n) Filter.atTop (nhds 0) ∧
      ∀ n, Filter.Tendsto (fun m => y (n + m * P)) Filter.atTop (nhds (p n)) := by
  have rp : r ^ P < 1 := pow_lt_one₀ r0.le r1 hP.ne'
  have step : ∀ n m, dist (y (n + m * P)) (y (n + (m + 1) * P)) ≤ A * r ^ n * (r ^ P) ^ m := fun n m => by
    rw [dist_comm, Real.dist_eq, show n + (m + 1) * P = n + m * P + P by ring]
    refine (h _).trans (le_of_eq ?_)
    rw [pow_add, ← pow_mul, mul_comm P m]; ring
  have conv : ∀ n, ∃ a, Filter.Tendsto (fun m => y (n + m * P)) Filter.atTop (nhds a) := fun n =>
    cauchySeq_tendsto_of_complete (cauchySeq_of_le_geometric _ _ rp (step n))
  choose p hp using conv
  refine ⟨p, fun n => ?_, ?_, hp⟩
  · have h1 := (Filter.tendsto_add_atTop_iff_nat 1).2 (hp n)
    refine tendsto_nhds_unique (hp (n + P)) (h1.congr fun m => ?_)
    congr 1; ring
  · refine squeeze_zero_norm (a := fun n => A / (1 - r ^ P) * r ^ n) (fun n => ?_) ?_
    · have := dist_le_of_le_geometric_of_tendsto₀ _ _ rp (step n) (hp n)
      rw [Nat.zero_mul, Nat.add_zero, Real.dist_eq] at this
      rw [Real.norm_eq_abs]
      refine this.trans (le_of_eq ?_)
      ring
    · have := (tendsto_pow_atTop_nhds_zero_of_lt_one r0.le r1).const_mul (A / (1 - r ^ P))
      simpa using this

/-! ## Biquads -/

theorem stateAt_later {α : Type} [Add α] [Sub α] [Mul α] [Lit α] (f : Biquad α) (x : ℕ → α) (P n : ℕ) :
    f.stateAt x (n + P) = (f.stateAt x P).stateAt (fun m => x (m + P)) n := by
  induction n with
  | zero => rw [Nat.zero_add]; rfl
  | succ n ih => rw [show n + 1 + P = n + P + 1 by ring, Biquad.stateAt, ih]; rfl

theorem outAt_later {α : Type} [Add α] [Sub α] [Mul α] [Lit α] (f : Biquad α) (x : ℕ → α) (P n : ℕ) :
    f.outAt x (n + P) = (f.stateAt x P).outAt (fun m => x (m + P)) n := by
  unfold Biquad.outAt; rw [stateAt_later]

theorem stable_poles {co : BiquadCoeffs ℝ} (hs : co.Stable) : ∃ p q, Poles co.a1 co.a2 p q := by
  obtain ⟨p, r, hpr, hpr'⟩ := exists_roots (co.a1 : ℂ) co.a2
  have hden : ∀ z : ℂ, (co.map (fun r : ℝ => (r : ℂ))).den z = (z - p) * (z - r) := by
    intro z
    simp only [BiquadCoeffs.den, BiquadCoeffs.map]
    rw [← hpr', show (co.a1 : ℂ) = -(p + r) by rw [hpr]; ring]; ring
  exact ⟨p, r, by rw [hpr], hpr', hs p (by rw [hden]; ring), hs r (by rw [hden]; ring)⟩

theorem out_rec (f : Biquad ℝ) (x : ℕ → ℝ) (n : ℕ) :
    f.outAt x (n + 2) = f.coeffs.b0 * x (n + 2) + f.coeffs.b1 * x (n + 1) + f.coeffs.b2 * x n - f.coeffs.a1 * f.outAt x (n + 1) - f.coeffs.a2 * f.outAt x n := by
  have hc : ∀ m, (f.stateAt x m).coeffs = f.coeffs := fun m => coeffs_stateAt f x m
  have h0 : ∀ m, f.outAt x m = f.coeffs.b0 * x m + (f.stateAt x m).z1 := fun m => by rw [← hc m]; rfl
  have h1 : ∀ m, (f.stateAt x (m + 1)).z1 = f.coeffs.b1 * x m + (f.stateAt x m).z2 - f.coeffs.a1 * f.outAt x m := fun m => by rw [← hc m]; rfl
  have h2 : ∀ m, (f.stateAt x (m + 1)).z2 = f.coeffs.b2 * x m - f.coeffs.a2 * f.outAt x m := fun m => by rw [← hc m]; rfl
  rw [h0 (n + 2), h1 (n + 1), h2 n]; ring

/-- C187, biquad: a stable filter fed a signal that repeats every `P` samples settles, from whatever state, on one and the same signal
that repeats every `P` samples; the sum of a period is the sum of an input period times the gain at 0 Hz. -/
theorem C187_biquad {co : BiquadCoeffs ℝ} (hs : co.Stable) {P : ℕ} (hP : 0 < P) {x : ℕ → ℝ} (hx : Repeats P x) :
    ∃ p : ℕ → ℝ, Repeats P p ∧ ∑ n ∈ Finset.range P, p n = co.gain 1 * ∑ n ∈ Finset.range P, x n ∧
      ∀ z1 z2, Filter.Tendsto (fun n => Biquad.outAt ⟨z1, z2, co⟩ x n - p n) Filter.atTop (nhds 0) := by
  obtain ⟨u, v, hp⟩ := stable_poles hs
  obtain ⟨-, -, M0, M1, -⟩ := hp.facts
  have r0 : 0 < 1 - circleMargin u v / 4 := by linarith
  have r1 : 1 - circleMargin u v / 4 < 1 := by linarith
  have hx' : (fun m => x (m + P)) = x := funext hx
  obtain ⟨p, h1, h2, h3⟩ := periodic_limit hP (y := Biquad.outAt ⟨0, 0, co⟩ x) r0 r1
    (A := 2 * (|((Biquad.stateAt ⟨0, 0, co⟩ x P).z1) - 0| + |((Biquad.stateAt ⟨0, 0, co⟩ x P).z2) - 0|) / circleMargin u v) (fun n => by
      rw [outAt_later, hx']
      have hc : (Biquad.stateAt ⟨0, 0, co⟩ x P).coeffs = co := coeffs_stateAt _ _ _
      have e : ∀ S : Biquad ℝ, S.coeffs = co → S = ⟨S.z1, S.z2, co⟩ := by rintro ⟨_, _, _⟩ rfl; rfl
      have := C167_forgets hp (Biquad.stateAt ⟨0, 0, co⟩ x P).z1 (Biquad.stateAt ⟨0, 0, co⟩ x P).z2 0 0 x n
      rw [← e _ hc] at this
      rw [mul_comm]; exact this)
  refine ⟨p, h1, ?_, fun z1 z2 => ?_⟩
  · have hrec : ∀ n, p (n + 2) = co.b0 * x (n + 2) + co.b1 * x (n + 1) + co.b2 * x n - co.a1 * p (n + 1) - co.a2 * p n := by
      intro n
      have t := (((h3 (n + 1)).const_mul co.a1).neg.add ((h3 n).const_mul co.a2).neg).add_const (co.b0 * x (n + 2) + co.b1 * x (n + 1) + co.b2 * x n)
      have := tendsto_nhds_unique (h3 (n + 2)) (t.congr fun m => by
        have := out_rec ⟨0, 0, co⟩ x (n + m * P)
        rw [show n + m * P + 2 = n + 2 + m * P by ring, show n + m * P + 1 = n + 1 + m * P by ring, hx.mul, hx.mul, hx.mul] at this
        rw [this]; ring)
      rw [this]; ring
    have s := Finset.sum_congr (rfl : Finset.range P = Finset.range P) (fun n _ => hrec n)
    simp only [Finset.sum_sub_distrib, Finset.sum_add_distrib, ← Finset.mul_sum, h1.sum 2, h1.sum 1, hx.sum 2, hx.sum 1] at s
    have hd : co.den 1 ≠ 0 := by
      intro h0
      have := hs 1 (by
        simp only [BiquadCoeffs.den, BiquadCoeffs.map] at h0 ⊢
        have := congrArg (fun r : ℝ => (r : ℂ)) h0
        push_cast at this
        exact this)
      simp at this
    rw [BiquadCoeffs.gain, div_mul_eq_mul_div, eq_div_iff hd]
    simp only [BiquadCoeffs.den, BiquadCoeffs.num]
    linear_combination s
  · have t : Filter.Tendsto (fun n => Biquad.outAt ⟨z1, z2, co⟩ x n - Biquad.outAt ⟨0, 0, co⟩ x n) Filter.atTop (nhds 0) := by
      refine squeeze_zero_norm (fun n => C167_forgets hp z1 z2 0 0 x n) ?_
      have := (tendsto_pow_atTop_nhds_zero_of_lt_one r0.le r1).mul_const (2 * (|z1 - 0| + |z2 - 0|) / circleMargin u v)
      simpa using this
    have := t.add h2
    rw [add_zero] at this
    exact this.congr fun n => by ring

/-! ## Combs and all-passes -/

/-- The equations of a comb driven periodically have a periodic solution. -/
theorem comb_periodic {w f x : ℕ → ℝ} {L : ℕ} (hL : 0 < L) {fb d : ℝ} (hfb : |fb| < 1) (d0 : 0 ≤ d) (d1 : d < 1)
    (hf : ∀ n, f (n + 1) = w n * (1 - d) + f n * d) (hw : ∀ n, w (n + L) = x n + f (n + 1) * fb) {P : ℕ} (hP : 0 < P) (hx : Repeats P x) :
    ∃ p u : ℕ → ℝ, Repeats P p ∧ (∀ n, u (n + 1) = p n * (1 - d) + u n * d) ∧ (∀ n, p (n + L) = x n + u (n + 1) * fb) ∧
      ∑ n ∈ Finset.range P, p n = (∑ n ∈ Finset.range P, x n) / (1 - fb) := by
  obtain ⟨A, r, r0, r1, h⟩ := comb_free_rate (w := fun n => w (n + P) - w n) (f := fun n => f (n + P) - f n) hL hfb d0 d1
    (fun n => by rw [show n + 1 + P = n + P + 1 by ring, hf, hf]; ring)
    (fun n => by rw [show n + L + P = n + P + L by ring, show n + 1 + P = n + P + 1 by ring, hw, hw, hx]; ring)
  obtain ⟨p, p1, -, p3⟩ := periodic_limit hP r0 r1 (fun n => (h n).1)
  obtain ⟨u, u1, -, u3⟩ := periodic_limit hP r0 r1 (fun n => (h n).2)
  have e1 : ∀ n, u (n + 1) = p n * (1 - d) + u n * d := fun n => by
    refine tendsto_nhds_unique (u3 (n + 1)) ((((p3 n).mul_const (1 - d)).add ((u3 n).mul_const d)).congr fun m => ?_)
    rw [show n + 1 + m * P = n + m * P + 1 by ring, hf]
  have e2 : ∀ n, p (n + L) = x n + u (n + 1) * fb := fun n => by
    refine tendsto_nhds_unique (p3 (n + L)) ((((u3 (n + 1)).mul_const fb).const_add (x n)).congr fun m => ?_)
    rw [show n + L + m * P = n + m * P + L by ring, hw, hx.mul, show n + m * P + 1 = n + 1 + m * P by ring]
  refine ⟨p, u, p1, e1, e2, ?_⟩
  have s1 := Finset.sum_congr (rfl : Finset.range P = Finset.range P) (fun n _ => e1 n)
  have s2 := Finset.sum_congr (rfl : Finset.range P = Finset.range P) (fun n _ => e2 n)
  simp only [Finset.sum_add_distrib, ← Finset.sum_mul, u1.sum 1, p1.sum L] at s1 s2
  have n1 : 1 - fb ≠ 0 := by have := (abs_lt.1 hfb).2; linarith
  have su : ∑ n ∈ Finset.range P, u n = ∑ n ∈ Finset.range P, p n := by
    have : (1 - d) * (∑ n ∈ Finset.range P, u n - ∑ n ∈ Finset.range P, p n) = 0 := by linear_combination s1
    rcases mul_eq_zero.1 this with h | h <;> linarith
  rw [su] at s2
  rw [eq_div_iff n1]
  linear_combination s2

/-- C187, comb: the same, with the sum of a period divided by 1 minus the feedback. -/
theorem C187_comb {c : Cfg} {mem : Mem ℝ} {k : Comb ℝ} {q : List ℝ} (h : Holds c mem k.delayLine q) (hd : k.dampeningInverse = 1 - k.dampening)
    (d0 : 0 ≤ k.dampening) (d1 : k.dampening < 1) (hfb : |k.feedback| < 1) {P : ℕ} (hP : 0 < P) {x : ℕ → ℝ} (hx : Repeats P x) :
    ∃ p : ℕ → ℝ, Repeats P p ∧ ∑ n ∈ Finset.range P, p n = (∑ n ∈ Finset.range P, x n) / (1 - k.feedback) ∧
      ∀ {c' : Cfg} {mem' : Mem ℝ} {k' : Comb ℝ} {q' : List ℝ}, Holds c' mem' k'.delayLine q' → q'.length = q.length →
        k'.feedback = k.feedback → k'.dampening = k.dampening → k'.dampeningInverse = k.dampeningInverse →
        ∃ y : ℕ → ℝ, (∀ n, Comb.outAt c' mem' k' x n = .ok (y n)) ∧ Filter.Tendsto (fun n => y n - p n) Filter.atTop (nhds 0) := by
  obtain ⟨w, f, -, -, hf, hw, -⟩ := C20_comb h x
  rw [hd] at hf
  obtain ⟨p, u, h1, h2, h3, h4⟩ := comb_periodic (List.length_pos_iff.2 h.ne_nil) hfb d0 d1 hf hw hP hx
  refine ⟨p, h1, h4, fun {c' mem' k' q'} h' hl e1 e2 e3 => ?_⟩
  exact comb_follows h' (by rw [e3, e2, hd]) (by rw [e2]; exact d0) (by rw [e2]; exact d1) (by rw [e1]; exact hfb)
    (by rw [e2]; exact h2) (by rw [e1, hl]; exact h3)

/-- C187, all-pass: the same, with equal sums. -/
theorem C187_all_pass {c : Cfg} {mem : Mem ℝ} {k : AllPass} {q : List ℝ} (h : Holds c mem k.delayLine q) {P : ℕ} (hP : 0 < P) {x : ℕ → ℝ} (hx : Repeats P x) :
    ∃ p : ℕ → ℝ, Repeats P p ∧ ∑ n ∈ Finset.range P, p n = ∑ n ∈ Finset.range P, x n ∧
      ∀ {c' : Cfg} {mem' : Mem ℝ} {k' : AllPass} {q' : List ℝ}, Holds c' mem' k'.delayLine q' → q'.length = q.length →
        ∃ y : ℕ → ℝ, (∀ n, AllPass.outAt c' mem' k' x n = .ok (y n)) ∧ Filter.Tendsto (fun n => y n - p n) Filter.atTop (nhds 0) := by
  obtain ⟨w, -, hw, -⟩ := C24_all_pass h x
  simp only [lit_exact] at hw
  push_cast at hw
  have hL := List.length_pos_iff.2 h.ne_nil
  have half : |(1 / 2 : ℝ)| < 1 := by rw [abs_of_pos] <;> norm_num
  obtain ⟨p, u, h1, h2, h3, h4⟩ := comb_periodic (f := fun n => match n with | 0 => 0 | n + 1 => w n) hL (fb := 1 / 2) half le_rfl one_pos
    (fun n => by simp) (fun n => hw n) hP hx
  refine ⟨fun n => -x n + p n, fun n => by show -x (n + P) + p (n + P) = _; rw [hx, h1], ?_, fun {c' mem' k' q'} h' hl => ?_⟩
  · rw [Finset.sum_add_distrib, h4, Finset.sum_neg_distrib]; ring
  · obtain ⟨w', -, hw', hout'⟩ := C24_all_pass h' x
    simp only [lit_exact] at hw'
    push_cast at hw'
    rw [hl] at hw'
    refine ⟨_, hout', ?_⟩
    refine (comb_free (w := fun n => w' n - p n) (f := fun n => match n with | 0 => 0 | n + 1 => w' n - p n) hL (fb := 1 / 2) half le_rfl one_pos
      (fun n => by simp) (fun n => ?_)).congr fun n => by ring
    simp only [hw', h3, h2]; ring

/-! ## Floats: there are only finitely many states -/

instance : Finite F32 := Finite.of_injective (fun x : F32 => x.bits.toFin) (fun x y h => by
  cases x; cases y; congr 1; exact BitVec.eq_of_toFin_eq h)

/-- A machine with finitely many states, driven periodically, ends in a cycle. -/
theorem cycle {S : Type} [Finite S] {P : ℕ} {σ : ℕ → S} {step : ℕ → S → S} (hstep : Repeats P step) (h : ∀ n, σ (n + 1) = step n (σ n)) :
    ∃ N m, 0 < m ∧ ∀ n ≥ N, σ (n + m * P) = σ n := by
  obtain ⟨i, j, hij, e⟩ := Finite.exists_ne_map_eq_of_infinite (fun k => σ (k * P))
  wlog hlt : i < j generalizing i j
  · exact this j i hij.symm e.symm (lt_of_le_of_ne (not_lt.1 hlt) hij.symm)
  refine ⟨i * P, j - i, by omega, fun n hn => ?_⟩
  obtain ⟨t, rfl⟩ := Nat.exists_eq_add_of_le hn
  induction t with
  | zero =>
    have : i * P + 0 + (j - i) * P = j * P := by rw [Nat.add_zero, ← Nat.add_mul]; congr 1; omega
    rw [this]; exact e.symm
  | succ t ih =>
    rw [show i * P + (t + 1) + (j - i) * P = i * P + t + (j - i) * P + 1 by ring, h, ih (by omega),
      Repeats.mul hstep, ← h]; rfl

/-- From some sample on it repeats exactly, after a whole number of input periods. -/
def EndsInCycle {α : Type} (P : ℕ) (y : ℕ → α) : Prop := ∃ N m, 0 < m ∧ ∀ n ≥ N, y (n + m * P) = y n

/-- C187, float biquad: whatever the coefficients, the state and the samples (NaN and infinities included), a biquad fed a signal that
repeats ends up repeating bit for bit. -/
theorem C187_biquad_float (f : Biquad F32) {P : ℕ} {x : ℕ → F32} (hx : Repeats P x) : EndsInCycle P (f.outAt x) := by
  have hc : ∀ m, (f.stateAt x m).coeffs = f.coeffs := fun m => coeffs_stateAt f x m
  have e : ∀ S : Biquad F32, S.coeffs = f.coeffs → (⟨S.z1, S.z2, f.coeffs⟩ : Biquad F32) = S := by rintro ⟨_, _, _⟩ h; subst h; rfl
  obtain ⟨N, m, m0, h⟩ := cycle (P := P) (σ := fun n => ((f.stateAt x n).z1, (f.stateAt x n).z2))
    (step := fun n s => (((⟨s.1, s.2, f.coeffs⟩ : Biquad F32).process (x n)).1.z1, ((⟨s.1, s.2, f.coeffs⟩ : Biquad F32).process (x n)).1.z2))
    (fun n => by funext s; simp only [hx n]) (fun n => by simp only [e _ (hc n)]; rfl)
  refine ⟨N, m, m0, fun n hn => ?_⟩
  have := h n hn
  rw [Prod.mk.injEq] at this
  unfold Biquad.outAt
  rw [hx.mul, ← e _ (hc (n + m * P)), ← e _ (hc n), this.1, this.2]

/-- C187, float comb: the same for a comb with any settings and contents. -/
theorem C187_comb_float {c : Cfg} {mem : Mem F32} {k : Comb F32} {q : List F32} (h : Holds c mem k.delayLine q) {P : ℕ} {x : ℕ → F32} (hx : Repeats P x) :
    ∃ y : ℕ → F32, (∀ n, Comb.outAt c mem k x n = .ok (y n)) ∧ EndsInCycle P y := by
  obtain ⟨w, f, -, -, hf, hw, hout⟩ := C20_comb h x
  have hL := List.length_pos_iff.2 h.ne_nil
  obtain ⟨N, m, m0, hc⟩ := cycle (P := P) (σ := fun n => ((fun i : Fin q.length => w (n + i)), f n))
    (step := fun n s => let g := s.1 ⟨0, hL⟩ * k.dampeningInverse + s.2 * k.dampening
      ((fun i => if hi : i.1 + 1 < q.length then s.1 ⟨i.1 + 1, hi⟩ else x n + g * k.feedback), g))
    (fun n => by funext s; simp only [hx n]) (fun n => by
      refine Prod.ext (funext fun i => ?_) (by simp only [Nat.add_zero]; exact hf n)
      simp only [Nat.add_zero]
      split
      · congr 1; ring
      · rw [← hf n, ← hw n]; congr 1; have := i.2; omega)
  refine ⟨w, hout, N, m, m0, fun n hn => ?_⟩
  have := congrFun (congrArg Prod.fst (hc n hn)) ⟨0, hL⟩
  simpa using this

/-- C187, float all-pass. -/
theorem C187_all_pass_float {c : Cfg} {mem : Mem F32} {k : AllPass} {q : List F32} (h : Holds c mem k.delayLine q) {P : ℕ} {x : ℕ → F32} (hx : Repeats P x) :
    ∃ y : ℕ → F32, (∀ n, AllPass.outAt c mem k x n = .ok (y n)) ∧ EndsInCycle P y := by
  obtain ⟨w, -, hw, hout⟩ := C24_all_pass h x
  have hL := List.length_pos_iff.2 h.ne_nil
  obtain ⟨N, m, m0, hc⟩ := cycle (P := P) (σ := fun n => (fun i : Fin q.length => w (n + i)))
    (step := fun n s i => if hi : i.1 + 1 < q.length then s ⟨i.1 + 1, hi⟩ else x n + s ⟨0, hL⟩ * lit (1/2))
    (fun n => by funext s; simp only [hx n]) (fun n => by
      refine funext fun i => ?_
      simp only [Nat.add_zero]
      split
      · congr 1; ring
      · rw [← hw n]; congr 1; have := i.2; omega)
  refine ⟨_, hout, N, m, m0, fun n hn => ?_⟩
  have := congrFun (hc n hn) ⟨0, hL⟩
  simp only [Nat.add_zero] at this
  simp only [hx.mul m n, this]

/-- C187, a voice of an oscillator and a filter: it ends up repeating bit for bit, after a whole number of periods of the oscillator. -/
theorem C187_voice {checks : Bool} {floor : F32 → F32} {rem : F32 → F32 → F32} (hrem : RemContract rem) (o : FunctionalOscillator SoftPhaseAccumulator)
    {sr : F32} (hc : o.acc.counter < 2 ^ 32) (hm : o.acc.minStep = u32MaxF / sr) {x : ℕ → F32} (hx : Plays checks floor rem o x) (f : Biquad F32) :
    EndsInCycle (period (phaseStep o.acc.freq sr)) (f.outAt x) := by
  refine C187_biquad_float f fun n => ?_
  obtain ⟨o1, o2, g1, g2⟩ := hx (n + period (phaseStep o.acc.freq sr))
  obtain ⟨o3, o4, g3, g4⟩ := hx n
  have e := (C150_functional (checks := checks) (floor := floor) hrem o hc hm (n + period (phaseStep o.acc.freq sr)) n).2 (by simp [Nat.ModEq])
  rw [g1, g3] at e
  cases e
  rw [g2] at g4
  injection g4 with g4
  exact congrArg Prod.snd g4

/-- A notch-like filter fed 1, -1, 1, -1, ... : the input sums to nothing over its period, so does what comes out. -/
example {co : BiquadCoeffs ℝ} (hs : co.Stable) : ∃ p : ℕ → ℝ, Repeats 2 p ∧ p 0 + p 1 = 0 ∧
    Filter.Tendsto (fun n => (Biquad.new co).outAt (fun n => (-1) ^ n) n - p n) Filter.atTop (nhds 0) := by
  obtain ⟨p, h1, h2, h3⟩ := C187_biquad hs (P := 2) (by norm_num) (x := fun n => (-1) ^ n) (fun n => by simp [pow_add])
  refine ⟨p, h1, ?_, ?_⟩
  · simpa [Finset.sum_range_succ] using h2
  · have := h3 (lit 0) (lit 0)
    exact this

/-- The state a float biquad cycles in need not be silent: `y[n] = -y[n-1]` once excited goes 1, -1, 1, -1 for ever, with no input at all. -/
example : (⟨lit 1, lit 0, ⟨lit 0, lit 0, lit 0, lit 1, lit 0⟩⟩ : Biquad F32).outAt (fun _ => lit 0) 0 = lit 1 ∧
    (⟨lit 1, lit 0, ⟨lit 0, lit 0, lit 0, lit 1, lit 0⟩⟩ : Biquad F32).outAt (fun _ => lit 0) 1 = lit (-1) ∧
    (⟨lit 1, lit 0, ⟨lit 0, lit 0, lit 0, lit 1, lit 0⟩⟩ : Biquad F32).outAt (fun _ => lit 0) 2 = lit 1 := by
  decide +kernel

end Verif
