import Verif.Props.CombAllPass
import Verif.Props.Energy

/-! # C180: what combs and delay all-passes do to the energy of a signal -/

namespace Verif

/-- The energy waiting in the buffer. -/
def waiting (w : ℕ → ℝ) (L n : ℕ) : ℝ := ∑ i ∈ Finset.range L, w (n + i) ^ 2

theorem waiting_succ (w : ℕ → ℝ) (L n : ℕ) : waiting w L (n + 1) = waiting w L n + w (n + L) ^ 2 - w n ^ 2 := by
  unfold waiting
  have h1 := Finset.sum_range_succ (fun i => w (n + i) ^ 2) L
  have h2 := Finset.sum_range_succ' (fun i => w (n + i) ^ 2) L
  simp only [add_zero] at h2
  have e : ∀ i, n + 1 + i = n + (i + 1) := fun i => by omega
  simp only [e]
  linarith

theorem waiting_nonneg (w : ℕ → ℝ) (L n : ℕ) : 0 ≤ waiting w L n := Finset.sum_nonneg fun _ _ => sq_nonneg _

/-- What is stored and what has come out never exceeds what was stored and what has gone in. -/
theorem balance {V a b : ℕ → ℝ} (h : ∀ n, V (n + 1) + b n ≤ V n + a n) (n : ℕ) :
    V n + ∑ k ∈ Finset.range n, b k ≤ V 0 + ∑ k ∈ Finset.range n, a k := by
  induction n with
  | zero => simp
  | succ n ih =>
    rw [Finset.sum_range_succ, Finset.sum_range_succ]
    linarith [h n]

/-- The loop of an undamped comb, the feedback written as `±g`. -/
theorem comb_quad {g : ℝ} (h1 : |g| < 1) (x w : ℝ) :
    (x + g * w) ^ 2 / (1 - |g|) ≤ x ^ 2 / (1 - |g|) ^ 2 + |g| / (1 - |g|) * w ^ 2 ∧
    x ^ 2 / (1 + |g|) ^ 2 ≤ (x + g * w) ^ 2 / (1 + |g|) + |g| / (1 + |g|) * w ^ 2 := by
  have g0 := abs_nonneg g
  have gg : g ^ 2 = |g| ^ 2 := (sq_abs g).symm
  have hg : g = |g| ∨ g = -|g| := by
    rcases abs_choice g with h | h
    · left; rw [h]
    · right; rw [h, neg_neg]
  have p : 0 < 1 - |g| := by linarith
  have p' : 0 < 1 + |g| := by linarith
  generalize |g| = r at *
  constructor
  · rw [div_mul_eq_mul_div, div_add_div _ _ (by positivity) p.ne', div_le_div_iff₀ p (by positivity)]
    rcases hg with rfl | rfl
    · nlinarith [mul_nonneg (mul_nonneg g0 (mul_pos p p).le) (sq_nonneg (x - (1 - g) * w))]
    · nlinarith [mul_nonneg (mul_nonneg g0 (mul_pos p p).le) (sq_nonneg (x + (1 - r) * w))]
  · rw [div_mul_eq_mul_div, ← add_div, div_le_div_iff₀ (by positivity) p']
    rcases hg with rfl | rfl
    · nlinarith [mul_nonneg (mul_nonneg g0 p'.le) (sq_nonneg (x + (1 + g) * w))]
    · nlinarith [mul_nonneg (mul_nonneg g0 p'.le) (sq_nonneg (x - (1 + r) * w))]

/-- The loop of a comb with dampening: `f'` is the state of the low-pass after the step. -/
theorem damped_quad {g d : ℝ} (h1 : |g| < 1) (d0 : 0 ≤ d) (d1 : d < 1) (x w f : ℝ) :
    (x + g * (w * (1 - d) + f * d)) ^ 2 / (1 - |g|) + |g| / (1 - |g|) * (d / (1 - d)) * (w * (1 - d) + f * d) ^ 2 ≤
      x ^ 2 / (1 - |g|) ^ 2 + |g| / (1 - |g|) * w ^ 2 + |g| / (1 - |g|) * (d / (1 - d)) * f ^ 2 ∧
    x ^ 2 / (1 + |g|) ^ 2 + |g| / (1 + |g|) * (d / (1 - d)) * (w * (1 - d) + f * d) ^ 2 ≤
      (x + g * (w * (1 - d) + f * d)) ^ 2 / (1 + |g|) + |g| / (1 + |g|) * w ^ 2 + |g| / (1 + |g|) * (d / (1 - d)) * f ^ 2 := by
  obtain ⟨q1, q2⟩ := comb_quad h1 x (w * (1 - d) + f * d)
  have e : 0 < 1 - d := by linarith
  have c : (w * (1 - d) + f * d) ^ 2 + d / (1 - d) * (w * (1 - d) + f * d) ^ 2 ≤ w ^ 2 + d / (1 - d) * f ^ 2 := by
    have : (w * (1 - d) + f * d) ^ 2 ≤ (1 - d) * w ^ 2 + d * f ^ 2 := by nlinarith [mul_nonneg (mul_nonneg d0 e.le) (sq_nonneg (w - f))]
    have a : (w * (1 - d) + f * d) ^ 2 + d / (1 - d) * (w * (1 - d) + f * d) ^ 2 = (w * (1 - d) + f * d) ^ 2 / (1 - d) := by field_simp; ring
    rw [a, div_le_iff₀ e]
    have : (w ^ 2 + d / (1 - d) * f ^ 2) * (1 - d) = (1 - d) * w ^ 2 + d * f ^ 2 := by field_simp
    linarith
  have g0 := abs_nonneg g
  have p : 0 < 1 - |g| := by linarith
  have p' : 0 < 1 + |g| := by linarith
  have c1 := mul_le_mul_of_nonneg_left c (show 0 ≤ |g| / (1 - |g|) by positivity)
  have c2 := mul_le_mul_of_nonneg_left c (show 0 ≤ |g| / (1 + |g|) by positivity)
  generalize w * (1 - d) + f * d = f' at *
  generalize d / (1 - d) = D at *
  constructor <;> nlinarith

/-- The balance of a comb. -/
theorem comb_balance {g d : ℝ} (h1 : |g| < 1) (d0 : 0 ≤ d) (d1 : d ≤ 1) {L : ℕ} {x w f : ℕ → ℝ} (w0 : ∀ n < L, w n = 0) (f0 : f 0 = 0)
    (hf : ∀ n, f (n + 1) = w n * (1 - d) + f n * d) (hw : ∀ n, w (n + L) = x n + f (n + 1) * g) (n : ℕ) :
    energy w n ≤ energy x n / (1 - |g|) ^ 2 ∧ energy x n / (1 + |g|) ^ 2 ≤ energy w n + waiting w L n := by
  have g0 := abs_nonneg g
  have p : 0 < 1 - |g| := by linarith
  have p' : 0 < 1 + |g| := by linarith
  have B0 : waiting w L 0 = 0 := Finset.sum_eq_zero fun i hi => by rw [zero_add, w0 i (Finset.mem_range.1 hi)]; ring
  obtain ⟨D, D0, hD⟩ : ∃ D : ℝ, 0 ≤ D ∧ ∀ n, (x n + g * f (n + 1)) ^ 2 / (1 - |g|) + |g| / (1 - |g|) * D * f (n + 1) ^ 2 ≤
      x n ^ 2 / (1 - |g|) ^ 2 + |g| / (1 - |g|) * w n ^ 2 + |g| / (1 - |g|) * D * f n ^ 2 ∧
      x n ^ 2 / (1 + |g|) ^ 2 + |g| / (1 + |g|) * D * f (n + 1) ^ 2 ≤
      (x n + g * f (n + 1)) ^ 2 / (1 + |g|) + |g| / (1 + |g|) * w n ^ 2 + |g| / (1 + |g|) * D * f n ^ 2 := by
    rcases d1.eq_or_lt with rfl | d1
    · refine ⟨0, le_rfl, fun n => ?_⟩
      have hz : ∀ n, f n = 0 := fun n => by
        induction n with
        | zero => exact f0
        | succ n ih => rw [hf, ih]; ring
      obtain ⟨q1, q2⟩ := comb_quad h1 (x n) 0
      rw [hz, hz]
      have a1 : 0 ≤ |g| / (1 - |g|) * w n ^ 2 := by positivity
      have a2 : 0 ≤ |g| / (1 + |g|) * w n ^ 2 := by positivity
      constructor <;> nlinarith
    · refine ⟨d / (1 - d), div_nonneg d0 (by linarith), fun n => ?_⟩
      have := damped_quad h1 d0 d1 (x n) (w n) (f n)
      rw [← hf] at this
      exact this
  have e1 : 1 / (1 - |g|) = 1 + |g| / (1 - |g|) := by field_simp; ring
  have e2 : 1 / (1 + |g|) = 1 - |g| / (1 + |g|) := by field_simp; ring
  constructor
  · have := balance (V := fun n => 1 / (1 - |g|) * waiting w L n + |g| / (1 - |g|) * D * f n ^ 2) (a := fun n => 1 / (1 - |g|) ^ 2 * x n ^ 2)
      (b := fun n => w n ^ 2) (fun n => by
        have h := (hD n).1
        rw [waiting_succ, hw, mul_comm (f (n + 1)) g, mul_sub, mul_add, one_div_mul_eq_div _ ((x n + g * f (n + 1)) ^ 2),
          one_div_mul_eq_div _ (x n ^ 2)]
        have := congrArg (· * w n ^ 2) e1
        simp only [add_mul, one_mul] at this
        linarith) n
    simp only [B0, f0, ← Finset.mul_sum] at this
    have v : 0 ≤ 1 / (1 - |g|) * waiting w L n + |g| / (1 - |g|) * D * f n ^ 2 := by
      have := waiting_nonneg w L n
      positivity
    rw [one_div_mul_eq_div _ (∑ k ∈ Finset.range n, x k ^ 2)] at this
    unfold energy
    linarith
  · have := balance (V := fun n => |g| / (1 + |g|) * D * f n ^ 2 - 1 / (1 + |g|) * waiting w L n) (b := fun n => 1 / (1 + |g|) ^ 2 * x n ^ 2)
      (a := fun n => w n ^ 2) (fun n => by
        have h := (hD n).2
        rw [waiting_succ, hw, mul_comm (f (n + 1)) g, mul_sub, mul_add, one_div_mul_eq_div _ ((x n + g * f (n + 1)) ^ 2),
          one_div_mul_eq_div _ (x n ^ 2)]
        have := congrArg (· * w n ^ 2) e2
        simp only [sub_mul, one_mul] at this
        linarith) n
    simp only [B0, f0, ← Finset.mul_sum] at this
    have v : 0 ≤ |g| / (1 + |g|) * D * f n ^ 2 := by positivity
    have v' : 1 / (1 + |g|) * waiting w L n ≤ waiting w L n := by
      rw [one_div_mul_eq_div]; exact div_le_self (waiting_nonneg w L n) (by linarith)
    rw [one_div_mul_eq_div _ (∑ k ∈ Finset.range n, x k ^ 2)] at this
    unfold energy
    linarith

/-- C180: a comb with empty buffer multiplies the energy of a signal by at most `1/(1-|g|)^2`, whatever its dampening. -/
theorem C180_comb {c : Cfg} {mem : Mem ℝ} {s : MemorySlice} {L : ℕ} (hL : 0 < L) (h : Views c mem s (List.replicate L 0)) {damp fb : ℝ}
    (hd0 : 0 ≤ damp) (hd1 : damp ≤ 1) (hfb : |fb| < 1) (x : ℕ → ℝ) :
    ∃ y : ℕ → ℝ, (∀ n, Comb.outAt c mem (((Comb.new s).setDampening damp).setFeedback fb) x n = .ok (y n)) ∧
      (∀ n, energy y n ≤ energy x n / (1 - |fb|) ^ 2) ∧
      ∀ E, HasSum (fun n => x n ^ 2) E → ∃ E', HasSum (fun n => y n ^ 2) E' ∧ E / (1 + |fb|) ^ 2 ≤ E' ∧ E' ≤ E / (1 - |fb|) ^ 2 := by
  have hne : List.replicate L (0 : ℝ) ≠ [] := by
    intro h0; have := congrArg List.length h0; simp at this; omega
  obtain ⟨w, f, hw0, hf0, hf, hw, hout⟩ := C20_comb (k := ((Comb.new s).setDampening damp).setFeedback fb) (holds_new h hne) x
  simp only [List.length_replicate, List.getElem_replicate, Comb.new, Comb.setDampening, Comb.setFeedback, lit_exact, Rat.cast_zero,
    Rat.cast_one] at hw0 hf0 hf hw
  have B := comb_balance hfb hd0 hd1 hw0 hf0 hf hw
  refine ⟨w, hout, fun n => (B n).1, fun E hE => ?_⟩
  have p : 0 < 1 - |fb| := by linarith
  have up : ∀ n, energy w n ≤ E / (1 - |fb|) ^ 2 := fun n => (B n).1.trans (by
    gcongr
    exact sum_le_hasSum _ (fun _ _ => sq_nonneg _) hE)
  have sm : Summable fun n => w n ^ 2 := summable_of_sum_range_le (fun _ => sq_nonneg _) up
  refine ⟨_, sm.hasSum, ?_, Real.tsum_le_of_sum_range_le (fun _ => sq_nonneg _) up⟩
  have z : Filter.Tendsto (fun n => waiting w L n) Filter.atTop (nhds 0) := by
    have : Filter.Tendsto (fun n => ∑ i ∈ Finset.range L, w (n + i) ^ 2) Filter.atTop (nhds (∑ i ∈ Finset.range L, (0:ℝ))) :=
      tendsto_finsetSum _ fun i _ => sm.tendsto_atTop_zero.comp (Filter.tendsto_add_atTop_nat i)
    rw [Finset.sum_const_zero] at this
    exact this
  have a := hE.tendsto_sum_nat.div_const ((1 + |fb|) ^ 2)
  have b := sm.hasSum.tendsto_sum_nat.add z
  rw [add_zero] at b
  exact le_of_tendsto_of_tendsto' a b fun n => (B n).2

/-- C180: the delay all-pass never multiplies the energy by more than 25/9, and in the end never loses any. -/
theorem C180_all_pass {c : Cfg} {mem : Mem ℝ} {s : MemorySlice} {L : ℕ} (hL : 0 < L) (h : Views c mem s (List.replicate L 0)) (x : ℕ → ℝ) :
    ∃ y : ℕ → ℝ, (∀ n, AllPass.outAt c mem (AllPass.new s) x n = .ok (y n)) ∧ (∀ n, energy y n ≤ 25 / 9 * energy x n) ∧
      ∀ E, HasSum (fun n => x n ^ 2) E → ∃ E', HasSum (fun n => y n ^ 2) E' ∧ E ≤ E' ∧ E' ≤ 25 / 9 * E := by
  have hne : List.replicate L (0 : ℝ) ≠ [] := by
    intro h0; have := congrArg List.length h0; simp at this; omega
  obtain ⟨w, hw0, hw, hout⟩ := C24_all_pass (k := AllPass.new s) (holds_new h hne) x
  simp only [List.length_replicate, List.getElem_replicate, lit_exact] at hw0 hw
  push_cast at hw
  have B0 : waiting w L 0 = 0 := Finset.sum_eq_zero fun i hi => by rw [zero_add, hw0 i (Finset.mem_range.1 hi)]; ring
  have u1 : ∀ n, energy (fun n => -x n + w n) n ≤ 25 / 9 * energy x n := fun n => by
    have := balance (V := fun n => 5 / 3 * waiting w L n) (a := fun n => 25 / 9 * x n ^ 2) (b := fun n => (-x n + w n) ^ 2) (fun n => by
      rw [waiting_succ, hw]; nlinarith [sq_nonneg (x n / 3 + w n / 2)]) n
    simp only [B0, ← Finset.mul_sum] at this
    unfold energy
    linarith [waiting_nonneg w L n]
  have u2 : ∀ n, energy w n ≤ 4 * energy x n := fun n => by
    have := balance (V := fun n => 2 * waiting w L n) (a := fun n => 4 * x n ^ 2) (b := fun n => w n ^ 2) (fun n => by
      rw [waiting_succ, hw]; nlinarith [sq_nonneg (x n - w n / 2)]) n
    simp only [B0, ← Finset.mul_sum] at this
    unfold energy
    linarith [waiting_nonneg w L n]
  have u3 : ∀ n, energy x n ≤ energy (fun n => -x n + w n) n + waiting w L n := fun n => by
    have := balance (V := fun n => -waiting w L n) (b := fun n => x n ^ 2) (a := fun n => (-x n + w n) ^ 2) (fun n => by
      rw [waiting_succ, hw]; nlinarith [sq_nonneg (x n - w n / 2)]) n
    simp only [B0] at this
    unfold energy
    linarith
  refine ⟨_, hout, u1, fun E hE => ?_⟩
  have le : ∀ n, energy x n ≤ E := fun n => sum_le_hasSum _ (fun _ _ => sq_nonneg _) hE
  have s1 : Summable fun n => w n ^ 2 := summable_of_sum_range_le (fun _ => sq_nonneg _) fun n =>
    (u2 n).trans (show 4 * energy x n ≤ 4 * E by linarith [le n])
  have up : ∀ n, energy (fun n => -x n + w n) n ≤ 25 / 9 * E := fun n => (u1 n).trans (by linarith [le n])
  have s2 : Summable fun n => (-x n + w n) ^ 2 := summable_of_sum_range_le (fun _ => sq_nonneg _) up
  refine ⟨_, s2.hasSum, ?_, Real.tsum_le_of_sum_range_le (fun _ => sq_nonneg _) up⟩
  have z : Filter.Tendsto (fun n => waiting w L n) Filter.atTop (nhds 0) := by
    have : Filter.Tendsto (fun n => ∑ i ∈ Finset.range L, w (n + i) ^ 2) Filter.atTop (nhds (∑ i ∈ Finset.range L, (0:ℝ))) :=
      tendsto_finsetSum _ fun i _ => s1.tendsto_atTop_zero.comp (Filter.tendsto_add_atTop_nat i)
    rw [Finset.sum_const_zero] at this
    exact this
  have b := s2.hasSum.tendsto_sum_nat.add z
  rw [add_zero] at b
  exact le_of_tendsto_of_tendsto' hE.tendsto_sum_nat b u3

-- A single sample of 1: the energy 7/3 of C26 is indeed between 1 and 25/9; a comb with feedback -9/10 makes at most 100 of it.
example : HasSum (fun n : ℕ => (if n = 0 then 1 else 0 : ℝ) ^ 2) 1 ∧ (1:ℝ) ≤ 7 / 3 ∧ (7:ℝ) / 3 ≤ 25 / 9 * 1 ∧
    ∃ (y : ℕ → ℝ) (E : ℝ), (∀ n, Comb.outAt Cfg.release32 quietMemR (((Comb.new (MemorySlice.fromSlice 0 0 2)).setDampening (1 / 3)).setFeedback (-9 / 10))
      (fun n => if n = 0 then 1 else 0) n = .ok (y n)) ∧ HasSum (fun n => y n ^ 2) E ∧ 100 / 361 ≤ E ∧ E ≤ 100 := by
  have h1 : HasSum (fun n : ℕ => (if n = 0 then 1 else 0 : ℝ) ^ 2) 1 := by
    simpa [ite_pow] using hasSum_ite_eq (0:ℕ) (1:ℝ)
  obtain ⟨y, h2, -, h3⟩ := C180_comb (by norm_num) quietR_views (damp := 1 / 3) (fb := -9 / 10) (by norm_num) (by norm_num)
    (by norm_num [abs_lt]) (fun n => if n = 0 then 1 else 0)
  obtain ⟨E, e1, e2, e3⟩ := h3 1 h1
  have a : |(-9 / 10 : ℝ)| = 9 / 10 := by rw [abs_of_neg] <;> norm_num
  rw [a] at e2 e3
  exact ⟨h1, by norm_num, by norm_num, y, E, h2, e1, by norm_num at e2 ⊢; linarith, by norm_num at e3 ⊢; linarith⟩

end Verif
