import Verif.Props.CombFloat
import Mathlib.Analysis.SpecialFunctions.Log.Base
import Mathlib.Analysis.Complex.ExponentialBounds
import Mathlib.Analysis.SpecialFunctions.Log.Deriv

/-! # C175: the echoes of a comb in float arithmetic, and how long they last -/

namespace Verif
open F32

/-- Passing a sample through the damping filter of a comb without dampening changes nothing. -/
theorem undamped {a f : F32} (ha : a.isFin = true) (hf : f.isFin = true) :
    (a * (lit 1 - lit 0) + f * lit 0).isFin = true ∧ (a * (lit 1 - lit 0) + f * lit 0).val = a.val := by
  have e : (lit 1 - lit 0 : F32) = lit 1 := by decide +kernel
  rw [e]
  obtain ⟨m1, m2⟩ := mul_exact ha lit1_fin (by rw [lit1_val, mul_one]; exact rep_val ha)
  obtain ⟨z1, z2⟩ := mul_zero_val hf lit0_fin (Or.inr lit0_val)
  rw [lit1_val, mul_one] at m2
  obtain ⟨s1, s2⟩ := add_exact m1 z1 (by rw [m2, z2, add_zero]; exact rep_val ha)
  exact ⟨s1, by rw [s2, m2, z2, add_zero]⟩

section
variable {c : Cfg} {mem : Mem F32} {s : MemorySlice} {L : ℕ} {g A : F32}

/-- One impulse into a silent comb without dampening: the echoes one by one, and nothing in between. -/
theorem echo_seq (hL : 0 < L) (h : Views c mem s (List.replicate L (lit 0))) (hg : g.isFin = true) (g1 : |g.val| ≤ 1)
    (hA : A.isFin = true) :
    ∃ y : ℕ → F32, (∀ n, Comb.outAt c mem (((Comb.new s).setDampening (lit 0)).setFeedback g)
        (fun n => if n = 0 then A else lit 0) n = .ok (y n)) ∧
      (∀ n, (y n).isFin = true) ∧ (y L).val = A.val ∧
      (∀ k : ℕ, ∃ b, (y ((k + 1 + 1) * L)).val = (rnd b ((y ((k + 1) * L)).val * g.val)).val) ∧
      (∀ n, (∀ k : ℕ, n ≠ (k + 1) * L) → (y n).val = 0) := by
  have hne : List.replicate L (lit 0 : F32) ≠ [] := by
    intro h0; have := congrArg List.length h0; simp at this; omega
  obtain ⟨w, f, hw0, hf0, hf, hw, hout⟩ := C20_comb (k := ((Comb.new s).setDampening (lit 0 : F32)).setFeedback g)
    (holds_new h hne) (fun n => if n = 0 then A else lit 0)
  simp only [List.length_replicate, List.getElem_replicate] at hw0 hw
  have hf0' : f 0 = lit 0 := hf0
  have hf' : ∀ n, f (n + 1) = w n * (lit 1 - lit 0) + f n * lit 0 := hf
  have hw' : ∀ n, w (n + L) = (if n = 0 then A else lit 0) + f (n + 1) * g := hw
  -- a cell `a` comes back as the rounded product, to which nothing is added unless it was silent
  have one : ∀ n, (w n).isFin = true → (f n).isFin = true → (n = 0 → (w n).val = 0) →
      (f (n + 1)).isFin = true ∧ (w (n + L)).isFin = true ∧ (n = 0 → (w (n + L)).val = A.val) ∧
      (n ≠ 0 → ∃ b, (w (n + L)).val = (rnd b ((w n).val * g.val)).val) := by
    intro n a1 a2 a3
    obtain ⟨u1, u2⟩ := undamped a1 a2
    rw [← hf' n] at u1 u2
    rw [hw' n]
    by_cases h0 : n = 0
    · obtain ⟨z1, z2⟩ := mul_zero_val u1 hg (Or.inl (by rw [u2]; exact a3 h0))
      rw [if_pos h0]
      obtain ⟨q1, q2⟩ := add_exact hA z1 (by rw [z2, add_zero]; exact rep_val hA)
      exact ⟨u1, q1, fun _ => by rw [q2, z2, add_zero], fun c => absurd h0 c⟩
    · rw [if_neg h0]
      have m1 : (f (n + 1) * g).isFin = true := by
        rw [mul_fin u1 hg]
        refine rnd_fin a1 ?_
        rw [u2, abs_mul]
        exact mul_le_of_le_one_right (abs_nonneg _) g1
      obtain ⟨q1, q2⟩ := add_exact lit0_fin m1 (by rw [lit0_val, zero_add]; exact rep_val m1)
      refine ⟨u1, q1, fun c => absurd c h0, fun _ => ⟨(f (n + 1)).neg != g.neg, ?_⟩⟩
      rw [q2, lit0_val, zero_add, mul_fin u1 hg, u2]
  have fin : ∀ n, (f n).isFin = true ∧ ∀ m < n + L, (w m).isFin = true := by
    intro n
    induction n with
    | zero => exact ⟨by rw [hf0']; exact lit0_fin, fun m hm => by rw [hw0 m (by omega)]; exact lit0_fin⟩
    | succ n ih =>
      obtain ⟨i1, i2⟩ := ih
      obtain ⟨o1, o2, -, -⟩ := one n (i2 n (by omega)) i1 (fun h0 => by rw [hw0 n (by omega)]; exact lit0_val)
      refine ⟨o1, fun m hm => ?_⟩
      rcases Nat.lt_succ_iff_lt_or_eq.1 (by omega : m < (n + L) + 1) with l | l
      · exact i2 m l
      · rw [l]; exact o2
  have wf : ∀ n, (w n).isFin = true := fun n => (fin n).2 n (by omega)
  have st := fun n => one n (wf n) (fin n).1 (fun h0 => by rw [hw0 n (by omega)]; exact lit0_val)
  refine ⟨w, hout, wf, ?_, ?_, ?_⟩
  · have := (st 0).2.2.1 rfl
    rwa [zero_add] at this
  · intro k
    have := (st ((k + 1) * L)).2.2.2 (by positivity)
    rwa [show (k + 1) * L + L = (k + 1 + 1) * L by ring] at this
  · refine stride_induction (P := fun n => (∀ k : ℕ, n ≠ (k + 1) * L) → (w n).val = 0) hL ?_ ?_
    · intro n hn _; rw [hw0 n hn]; exact lit0_val
    · intro n ih hn
      have hn0 : n ≠ 0 := by rintro rfl; exact hn 0 (by ring)
      obtain ⟨b, hb⟩ := (st n).2.2.2 hn0
      rw [hb, ih (fun k hk => hn (k + 1) (by rw [hk]; ring)), zero_mul]
      exact Rep.rnd_val (by exact_mod_cast rep_int (n := 0) (by norm_num)) _

/-- C175: the k-th echo of an impulse `A` is `A * feedback^k` up to one rounding per echo, and all else is zero. -/
theorem C175_echo (hL : 0 < L) (h : Views c mem s (List.replicate L (lit 0))) (hg : g.isFin = true) (g1 : |g.val| ≤ 1)
    (hA : A.isFin = true) :
    ∃ y : ℕ → F32, (∀ n, Comb.outAt c mem (((Comb.new s).setDampening (lit 0)).setFeedback g)
        (fun n => if n = 0 then A else lit 0) n = .ok (y n)) ∧
      (∀ k : ℕ, (y ((k + 1) * L)).isFin = true ∧
        |(y ((k + 1 + 1) * L)).val| ≤ |(y ((k + 1) * L)).val| ∧
        |(y ((k + 1) * L)).val - A.val * g.val ^ k| ≤
          |A.val| * |g.val| ^ k * ((1 + 1 / 2 ^ 24) ^ k - 1) + k * (1 + 1 / 2 ^ 24) ^ k / 2 ^ 150) ∧
      (∀ n, (∀ k : ℕ, n ≠ (k + 1) * L) → (y n).val = 0) := by
  obtain ⟨y, hout, hf, h0, hs, hz⟩ := echo_seq hL h hg g1 hA
  refine ⟨y, hout, fun k => ⟨hf _, ?_, ?_⟩, hz⟩
  · obtain ⟨b, hb⟩ := hs k
    rw [hb]
    refine rnd_abs_le ?_
    rw [abs_mul]
    exact mul_le_of_le_one_right (abs_nonneg _) g1
  · induction k with
    | zero => simp [h0]
    | succ k ih =>
      obtain ⟨b, hb⟩ := hs k
      have fb : (rnd b ((y ((k + 1) * L)).val * g.val)).isFin = true := by
        refine rnd_fin (hf ((k + 1) * L)) ?_
        rw [abs_mul]
        exact mul_le_of_le_one_right (abs_nonneg _) g1
      have er := rnd_abs_error_max fb
      rw [← hb] at er
      generalize (y ((k + 1 + 1) * L)).val = Y at *
      generalize (y ((k + 1) * L)).val = X at *
      generalize g.val = γ at *
      generalize A.val = a at *
      have u1 : (1:ℚ) ≤ (1 + 1 / 2 ^ 24) ^ k := one_le_pow₀ (by norm_num)
      rw [pow_succ (1 + 1 / 2 ^ 24 : ℚ)]
      set u : ℚ := (1 + 1 / 2 ^ 24) ^ k with hu
      have gk : |γ| ^ (k + 1) = |γ| ^ k * |γ| := pow_succ _ _
      set ρ : ℚ := 1 / 2 ^ 24 with hρ
      have ρ0 : 0 < ρ := by rw [hρ]; positivity
      have e1 : |X * γ - a * γ ^ (k + 1)| ≤ |γ| * (|a| * |γ| ^ k * (u - 1) + k * u / 2 ^ 150) := by
        rw [show X * γ - a * γ ^ (k + 1) = γ * (X - a * γ ^ k) by ring, abs_mul]
        exact mul_le_mul_of_nonneg_left ih (abs_nonneg _)
      have e2 : |X * γ| ≤ |a| * |γ| ^ (k + 1) + |γ| * (|a| * |γ| ^ k * (u - 1) + k * u / 2 ^ 150) := by
        have : |X * γ| ≤ |X * γ - a * γ ^ (k + 1)| + |a * γ ^ (k + 1)| := by
          simpa using abs_add_le (X * γ - a * γ ^ (k + 1)) (a * γ ^ (k + 1))
        rw [abs_mul a, abs_pow] at this
        linarith
      have e3 : |Y - a * γ ^ (k + 1)| ≤ |Y - X * γ| + |X * γ - a * γ ^ (k + 1)| := abs_sub_le _ _ _
      have e4 : |X * γ| / 2 ^ 24 = |X * γ| * ρ := by rw [hρ]; ring
      rw [e4] at er
      have e5 := mul_le_mul_of_nonneg_right e2 ρ0.le
      have e6 : |γ| * (k * u / 2 ^ 150) * (1 + ρ) ≤ k * u / 2 ^ 150 * (1 + ρ) := by
        refine mul_le_mul_of_nonneg_right (mul_le_of_le_one_left (by positivity) g1) (by linarith)
      have e7 : (1:ℚ) / 2 ^ 150 ≤ u * (1 + ρ) / 2 ^ 150 := by
        apply div_le_div_of_nonneg_right _ (by positivity); nlinarith
      push_cast
      rw [gk] at e2 e5 ⊢
      have e8 : (k + 1) * (u * (1 + ρ)) / 2 ^ 150 = k * u / 2 ^ 150 * (1 + ρ) + u * (1 + ρ) / 2 ^ 150 := by ring
      rw [e8]
      nlinarith

/-- A geometric sequence with one relative and one absolute error per step, the absolute ones summed up in `T`. -/
theorem geometric_error {Y : ℕ → ℝ} {a γ ρ τ T : ℝ} (ρ0 : 0 ≤ ρ) (T0 : 0 ≤ T) (h0 : Y 0 = a)
    (h : ∀ k, |Y (k + 1) - Y k * γ| ≤ |Y k * γ| * ρ + τ) (hT : |γ| * (1 + ρ) * T + τ ≤ T) (k : ℕ) :
    |Y k - a * γ ^ k| ≤ |a| * |γ| ^ k * ((1 + ρ) ^ k - 1) + T := by
  induction k with
  | zero => simpa [h0] using T0
  | succ k ih =>
    have er := h k
    generalize Y (k + 1) = Z at *
    generalize Y k = X at *
    have e1 : |X * γ - a * γ ^ (k + 1)| ≤ |γ| * (|a| * |γ| ^ k * ((1 + ρ) ^ k - 1) + T) := by
      rw [show X * γ - a * γ ^ (k + 1) = γ * (X - a * γ ^ k) by ring, abs_mul]
      exact mul_le_mul_of_nonneg_left ih (abs_nonneg _)
    have e2 : |X * γ| ≤ |a| * |γ| ^ (k + 1) + |γ| * (|a| * |γ| ^ k * ((1 + ρ) ^ k - 1) + T) := by
      have : |X * γ| ≤ |X * γ - a * γ ^ (k + 1)| + |a * γ ^ (k + 1)| := by
        simpa using abs_add_le (X * γ - a * γ ^ (k + 1)) (a * γ ^ (k + 1))
      rw [abs_mul a, abs_pow] at this
      linarith
    have e3 : |Z - a * γ ^ (k + 1)| ≤ |Z - X * γ| + |X * γ - a * γ ^ (k + 1)| := abs_sub_le _ _ _
    have e5 := mul_le_mul_of_nonneg_right e2 ρ0
    rw [pow_succ |γ|] at e2 e5 ⊢
    rw [pow_succ (1 + ρ)]
    nlinarith

theorem log_ten_bounds : 2 ≤ Real.log 10 ∧ Real.log 10 ≤ 3 := by
  have a := Real.exp_one_gt_d9
  have b := Real.exp_one_lt_d9
  constructor
  · rw [Real.le_log_iff_exp_le (by norm_num), show (2:ℝ) = 1 + 1 by norm_num, Real.exp_add]
    nlinarith
  · rw [Real.log_le_iff_le_exp (by norm_num), show (3:ℝ) = 1 + 1 + 1 by norm_num, Real.exp_add, Real.exp_add]
    have : (7:ℝ) ≤ Real.exp 1 * Real.exp 1 := by nlinarith
    nlinarith

/-- How long a geometric sequence with errors stays above a thousandth of its start. -/
theorem sixty_decibels {Y : ℕ → ℝ} {a γ : ℝ} (a0 : 1 / 2 ^ 90 ≤ a) (γ0 : 0 < γ) (γ1 : γ ≤ 1 - 1 / 2 ^ 10) (h0 : Y 0 = a)
    (h : ∀ k, |Y (k + 1) - Y k * γ| ≤ |Y k * γ| * (1 / 2 ^ 24) + 1 / 2 ^ 150) (k : ℕ) :
    (3 * (1 + 1 / 2 ^ 12) ≤ k * Real.logb 10 (1 / γ) → Y k ≤ a / 1000) ∧
    (k * Real.logb 10 (1 / γ) ≤ 3 * (1 - 1 / 2 ^ 12) → a / 1000 ≤ Y k) := by
  have ap : 0 < a := lt_of_lt_of_le (by positivity) a0
  have er := abs_le.1 (geometric_error (ρ := 1 / 2 ^ 24) (T := 1 / 2 ^ 139) (by positivity) (by positivity) h0 h (by
    rw [abs_of_pos γ0]
    have : γ * (1 + 1 / 2 ^ 24) ≤ 1 - 1 / 2 ^ 11 := by linarith
    have := mul_le_mul_of_nonneg_right this (show (0:ℝ) ≤ 1 / 2 ^ 139 by positivity)
    refine (add_le_add_left this _).trans ?_
    norm_num) k)
  rw [abs_of_pos ap, abs_of_pos γ0] at er
  obtain ⟨t1, t2⟩ := log_ten_bounds
  set l := Real.log 10 with hl
  set m := -Real.log γ with hm
  have mp : 1 / 2 ^ 10 ≤ m := by
    have := Real.log_le_sub_one_of_pos γ0
    rw [hm]; linarith
  have lb : Real.logb 10 (1 / γ) = m / l := by
    rw [Real.logb, one_div, Real.log_inv]
  have gk : γ ^ k = Real.exp (-(k * m)) := by
    rw [hm, mul_neg, neg_neg, Real.exp_nat_mul, Real.exp_log γ0]
  have ku : ((1:ℝ) + 1 / 2 ^ 24) ^ k ≤ Real.exp (k * m / 2 ^ 14) := by
    have : (1:ℝ) + 1 / 2 ^ 24 ≤ Real.exp (1 / 2 ^ 24) := by
      have := Real.add_one_le_exp (1 / 2 ^ 24 : ℝ); linarith
    refine (pow_le_pow_left₀ (by positivity) this k).trans ?_
    rw [← Real.exp_nat_mul, Real.exp_le_exp]
    have hk : (0:ℝ) ≤ k := Nat.cast_nonneg k
    have : (k:ℝ) * (1 / 2 ^ 10) ≤ k * m := mul_le_mul_of_nonneg_left mp hk
    linarith
  have thousand : Real.exp (-(3 * l)) = 1 / 1000 := by
    rw [Real.exp_neg, show (3:ℝ) * l = ((3:ℕ):ℝ) * l by norm_num, Real.exp_nat_mul, hl, Real.exp_log (by norm_num)]
    norm_num
  have tiny : (1:ℝ) / 2 ^ 139 ≤ a / 2 ^ 40 := by
    have : (1:ℝ) / 2 ^ 139 ≤ 1 / 2 ^ 90 / 2 ^ 40 := by norm_num
    exact this.trans (div_le_div_of_nonneg_right a0 (by positivity))
  have u1 : (1:ℝ) ≤ (1 + 1 / 2 ^ 24) ^ k := one_le_pow₀ (by norm_num)
  rw [lb, ← mul_div_assoc]
  have lp : 0 < l := by linarith
  constructor
  · intro c
    rw [le_div_iff₀ lp] at c
    have b1 : γ ^ k * (1 + 1 / 2 ^ 24) ^ k ≤ Real.exp (-(3 * l)) * Real.exp (-(6 / 2 ^ 13)) := by
      refine (mul_le_mul_of_nonneg_left ku (by positivity)).trans ?_
      rw [gk, ← Real.exp_add, ← Real.exp_add, Real.exp_le_exp]
      linarith
    have b2 : Real.exp (-(6 / 2 ^ 13)) ≤ 1 - 1 / 2 ^ 11 := by
      rw [Real.exp_neg]
      have : (1:ℝ) + 6 / 2 ^ 13 ≤ Real.exp (6 / 2 ^ 13) := by
        have := Real.add_one_le_exp (6 / 2 ^ 13 : ℝ); linarith
      refine (inv_anti₀ (by positivity) this).trans ?_
      norm_num
    rw [thousand] at b1
    have b3 : γ ^ k * (1 + 1 / 2 ^ 24) ^ k ≤ 1 / 1000 * (1 - 1 / 2 ^ 11) := by linarith
    have b4 := mul_le_mul_of_nonneg_left b3 ap.le
    have : a * γ ^ k * ((1 + 1 / 2 ^ 24) ^ k - 1) = a * (γ ^ k * (1 + 1 / 2 ^ 24) ^ k) - a * γ ^ k := by ring
    have e2 := er.2
    rw [this] at e2
    linarith
  · intro c
    rw [div_le_iff₀ lp] at c
    have b1 : 1 / 1000 * (1 + 6 / 2 ^ 12) ≤ γ ^ k := by
      rw [gk, ← thousand]
      have : (1:ℝ) + 6 / 2 ^ 12 ≤ Real.exp (6 / 2 ^ 12) := by
        have := Real.add_one_le_exp (6 / 2 ^ 12 : ℝ); linarith
      refine (mul_le_mul_of_nonneg_left this (Real.exp_nonneg _)).trans ?_
      rw [← Real.exp_add, Real.exp_le_exp]
      linarith
    have b2 : ((1:ℝ) + 1 / 2 ^ 24) ^ k ≤ 1 + 19 / 2 ^ 15 := by
      refine ku.trans ?_
      have : (k:ℝ) * m / 2 ^ 14 ≤ 9 / 2 ^ 14 := by linarith
      refine (Real.exp_le_exp.2 this).trans ?_
      have h3 := Real.add_one_le_exp (-(9 / 2 ^ 14) : ℝ)
      rw [Real.exp_neg] at h3
      have h4 := inv_anti₀ (by norm_num) h3
      rw [inv_inv] at h4
      exact h4.trans (by norm_num)
    have b3 : 1 / 1000 * (1 + 6 / 2 ^ 12) * (1 - 19 / 2 ^ 15) ≤ γ ^ k * (2 - (1 + 1 / 2 ^ 24) ^ k) :=
      mul_le_mul b1 (by linarith) (by norm_num) (by positivity)
    have b4 := mul_le_mul_of_nonneg_left b3 ap.le
    have : a * γ ^ k * ((1 + 1 / 2 ^ 24) ^ k - 1) = a * γ ^ k - a * (γ ^ k * (2 - (1 + 1 / 2 ^ 24) ^ k)) := by ring
    have e1 := er.1
    rw [this] at e1
    linarith

/-- C175: the reverberation time. The echoes pass -60 dB, a thousandth of the impulse, `3 / log10 (1 / feedback)` rounds
of the buffer after the first one, to within one part in 4096. -/
theorem C175_reverberation_time (hL : 0 < L) (h : Views c mem s (List.replicate L (lit 0))) (hg : g.isFin = true)
    (g0 : 0 < g.val) (g1 : g.val ≤ 1 - 1 / 2 ^ 10) (hA : A.isFin = true) (A0 : 1 / 2 ^ 90 ≤ A.val) (k : ℕ) :
    ∃ y, Comb.outAt c mem (((Comb.new s).setDampening (lit 0)).setFeedback g)
        (fun n => if n = 0 then A else lit 0) ((k + 1) * L) = .ok y ∧
      (3 * (1 + 1 / 2 ^ 12) ≤ k * Real.logb 10 (1 / (g.val : ℝ)) → (y.val : ℝ) ≤ A.val / 1000) ∧
      (k * Real.logb 10 (1 / (g.val : ℝ)) ≤ 3 * (1 - 1 / 2 ^ 12) → (A.val : ℝ) / 1000 ≤ y.val) := by
  have gl : |g.val| ≤ 1 := by
    have : (0:ℚ) ≤ 1 / 2 ^ 10 := by positivity
    rw [abs_of_pos g0]; linarith
  obtain ⟨y, hout, hf, h0, hs, hz⟩ := echo_seq hL h hg gl hA
  refine ⟨_, hout _, sixty_decibels (Y := fun k => ((y ((k + 1) * L)).val : ℝ)) (a := A.val) (γ := g.val) ?_ ?_ ?_ ?_ ?_ k⟩
  · have : ((1 / 2 ^ 90 : ℚ) : ℝ) ≤ (A.val : ℝ) := by exact_mod_cast A0
    push_cast at this; exact this
  · exact_mod_cast g0
  · have : (g.val : ℝ) ≤ ((1 - 1 / 2 ^ 10 : ℚ) : ℝ) := by exact_mod_cast g1
    push_cast at this; exact this
  · simp [h0]
  · intro k
    obtain ⟨b, hb⟩ := hs k
    have fb : (rnd b ((y ((k + 1) * L)).val * g.val)).isFin = true := by
      refine rnd_fin (hf ((k + 1) * L)) ?_
      rw [abs_mul]
      exact mul_le_of_le_one_right (abs_nonneg _) gl
    have er := rnd_abs_error_max fb
    rw [← hb] at er
    have er' : ((|(y ((k + 1 + 1) * L)).val - (y ((k + 1) * L)).val * g.val| : ℚ) : ℝ)
        ≤ ((|(y ((k + 1) * L)).val * g.val| / 2 ^ 24 + 1 / 2 ^ 150 : ℚ) : ℝ) := Rat.cast_le.2 er
    push_cast at er'
    linarith

end

/-- A silent buffer of two cells, feedback 1/8: the third echo is above a thousandth (-54 dB), the fourth below (-72 dB). -/
example : Views Cfg.release32 quietMem quietSlice (List.replicate 2 (lit 0)) ∧
    Comb.outAt Cfg.release32 quietMem (((Comb.new quietSlice).setDampening (lit 0)).setFeedback (lit (1/8)))
      (fun n => if n = 0 then lit 1 else lit 0) ((3 + 1) * 2) = .ok (lit (1/512)) ∧
    Comb.outAt Cfg.release32 quietMem (((Comb.new quietSlice).setDampening (lit 0)).setFeedback (lit (1/8)))
      (fun n => if n = 0 then lit 1 else lit 0) ((4 + 1) * 2) = .ok (lit (1/4096)) ∧
    Comb.outAt Cfg.release32 quietMem (((Comb.new quietSlice).setDampening (lit 0)).setFeedback (lit (1/8)))
      (fun n => if n = 0 then lit 1 else lit 0) 9 = .ok (lit 0) := by
  refine ⟨quiet_views, ?_, ?_, ?_⟩ <;> decide +kernel

/-- The fourth echo of that comb is predicted to be below. -/
example : 3 * (1 + 1 / 2 ^ 12) ≤ ((4 : ℕ) : ℝ) * Real.logb 10 (1 / (1 / 8)) := by
  have : (1 / (1 / 8) : ℝ) ^ 4 = 4096 := by norm_num
  rw [← Real.logb_pow, this]
  have h : Real.logb 10 4000 ≤ Real.logb 10 4096 := Real.logb_le_logb_of_le (by norm_num) (by norm_num) (by norm_num)
  have h2 : Real.logb 10 4000 = 3 + Real.logb 10 4 := by
    rw [show (4000:ℝ) = 10 ^ (3:ℕ) * 4 by norm_num, Real.logb_mul (by norm_num) (by norm_num), Real.logb_pow,
      Real.logb_self_eq_one (by norm_num)]; norm_num
  have h3 : 1 / 2 ≤ Real.logb 10 4 := by
    rw [Real.le_logb_iff_rpow_le (by norm_num) (by norm_num), ← Real.sqrt_eq_rpow, Real.sqrt_le_left (by norm_num)]
    norm_num
  linarith

end Verif
