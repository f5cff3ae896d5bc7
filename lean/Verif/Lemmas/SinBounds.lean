import Mathlib.Analysis.SpecialFunctions.Trigonometric.Deriv
import Mathlib.Analysis.Calculus.Deriv.MeanValue

/-! # Helper lemmas: alternating Taylor bounds for sine and cosine -/

namespace Verif

/-- Taylor polynomial of the sine with `n` terms. -/
noncomputable def sinT (n : ℕ) (x : ℝ) : ℝ := ∑ k ∈ Finset.range n, (-1) ^ k * (x ^ (2 * k + 1) / (2 * k + 1).factorial)
/-- Taylor polynomial of the cosine with `n` terms. -/
noncomputable def cosT (n : ℕ) (x : ℝ) : ℝ := ∑ k ∈ Finset.range n, (-1) ^ k * (x ^ (2 * k) / (2 * k).factorial)

theorem pow_div_deriv (m : ℕ) (x : ℝ) :
    HasDerivAt (fun y : ℝ => y ^ (m + 1) / (m + 1).factorial) (x ^ m / m.factorial) x := by
  have := (hasDerivAt_pow (m + 1) x).div_const ((m + 1).factorial : ℝ)
  refine this.congr_deriv ?_
  rw [Nat.factorial_succ]
  have h1 : ((m + 1 : ℕ) : ℝ) ≠ 0 := by positivity
  have h2 : (m.factorial : ℝ) ≠ 0 := by positivity
  push_cast at h1 ⊢
  field_simp

theorem sinT_deriv (n : ℕ) (x : ℝ) : HasDerivAt (sinT n) (cosT n x) x := by
  unfold cosT
  have : sinT n = fun y : ℝ => ∑ k ∈ Finset.range n, (-1 : ℝ) ^ k * (y ^ (2 * k + 1) / (2 * k + 1).factorial) := rfl
  rw [this]
  exact HasDerivAt.fun_sum fun k _ => (pow_div_deriv (2 * k) x).const_mul _

theorem cosT_deriv (n : ℕ) (x : ℝ) : HasDerivAt (cosT (n + 1)) (- sinT n x) x := by
  have : cosT (n + 1) = fun y : ℝ => ∑ k ∈ Finset.range n, (-1 : ℝ) ^ (k + 1) * (y ^ (2 * k + 1 + 1) / (2 * k + 1 + 1).factorial) + 1 := by
    funext y
    unfold cosT
    rw [Finset.sum_range_succ']
    simp [Nat.mul_add]
  rw [this]
  unfold sinT
  rw [← Finset.sum_neg_distrib]
  refine (HasDerivAt.fun_sum fun k _ => ?_).add_const 1
  refine ((pow_div_deriv (2 * k + 1) x).const_mul ((-1) ^ (k + 1))).congr_deriv ?_
  rw [pow_succ]; ring

theorem nonneg_of_deriv {f f' : ℝ → ℝ} (hd : ∀ x, HasDerivAt f (f' x) x) (h0 : f 0 = 0) (hp : ∀ x, 0 ≤ x → 0 ≤ f' x)
    {x : ℝ} (hx : 0 ≤ x) : 0 ≤ f x := by
  have hm : MonotoneOn f (Set.Ici 0) := by
    refine monotoneOn_of_deriv_nonneg (convex_Ici 0) (fun y _ => (hd y).continuousAt.continuousWithinAt)
      (fun y _ => (hd y).differentiableAt.differentiableWithinAt) fun y hy => ?_
    rw [(hd y).deriv]
    rw [interior_Ici] at hy
    exact hp y (le_of_lt hy)
  rw [← h0]; exact hm (Set.mem_Ici.2 le_rfl) (Set.mem_Ici.2 hx) hx

theorem cosT_zero (n : ℕ) : cosT (n + 1) 0 = 1 := by
  unfold cosT; rw [Finset.sum_range_succ', Finset.sum_eq_zero]
  · simp
  · intro k _; rw [zero_pow (by omega)]; simp
theorem sinT_zero (n : ℕ) : sinT n 0 = 0 := by
  unfold sinT; exact Finset.sum_eq_zero fun k _ => by rw [zero_pow (by omega)]; simp

theorem taylor_alternate (n : ℕ) : ∀ x : ℝ, 0 ≤ x →
    0 ≤ (-1) ^ (n + 1) * (Real.cos x - cosT (n + 1) x) ∧ 0 ≤ (-1) ^ (n + 1) * (Real.sin x - sinT (n + 1) x) := by
  have hsin : ∀ n : ℕ, (∀ x : ℝ, 0 ≤ x → 0 ≤ (-1) ^ n * (Real.cos x - cosT n x)) → ∀ x : ℝ, 0 ≤ x →
      0 ≤ (-1) ^ n * (Real.sin x - sinT n x) := by
    intro n h x hx
    refine nonneg_of_deriv (f := fun y => (-1) ^ n * (Real.sin y - sinT n y))
      (fun y => ((Real.hasDerivAt_sin y).sub (sinT_deriv n y)).const_mul _) ?_ h hx
    simp [sinT_zero]
  induction n with
  | zero =>
    have hc : ∀ x : ℝ, 0 ≤ x → 0 ≤ (-1) ^ 1 * (Real.cos x - cosT 1 x) := by
      intro x _
      have := Real.cos_le_one x
      simp [cosT]; linarith
    exact fun x hx => ⟨hc x hx, hsin 1 hc x hx⟩
  | succ n ih =>
    have hc : ∀ x : ℝ, 0 ≤ x → 0 ≤ (-1) ^ (n + 1 + 1) * (Real.cos x - cosT (n + 1 + 1) x) := by
      intro x hx
      refine nonneg_of_deriv (f := fun y => (-1) ^ (n + 1 + 1) * (Real.cos y - cosT (n + 1 + 1) y))
        (fun y => ((Real.hasDerivAt_cos y).sub (cosT_deriv (n + 1) y)).const_mul _) ?_ (fun y hy => ?_) hx
      · simp [cosT_zero]
      · have := (ih y hy).2
        rw [pow_succ]; linarith
    exact fun x hx => ⟨hc x hx, hsin (n + 2) hc x hx⟩

theorem sin_le_taylor {x : ℝ} (hx : 0 ≤ x) (n : ℕ) (hn : Odd n) : Real.sin x ≤ sinT n x := by
  obtain ⟨k, rfl⟩ := hn
  have := (taylor_alternate (2 * k) x hx).2
  rw [Odd.neg_one_pow ⟨k, rfl⟩] at this; linarith

theorem taylor_le_sin {x : ℝ} (hx : 0 ≤ x) (n : ℕ) (hn : Even n) (h0 : n ≠ 0) : sinT n x ≤ Real.sin x := by
  obtain ⟨k, rfl⟩ := hn
  obtain ⟨j, rfl⟩ : ∃ j, k = j + 1 := ⟨k - 1, by omega⟩
  have := (taylor_alternate (2 * j + 1) x hx).2
  rw [show 2 * j + 1 + 1 = j + 1 + (j + 1) by ring, Even.neg_one_pow ⟨j + 1, rfl⟩] at this; linarith

theorem cos_le_taylor {x : ℝ} (hx : 0 ≤ x) (n : ℕ) (hn : Odd n) : Real.cos x ≤ cosT n x := by
  obtain ⟨k, rfl⟩ := hn
  have := (taylor_alternate (2 * k) x hx).1
  rw [Odd.neg_one_pow ⟨k, rfl⟩] at this; linarith

theorem taylor_le_cos {x : ℝ} (hx : 0 ≤ x) (n : ℕ) (hn : Even n) (h0 : n ≠ 0) : cosT n x ≤ Real.cos x := by
  obtain ⟨k, rfl⟩ := hn
  obtain ⟨j, rfl⟩ : ∃ j, k = j + 1 := ⟨k - 1, by omega⟩
  have := (taylor_alternate (2 * j + 1) x hx).1
  rw [show 2 * j + 1 + 1 = j + 1 + (j + 1) by ring, Even.neg_one_pow ⟨j + 1, rfl⟩] at this; linarith

end Verif
