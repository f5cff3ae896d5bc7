import Verif.Spec.Sqrt
import Verif.Props.Level
import Verif.Props.Si

/-! # C130: the power law of panning in float arithmetic

C75 shows the power law with an exact square root. Here everything is rounded and the square root is only as good as its
contract. -/

namespace Verif
open F32 Stereo

theorem rnd_false_neg {q : ℚ} (h : 0 ≤ q) : (rnd false q).neg = false := by
  rcases h.eq_or_lt with h | h
  · rw [← h, rnd_zero, neg_pack]
  · exact rnd_neg_of_nonneg h

/-- Half of a rounded sum between 0 and 2: near half of the sum, and never negative, not even `-0`. -/
theorem half_gain {q : ℚ} (h0 : 0 ≤ q) (h2 : q ≤ 2) :
    (rnd false q * lit (1/2)).isFin = true ∧ (rnd false q * lit (1/2)).neg = false ∧
    0 ≤ (rnd false q * lit (1/2)).val ∧ |(rnd false q * lit (1/2)).val - q / 2| ≤ 1 / 2 ^ 22 := by
  obtain ⟨f1, e1⟩ := rnd_near (s := false) (q := q) (B := 2) (by rw [abs_of_nonneg h0]; exact h2) (by norm_num)
  have n1 := rnd_false_neg h0
  have p1 : 0 ≤ (rnd false q).val := by rw [val_of_pos n1]; exact magVal_nonneg _
  generalize rnd false q = s at *
  have e1' := abs_le.1 e1
  have b1 : |s.val * (lit (1/2) : F32).val| ≤ 2 := by
    rw [lithalf_val, abs_of_nonneg (by linarith)]
    norm_num at e1' ⊢; linarith
  obtain ⟨f2, e2⟩ := mul_near f1 lithalf_fin b1 (by norm_num)
  have n2 : (s * lit (1/2)).neg = false := by
    rw [mul_fin f1 lithalf_fin, n1, show (lit (1/2) : F32).neg = false by decide +kernel, lithalf_val]
    exact rnd_false_neg (by linarith)
  rw [lithalf_val] at e2
  refine ⟨f2, n2, by rw [val_of_pos n2]; exact magVal_nonneg _, ?_⟩
  have e2' := abs_le.1 e2
  rw [abs_le]
  constructor <;> norm_num at e1' e2' ⊢ <;> linarith

/-- The two linear gains. -/
theorem linear_gains {a : F32} (ha : a.isFin = true) (h1 : -1 ≤ a.val) (h2 : a.val ≤ 1) :
    let g := equalAmplitudePan a
    (g.1.isFin = true ∧ g.1.neg = false ∧ 0 ≤ g.1.val ∧ |g.1.val - (1 - a.val) / 2| ≤ 1 / 2 ^ 22) ∧
    (g.2.isFin = true ∧ g.2.neg = false ∧ 0 ≤ g.2.val ∧ |g.2.val - (1 + a.val) / 2| ≤ 1 / 2 ^ 22) := by
  have n1 : (lit 1 : F32).neg = false := by decide +kernel
  have e1 : (lit 1 - a : F32) = rnd false (1 - a.val) := by rw [sub_fin lit1_fin ha, n1, lit1_val]; rfl
  have e2 : (lit 1 + a : F32) = rnd false (1 + a.val) := by rw [add_fin lit1_fin ha, n1, lit1_val]; rfl
  simp only [equalAmplitudePan, e1, e2]
  exact ⟨half_gain (by linarith) (by linarith), half_gain (by linarith) (by linarith)⟩

theorem gain_square {sqrt : F32 → F32} {ε : ℚ} (h : SqrtWithin ε sqrt) (e0 : 0 ≤ ε) {g : F32} (hf : g.isFin = true)
    (hn : g.neg = false) (h0 : 0 ≤ g.val) :
    (sqrt g).isFin = true ∧ 0 ≤ (sqrt g).val ∧ |(sqrt g).val ^ 2 - g.val| ≤ ε * g.val + 1 / 2 ^ 99 := by
  obtain ⟨a, b, c, d⟩ := h g hf hn
  refine ⟨a, b, ?_⟩
  rcases le_total (1 / 2 ^ 126) g.val with h1 | h1
  · exact (c h1).trans (le_add_of_nonneg_right (by positivity))
  · have d := d h1
    have p : 0 ≤ ε * g.val := mul_nonneg e0 h0
    have q : 0 ≤ (sqrt g).val ^ 2 := sq_nonneg _
    rw [abs_le]
    constructor <;> norm_num at d h1 ⊢ <;> linarith

/-- C130: the power of the two gains is 1, up to the share `ε` of the square root and the rounding. -/
theorem C130_gains {sqrt : F32 → F32} {ε : ℚ} (h : SqrtWithin ε sqrt) (e0 : 0 ≤ ε) (e1 : ε ≤ 1) {a : F32}
    (ha : a.isFin = true) (h1 : -1 ≤ a.val) (h2 : a.val ≤ 1) :
    let g := equalPowerPan sqrt a
    g.1.isFin = true ∧ g.2.isFin = true ∧ 0 ≤ g.1.val ∧ 0 ≤ g.2.val ∧
    |g.1.val ^ 2 - (1 - a.val) / 2| ≤ ε * ((1 - a.val) / 2) + 1 / 2 ^ 20 ∧
    |g.2.val ^ 2 - (1 + a.val) / 2| ≤ ε * ((1 + a.val) / 2) + 1 / 2 ^ 20 ∧
    |g.1.val ^ 2 + g.2.val ^ 2 - 1| ≤ ε + 1 / 2 ^ 19 := by
  obtain ⟨⟨f1, n1, p1, d1⟩, ⟨f2, n2, p2, d2⟩⟩ := linear_gains ha h1 h2
  obtain ⟨s1, t1, u1⟩ := gain_square h e0 f1 n1 p1
  obtain ⟨s2, t2, u2⟩ := gain_square h e0 f2 n2 p2
  simp only [equalPowerPan]
  generalize (equalAmplitudePan a).1 = l at *
  generalize (equalAmplitudePan a).2 = r at *
  have d1 := abs_le.1 d1
  have d2 := abs_le.1 d2
  have u1 := abs_le.1 u1
  have u2 := abs_le.1 u2
  have m1 : ε * (l.val - (1 - a.val) / 2) ≤ 1 / 2 ^ 22 :=
    (mul_le_mul_of_nonneg_left d1.2 e0).trans (mul_le_of_le_one_left (by positivity) e1)
  have m2 : ε * (r.val - (1 + a.val) / 2) ≤ 1 / 2 ^ 22 :=
    (mul_le_mul_of_nonneg_left d2.2 e0).trans (mul_le_of_le_one_left (by positivity) e1)
  refine ⟨s1, s2, t1, t2, ?_, ?_, ?_⟩ <;> rw [abs_le] <;> constructor <;> norm_num at d1 d2 u1 u2 m1 m2 ⊢ <;> linarith

theorem square_near {x g y e : ℚ} (he : |y - x * g| ≤ e) (hg : |g| ≤ 2) : |y ^ 2 - x ^ 2 * g ^ 2| ≤ e * (4 * |x| + e) := by
  have e0 : 0 ≤ e := (abs_nonneg _).trans he
  have h1 : |x * g| ≤ 2 * |x| := by rw [abs_mul]; nlinarith [abs_nonneg x]
  have h2 : |y + x * g| ≤ 4 * |x| + e := by
    calc |y + x * g| = |(y - x * g) + 2 * (x * g)| := by ring_nf
      _ ≤ |y - x * g| + |2 * (x * g)| := abs_add_le _ _
      _ = |y - x * g| + 2 * |x * g| := by rw [abs_mul, abs_two]
      _ ≤ _ := by linarith
  rw [show y ^ 2 - x ^ 2 * g ^ 2 = (y - x * g) * (y + x * g) by ring, abs_mul]
  exact mul_le_mul he h2 (abs_nonneg _) e0

/-- C130: a signal sent through `stereo_pan` on both channels keeps its power at every position. -/
theorem C130_power {sqrt : F32 → F32} {ε : ℚ} (h : SqrtWithin ε sqrt) (e0 : 0 ≤ ε) (e1 : ε ≤ 1) {a x : F32}
    (ha : a.isFin = true) (h1 : -1 ≤ a.val) (h2 : a.val ≤ 1) (hx : x.isFin = true) (hb : |x.val| ≤ 2 ^ 40) :
    ∃ l r, stereoPan sqrt a (x, x) = .ok (l, r) ∧ l.isFin = true ∧ r.isFin = true ∧
      |l.val ^ 2 + r.val ^ 2 - x.val ^ 2| ≤ (ε + 1 / 2 ^ 18) * x.val ^ 2 + 1 / 2 ^ 100 := by
  obtain ⟨f1, f2, p1, p2, b1, b2, hp⟩ := C130_gains h e0 e1 ha h1 h2
  refine ⟨_, _, (C74_pan sqrt a x (x, x)).2.2.2.2.2 (Or.inr ⟨h1, h2⟩), ?_⟩
  dsimp only
  generalize (equalPowerPan sqrt a).1 = g at *
  generalize (equalPowerPan sqrt a).2 = k at *
  have hp' := abs_le.1 hp
  have g2 : g.val ≤ 2 := by
    by_contra hc
    have : 2 ^ 2 ≤ g.val ^ 2 := pow_le_pow_left₀ (by norm_num) (not_le.1 hc).le 2
    have := sq_nonneg k.val
    norm_num at hp'; linarith
  have k2 : k.val ≤ 2 := by
    by_contra hc
    have : 2 ^ 2 ≤ k.val ^ 2 := pow_le_pow_left₀ (by norm_num) (not_le.1 hc).le 2
    have := sq_nonneg g.val
    norm_num at hp'; linarith
  have ag : |g.val| ≤ 2 := by rw [abs_of_nonneg p1]; exact g2
  have ak : |k.val| ≤ 2 := by rw [abs_of_nonneg p2]; exact k2
  have x0 := abs_nonneg x.val
  have c1 : |x.val * g.val| ≤ 2 * |x.val| := by rw [abs_mul]; nlinarith
  have c2 : |x.val * k.val| ≤ 2 * |x.val| := by rw [abs_mul]; nlinarith
  have cb : 2 * |x.val| ≤ 2 ^ 100 := by norm_num at hb ⊢; linarith
  obtain ⟨o1, q1⟩ := mul_near hx f1 c1 cb
  obtain ⟨o2, q2⟩ := mul_near hx f2 c2 cb
  refine ⟨o1, o2, ?_⟩
  have r1 := abs_le.1 (square_near q1 ag)
  have r2 := abs_le.1 (square_near q2 ak)
  have m := mul_le_mul_of_nonneg_left hp (sq_nonneg x.val)
  rw [← abs_of_nonneg (sq_nonneg x.val), ← abs_mul, abs_of_nonneg (sq_nonneg x.val)] at m
  have m := abs_le.1 m
  have t : (1 / 2 ^ 150 + 2 * |x.val| / 2 ^ 24) * (4 * |x.val| + (1 / 2 ^ 150 + 2 * |x.val| / 2 ^ 24)) ≤
      x.val ^ 2 / 2 ^ 20 + 1 / 2 ^ 102 := by
    rw [← sq_abs x.val]
    generalize |x.val| = y at *
    have : y ^ 2 ≤ 2 ^ 40 * y := by nlinarith
    norm_num at hb ⊢
    nlinarith
  rw [abs_le]
  constructor <;> norm_num at r1 r2 m t ⊢ <;> nlinarith

/-- micromath's square root, half left, a sample of 1/2. -/
example : SqrtWithin (126 / 1000) mmSqrt ∧ stereoPan mmSqrt (lit (-1/2)) (lit (1/2), lit (1/2)) =
    .ok (lit (7/16), lit (1/4)) := ⟨mmSqrt_within, by decide +kernel⟩

end Verif
