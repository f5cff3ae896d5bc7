import Verif.Props.Crossfade

/-! # C207: panned signals played back in mono, and what tells where they are -/

namespace Verif
open Verif.F32 Verif.Stereo

/-- C207: what `mono_pan` makes of a sample adds up to the sample, and has `(1+a²)/2` of its power: half of it in the middle, all at the sides. -/
theorem C207_mono_pan (a x : ℝ) : (monoPanUnchecked a x).1 + (monoPanUnchecked a x).2 = x ∧
    (monoPanUnchecked a x).1 ^ 2 + (monoPanUnchecked a x).2 ^ 2 = (1 + a ^ 2) / 2 * x ^ 2 := by
  simp only [monoPanUnchecked, equalAmplitudePan, Lit.lit]
  push_cast
  exact ⟨by ring, by ring⟩

/-- C207: what `stereo_pan` makes of a sample on both channels adds up to the sample times the root of `1 + √(1-a²)`: 3 dB too loud in the middle,
right only at the sides. -/
theorem C207_stereo_pan {a : ℝ} (h0 : -1 ≤ a) (h1 : a ≤ 1) (x : ℝ) :
    (stereoPanUnchecked Real.sqrt a (x, x)).1 + (stereoPanUnchecked Real.sqrt a (x, x)).2 = x * √(1 + √(1 - a ^ 2)) := by
  simp only [stereoPanUnchecked, equalPowerPan, equalAmplitudePan, Lit.lit]
  push_cast
  rw [← mul_add]
  congr 1
  have p : 0 ≤ (1 - a) * (1 / 2) := by linarith
  have q : 0 ≤ (1 + a) * (1 / 2) := by linarith
  symm
  rw [Real.sqrt_eq_iff_mul_self_eq (by positivity) (by positivity)]
  have e : √(1 - a ^ 2) = 2 * (√((1 - a) * (1 / 2)) * √((1 + a) * (1 / 2))) := by
    rw [← Real.sqrt_mul p, Real.sqrt_eq_iff_mul_self_eq (by nlinarith) (by positivity)]
    have := Real.mul_self_sqrt (mul_nonneg p q)
    linear_combination (-4 : ℝ) * this
  rw [e]
  linear_combination -(Real.mul_self_sqrt p) - Real.mul_self_sqrt q

/-- C207: so the sum is never below the sample nor more than `√2` of it, the one only at the sides, the other only in the middle, and the nearer the middle the
louder. -/
theorem C207_hump {a b : ℝ} (ha : |a| < |b|) (hb : |b| ≤ 1) : √(1 + √(1 - b ^ 2)) < √(1 + √(1 - a ^ 2)) ∧
    1 ≤ √(1 + √(1 - b ^ 2)) ∧ √(1 + √(1 - a ^ 2)) ≤ √2 := by
  have h : a ^ 2 < b ^ 2 := sq_lt_sq.2 ha
  have h' : b ^ 2 ≤ 1 := by rw [← sq_abs]; nlinarith [abs_nonneg b]
  refine ⟨Real.sqrt_lt_sqrt (by positivity) ?_, ?_, ?_⟩
  · have := Real.sqrt_lt_sqrt (show 0 ≤ 1 - b ^ 2 by linarith) (show 1 - b ^ 2 < 1 - a ^ 2 by linarith)
    linarith
  · rw [Real.one_le_sqrt]; linarith [Real.sqrt_nonneg (1 - b ^ 2)]
  · refine Real.sqrt_le_sqrt ?_
    have : √(1 - a ^ 2) ≤ 1 := Real.sqrt_le_one.2 (by nlinarith [sq_nonneg a])
    linarith

/-- C207: further right, the left channel is softer and the right one louder, strictly, under both laws. -/
theorem C207_moves {a b x : ℝ} (h0 : -1 ≤ a) (h : a < b) (h1 : b ≤ 1) (hx : 0 < x) :
    (monoPanUnchecked b x).1 < (monoPanUnchecked a x).1 ∧ (monoPanUnchecked a x).2 < (monoPanUnchecked b x).2 ∧
    (stereoPanUnchecked Real.sqrt b (x, x)).1 < (stereoPanUnchecked Real.sqrt a (x, x)).1 ∧
    (stereoPanUnchecked Real.sqrt a (x, x)).2 < (stereoPanUnchecked Real.sqrt b (x, x)).2 := by
  simp only [monoPanUnchecked, stereoPanUnchecked, equalPowerPan, equalAmplitudePan, Lit.lit]
  push_cast
  refine ⟨?_, ?_, mul_lt_mul_of_pos_left (Real.sqrt_lt_sqrt (by linarith) (by linarith)) hx,
    mul_lt_mul_of_pos_left (Real.sqrt_lt_sqrt (by linarith) (by linarith)) hx⟩ <;>
  exact mul_lt_mul_of_pos_left (by linarith) hx

/-- C207 in floats: the two channels of `mono_pan` add up to the sample, to 2^-21 of it. -/
theorem C207_float {a x : F32} (h0 : -1 ≤ a.val) (h1 : a.val ≤ 1) (hx : x.isFin = true) (hm : |x.val| ≤ 2 ^ 98) :
    ((monoPanUnchecked a x).1 + (monoPanUnchecked a x).2).isFin = true ∧
      |((monoPanUnchecked a x).1 + (monoPanUnchecked a x).2).val - x.val| ≤ |x.val| / 2 ^ 21 + 1 / 2 ^ 148 := by
  have h := C112_float h0 h1 hx hx le_rfl le_rfl hm
  rwa [show (1 - a.val) / 2 * x.val + (1 + a.val) / 2 * x.val = x.val by ring] at h

example : (monoPanUnchecked (0 : ℝ) 1).1 ^ 2 + (monoPanUnchecked (0 : ℝ) 1).2 ^ 2 = 1 / 2 := by
  rw [(C207_mono_pan 0 1).2]; norm_num

/-- In the middle the sum is `√2` times the sample. -/
example : (stereoPanUnchecked Real.sqrt (0 : ℝ) (3, 3)).1 + (stereoPanUnchecked Real.sqrt (0 : ℝ) (3, 3)).2 = 3 * √2 := by
  rw [C207_stereo_pan (by norm_num) (by norm_num)]; norm_num

example : (monoPanUnchecked (lit (1/4)) (lit 3) : F32 × F32) = (lit (9/8), lit (15/8)) ∧ (lit (9/8) + lit (15/8) : F32) = lit 3 := by decide +kernel

end Verif
