import Verif.Props.Crossfade
import Verif.Props.PanFloat
import Mathlib.Analysis.SpecialFunctions.Pow.NNReal

/-! # C189: clipping, panning and crossfading do not make steps of their own -/

namespace Verif
open F32 Stereo Clipping

/-- C189: clipping is odd bit for bit, returns the nearest number in range, and brings no two samples further apart. -/
theorem C189_clip (x y : F32) (hx : x.isNaN = false) (hy : y.isNaN = false) :
    ∃ r s, digitalClip x = .ok r ∧ digitalClip y = .ok s ∧ digitalClip (-x) = .ok (-r) ∧ |r.val - s.val| ≤ |x.val - y.val| ∧
      (∀ q : ℚ, -1 ≤ q → q ≤ 1 → |r.val - x.val| ≤ |q - x.val|) ∧ (∀ q : ℚ, -1 ≤ q → q ≤ 1 → |r.val - q| ≤ |x.val - q|) := by
  obtain ⟨r, hr, -, h1, -⟩ := C78_clip x
  obtain ⟨s, hs, -, h2, -⟩ := C78_clip y
  obtain ⟨-, r1, -, -, -⟩ := h1 hx
  obtain ⟨-, s1, -, -, -⟩ := h2 hy
  have lip : ∀ p q : ℚ, |clip1 p - clip1 q| ≤ |p - q| := by
    intro p q
    unfold clip1
    have e1 := abs_max_sub_max_le_max (-1) (min 1 p) (-1) (min 1 q)
    have e2 := abs_min_sub_min_le_max 1 p 1 q
    rw [sub_self, abs_zero] at e1 e2
    rw [max_eq_right (abs_nonneg (p - q))] at e2
    exact e1.trans (max_le (abs_nonneg _) e2)
  have inside : ∀ q : ℚ, -1 ≤ q → q ≤ 1 → clip1 q = q := by
    intro q a b
    unfold clip1
    rw [min_eq_right b, max_eq_right a]
  refine ⟨r, s, hr, hs, ?_, by rw [r1, s1]; exact lip _ _, fun q a b => ?_, fun q a b => ?_⟩
  · obtain ⟨r', hr', p1, p2, p3, p4⟩ := clamp_cases (x := x) litm1_nn lit1_nn litm1_le_lit1
    obtain ⟨n', hn', q1, q2, q3, q4⟩ := clamp_cases (x := -x) litm1_nn lit1_nn litm1_le_lit1
    have e : r' = r := by
      unfold digitalClip at hr; rw [hr'] at hr; exact Except.ok.inj hr
    subst e
    unfold digitalClip
    rw [hn']
    rw [litm1_val] at p2 p4 q2 q4
    rw [lit1_val] at p3 p4 q3 q4
    rw [val_neg'] at q2 q3 q4
    have hnx : (-x).isNaN = false := by rw [isNaN_neg']; exact hx
    congr 1
    rcases lt_or_ge x.val (-1) with c | c
    · rw [p2 hx c, q3 hnx (by linarith)]; decide +kernel
    · rcases lt_or_ge 1 x.val with d | d
      · rw [p3 hx d, q2 hnx (by linarith)]; decide +kernel
      · rw [p4 hx c d, q4 hnx (by linarith) (by linarith)]
  · rw [r1]
    unfold clip1
    rcases le_total x.val 1 with c | c
    · rw [min_eq_right c]
      rcases le_total (-1) x.val with d | d
      · rw [max_eq_right d, sub_self, abs_zero]; exact abs_nonneg _
      · rw [max_eq_left d, abs_of_nonneg (by linarith), abs_of_nonneg (by linarith)]; linarith
    · rw [min_eq_left c, max_eq_right (by norm_num), abs_of_nonpos (by linarith), abs_of_nonpos (by linarith)]; linarith
  · have := lip x.val q
    rw [inside q a b] at this
    rw [r1]; exact this

/-- An overdriven sample: 3 becomes 1, no further from 1/2 than it was. -/
example : ∃ r, digitalClip (lit 3) = .ok r ∧ digitalClip (-lit 3) = .ok (-r) ∧ |r.val - 1 / 2| ≤ |(lit 3 : F32).val - 1 / 2| := by
  obtain ⟨r, -, h, -, n, -, -, d⟩ := C189_clip (lit 3) (lit 0) (by decide +kernel) (by decide +kernel)
  exact ⟨r, h, n, d _ (by norm_num) (by norm_num)⟩

/-- C189: while both the position of a crossfade and its two signals move, its output moves no more than the signals do and
half the distance of the signals times the turn, plus rounding. -/
theorem C189_crossfade {a b x y x' y' : F32} (a0 : -1 ≤ a.val) (a1 : a.val ≤ 1) (b0 : -1 ≤ b.val) (b1 : b.val ≤ 1)
    (hx : x.isFin = true) (hy : y.isFin = true) (hx' : x'.isFin = true) (hy' : y'.isFin = true) {m d : ℚ}
    (mx : |x.val| ≤ m) (my : |y.val| ≤ m) (mx' : |x'.val| ≤ m) (my' : |y'.val| ≤ m) (hm : m ≤ 2 ^ 98)
    (dx : |x'.val - x.val| ≤ d) (dy : |y'.val - y.val| ≤ d) :
    |(crossfadeCorrelatedUnchecked b (x', y')).val - (crossfadeCorrelatedUnchecked a (x, y)).val| ≤
      d + |b.val - a.val| / 2 * |y.val - x.val| + m / 2 ^ 20 + 1 / 2 ^ 147 := by
  obtain ⟨-, u⟩ := C112_float a0 a1 hx hy mx my hm
  obtain ⟨-, v⟩ := C112_float b0 b1 hx' hy' mx' my' hm
  generalize (crossfadeCorrelatedUnchecked a (x, y)).val = p at *
  generalize (crossfadeCorrelatedUnchecked b (x', y')).val = q at *
  have k : |((1 - b.val) / 2 * x'.val + (1 + b.val) / 2 * y'.val) - ((1 - a.val) / 2 * x.val + (1 + a.val) / 2 * y.val)| ≤
      d + |b.val - a.val| / 2 * |y.val - x.val| := by
    rw [show ((1 - b.val) / 2 * x'.val + (1 + b.val) / 2 * y'.val) - ((1 - a.val) / 2 * x.val + (1 + a.val) / 2 * y.val) =
      ((1 - b.val) / 2 * (x'.val - x.val) + (1 + b.val) / 2 * (y'.val - y.val)) + (b.val - a.val) / 2 * (y.val - x.val) by ring]
    refine (abs_add_le _ _).trans (add_le_add ((abs_add_le _ _).trans ?_) ?_)
    · rw [abs_mul, abs_mul, abs_of_nonneg (by linarith : 0 ≤ (1 - b.val) / 2), abs_of_nonneg (by linarith : 0 ≤ (1 + b.val) / 2)]
      have t1 : (1 - b.val) / 2 * |x'.val - x.val| ≤ (1 - b.val) / 2 * d := mul_le_mul_of_nonneg_left dx (by linarith)
      have t2 : (1 + b.val) / 2 * |y'.val - y.val| ≤ (1 + b.val) / 2 * d := mul_le_mul_of_nonneg_left dy (by linarith)
      linarith
    · rw [abs_mul, abs_div, abs_two]
  have := abs_le.1 u
  have := abs_le.1 v
  have := abs_le.1 k
  rw [abs_le]
  norm_num at *
  constructor <;> linarith

/-- The left gain of a pan applied to a sample. -/
theorem gain_times {g x : F32} {p m : ℚ} (hg : g.isFin = true) (hp : |g.val - p| ≤ 1 / 2 ^ 22) (p0 : 0 ≤ p) (p1 : p ≤ 1) (hx : x.isFin = true)
    (hm : |x.val| ≤ m) (m1 : m ≤ 2 ^ 98) : |(x * g).val - p * x.val| ≤ m / 2 ^ 21 + 1 / 2 ^ 148 := by
  have m0 : 0 ≤ m := (abs_nonneg _).trans hm
  have g0 := abs_le.1 hp
  have gb : |g.val| ≤ 2 := by rw [abs_le]; constructor <;> norm_num at g0 ⊢ <;> linarith
  have xb : |x.val * g.val| ≤ m * 2 := by rw [abs_mul]; exact mul_le_mul hm gb (abs_nonneg _) m0
  rw [mul_fin hx hg]
  have hf : (rnd (x.neg != g.neg) (x.val * g.val)).isFin = true := rnd_fin_of_lt (lt_of_le_of_lt (xb.trans (mul_le_mul_of_nonneg_right m1 (by norm_num))) (by norm_num))
  have e1 := (rnd_error hf).trans (max_le_add_of_nonneg (by positivity) (by positivity))
  have e2 : |x.val * g.val - p * x.val| ≤ m * (1 / 2 ^ 22) := by
    rw [show x.val * g.val - p * x.val = x.val * (g.val - p) by ring, abs_mul]
    exact mul_le_mul hm hp (abs_nonneg _) m0
  have e3 := (abs_sub_le _ _ _).trans (add_le_add e1 e2)
  refine e3.trans ?_
  have : |x.val * g.val| / 2 ^ 24 ≤ m * 2 / 2 ^ 24 := div_le_div_of_nonneg_right xb (by positivity)
  have t : (1:ℚ) / 2 ^ 150 ≤ 1 / 2 ^ 148 := by norm_num
  have : m * 2 / 2 ^ 24 + m * (1 / 2 ^ 22) ≤ m / 2 ^ 21 := by norm_num; linarith
  linarith

/-- C189: the same for a mono pan: each side moves no more than the signal and half the turn times the signal. -/
theorem C189_pan {a b x y : F32} (a0 : -1 ≤ a.val) (a1 : a.val ≤ 1) (b0 : -1 ≤ b.val) (b1 : b.val ≤ 1) (hx : x.isFin = true) (hy : y.isFin = true)
    {m : ℚ} (mx : |x.val| ≤ m) (my : |y.val| ≤ m) (hm : m ≤ 2 ^ 98) :
    ∃ l r l' r', monoPan a x = .ok (l, r) ∧ monoPan b y = .ok (l', r') ∧
      |l'.val - l.val| ≤ |y.val - x.val| + |b.val - a.val| / 2 * |x.val| + m / 2 ^ 20 + 1 / 2 ^ 147 ∧
      |r'.val - r.val| ≤ |y.val - x.val| + |b.val - a.val| / 2 * |x.val| + m / 2 ^ 20 + 1 / 2 ^ 147 := by
  have fa : a.isFin = true := fin_of_val (by rw [abs_lt]; constructor <;> linarith [show (1:ℚ) < 2 ^ 128 by norm_num])
  have fb : b.isFin = true := fin_of_val (by rw [abs_lt]; constructor <;> linarith [show (1:ℚ) < 2 ^ 128 by norm_num])
  obtain ⟨⟨f1, -, -, d1⟩, ⟨f2, -, -, d2⟩⟩ := linear_gains fa a0 a1
  obtain ⟨⟨g1, -, -, e1⟩, ⟨g2, -, -, e2⟩⟩ := linear_gains fb b0 b1
  refine ⟨_, _, _, _, (C74_pan (fun z => z) a x (x, x)).2.2.1 (Or.inr ⟨a0, a1⟩), (C74_pan (fun z => z) b y (x, x)).2.2.1 (Or.inr ⟨b0, b1⟩), ?_, ?_⟩
  · have u := abs_le.1 (gain_times f1 d1 (by linarith) (by linarith) hx mx hm)
    have v := abs_le.1 (gain_times g1 e1 (by linarith) (by linarith) hy my hm)
    have k : |(1 - b.val) / 2 * y.val - (1 - a.val) / 2 * x.val| ≤ |y.val - x.val| + |b.val - a.val| / 2 * |x.val| := by
      rw [show (1 - b.val) / 2 * y.val - (1 - a.val) / 2 * x.val = (1 - b.val) / 2 * (y.val - x.val) + -((b.val - a.val) / 2 * x.val) by ring]
      refine (abs_add_le _ _).trans (add_le_add ?_ (by rw [abs_neg, abs_mul, abs_div, abs_two]))
      rw [abs_mul, abs_of_nonneg (by linarith : 0 ≤ (1 - b.val) / 2)]
      exact mul_le_of_le_one_left (abs_nonneg _) (by linarith)
    have k := abs_le.1 k
    generalize |y.val - x.val| + |b.val - a.val| / 2 * |x.val| = D at *
    rw [abs_le]; norm_num at *; constructor <;> linarith
  · have u := abs_le.1 (gain_times f2 d2 (by linarith) (by linarith) hx mx hm)
    have v := abs_le.1 (gain_times g2 e2 (by linarith) (by linarith) hy my hm)
    have k : |(1 + b.val) / 2 * y.val - (1 + a.val) / 2 * x.val| ≤ |y.val - x.val| + |b.val - a.val| / 2 * |x.val| := by
      rw [show (1 + b.val) / 2 * y.val - (1 + a.val) / 2 * x.val = (1 + b.val) / 2 * (y.val - x.val) + (b.val - a.val) / 2 * x.val by ring]
      refine (abs_add_le _ _).trans (add_le_add ?_ (by rw [abs_mul, abs_div, abs_two]))
      rw [abs_mul, abs_of_nonneg (by linarith : 0 ≤ (1 + b.val) / 2)]
      exact mul_le_of_le_one_left (abs_nonneg _) (by linarith)
    have k := abs_le.1 k
    generalize |y.val - x.val| + |b.val - a.val| / 2 * |x.val| = D at *
    rw [abs_le]; norm_num at *; constructor <;> linarith

/-- A sample of 1/2 panned from the centre to a quarter right. -/
example : ∃ l r l' r', monoPan (lit 0) (lit (1/2)) = .ok (l, r) ∧ monoPan (lit (1/4)) (lit (1/2)) = .ok (l', r') ∧
    |l'.val - l.val| ≤ 1 / 16 + 1 / 2 ^ 18 ∧ |r'.val - r.val| ≤ 1 / 16 + 1 / 2 ^ 18 := by
  obtain ⟨l, r, l', r', h1, h2, h3, h4⟩ := C189_pan (a := lit 0) (b := lit (1/4)) (x := lit (1/2)) (y := lit (1/2)) (m := 1) (by decide +kernel)
    (by decide +kernel) (by decide +kernel) (by decide +kernel) (by decide +kernel) (by decide +kernel) (by decide +kernel) (by decide +kernel) (by norm_num)
  have q : (lit (1/4) : F32).val = 1 / 4 := by decide +kernel
  rw [lithalf_val, lit0_val, q] at h3 h4
  refine ⟨l, r, l', r', h1, h2, h3.trans ?_, h4.trans ?_⟩ <;> norm_num

/-- C189, the equal-power gains with an exact square root: they move by at most the square root of half the turn. -/
theorem C189_power {a b : ℝ} (a0 : -1 ≤ a) (a1 : a ≤ 1) (b0 : -1 ≤ b) (b1 : b ≤ 1) :
    |(equalPowerPan Real.sqrt b).1 - (equalPowerPan Real.sqrt a).1| ≤ Real.sqrt (|b - a| / 2) ∧
    |(equalPowerPan Real.sqrt b).2 - (equalPowerPan Real.sqrt a).2| ≤ Real.sqrt (|b - a| / 2) := by
  have key : ∀ u v : ℝ, 0 ≤ u → 0 ≤ v → |Real.sqrt u - Real.sqrt v| ≤ Real.sqrt |u - v| := by
    intro u v hu hv
    have half : ∀ u v : ℝ, 0 ≤ u → u ≤ v → Real.sqrt v - Real.sqrt u ≤ Real.sqrt |v - u| := by
      intro u v hu huv
      rw [abs_of_nonneg (by linarith)]
      have h1 := Real.sq_sqrt hu
      have h2 := Real.sq_sqrt (hu.trans huv)
      have h3 := Real.sqrt_nonneg u
      have h4 := Real.sqrt_le_sqrt huv
      refine Real.le_sqrt_of_sq_le ?_
      nlinarith
    rcases le_total u v with h | h
    · rw [abs_of_nonpos (by linarith [Real.sqrt_le_sqrt h]), abs_sub_comm u v]
      linarith [half u v hu h]
    · rw [abs_of_nonneg (by linarith [Real.sqrt_le_sqrt h])]
      exact half v u hv h
  simp only [equalPowerPan, equalAmplitudePan, Lit.lit]
  push_cast
  constructor
  · refine (key _ _ (by linarith) (by linarith)).trans (le_of_eq ?_)
    congr 1
    rw [show (1 - b) * (1 / 2) - (1 - a) * (1 / 2) = -((b - a) / 2) by ring, abs_neg, abs_div, abs_two]
  · refine (key _ _ (by linarith) (by linarith)).trans (le_of_eq ?_)
    congr 1
    rw [show (1 + b) * (1 / 2) - (1 + a) * (1 / 2) = (b - a) / 2 by ring, abs_div, abs_two]

end Verif
