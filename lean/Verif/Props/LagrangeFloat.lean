import Verif.Lemmas.Near
import Verif.Props.Interpolation

/-! # C133: the four-point interpolation in float arithmetic -/

namespace Verif
open F32 Interpolation

/-- One factor of one term: times `x - a`, over `p`. -/
theorem kernel_step {t x l p : F32} {v k V T a : ℚ} (h : Near t v (k * V / 2 ^ 24 + T)) (hv : |v| ≤ V) (k0 : 0 ≤ k) (k1 : k ≤ 20)
    (V1 : V ≤ 2 ^ 70) (T0 : 0 ≤ T) (T1 : T ≤ 1) (hx : x.isFin = true) (x0 : 0 ≤ x.val) (x3 : x.val ≤ 3)
    (hl : l.isFin = true) (la : l.val = a) (a0 : 0 ≤ a) (a3 : a ≤ 3) (hp : p.isFin = true) (p1 : 1 ≤ |p.val|) :
    Near (t * (x - l) / p) (v * (x.val - a) / p.val) ((k + 301 / 100) * (3 * V) / 2 ^ 24 + (4 * T + 1 / 2 ^ 147)) ∧
    |v * (x.val - a) / p.val| ≤ 3 * V := by
  have V0 : 0 ≤ V := (abs_nonneg _).trans hv
  have dx : |x.val - a| ≤ 3 := by rw [abs_le]; constructor <;> linarith
  have hs := (Near.refl hx).sub (Near.refl hl) (B := 3) (by rw [la]; exact dx) (by norm_num)
  rw [la] at hs
  have w0 : 0 ≤ k * V := mul_nonneg k0 V0
  have w1 : k * V ≤ 20 * V := mul_le_mul_of_nonneg_right k1 V0
  have e1 : ((k + 301 / 100) * (3 * V) / 2 ^ 24 : ℚ) = (3 * (k * V) + 903 / 100 * V) / 2 ^ 24 := by ring
  rw [e1]
  obtain ⟨w, hw⟩ : ∃ w, w = k * V := ⟨_, rfl⟩
  rw [← hw] at h w0 w1 ⊢
  have hm := h.mul hs hv dx (by norm_num at V1 ⊢; linarith)
  have vm : |v * (x.val - a)| ≤ 3 * V := by
    rw [abs_mul]
    have := mul_le_mul hv dx (abs_nonneg _) V0
    linarith
  have hd := hm.divExact hp p1 vm (by norm_num at V1 ⊢; linarith)
  refine ⟨hd.mono ?_, ?_⟩
  · norm_num; linarith
  · rw [abs_div]; exact (div_le_self (abs_nonneg _) p1).trans vm

/-- One term: three factors over three divisors. -/
theorem kernel_term {y x l m n p q r : F32} {M a b d : ℚ} (hy : y.isFin = true) (hM : |y.val| ≤ M) (M1 : M ≤ 2 ^ 60)
    (hx : x.isFin = true) (x0 : 0 ≤ x.val) (x3 : x.val ≤ 3)
    (hl : l.isFin = true ∧ l.val = a ∧ 0 ≤ a ∧ a ≤ 3) (hm : m.isFin = true ∧ m.val = b ∧ 0 ≤ b ∧ b ≤ 3)
    (hn : n.isFin = true ∧ n.val = d ∧ 0 ≤ d ∧ d ≤ 3) (hp : p.isFin = true ∧ 1 ≤ |p.val|) (hq : q.isFin = true ∧ 1 ≤ |q.val|)
    (hr : r.isFin = true ∧ 1 ≤ |r.val|) :
    Near (y * (x - l) / p * (x - m) / q * (x - n) / r)
      (y.val * (x.val - a) / p.val * (x.val - b) / q.val * (x.val - d) / r.val) (244 * M / 2 ^ 24 + 1 / 2 ^ 142) := by
  have M0 : 0 ≤ M := (abs_nonneg _).trans hM
  have h0 : Near y y.val (0 * M / 2 ^ 24 + 0) := (Near.refl hy).mono (by norm_num)
  obtain ⟨h1, v1⟩ := kernel_step h0 hM le_rfl (by norm_num) (by norm_num at M1 ⊢; linarith) le_rfl (by norm_num) hx x0 x3 hl.1 hl.2.1 hl.2.2.1
    hl.2.2.2 hp.1 hp.2
  obtain ⟨h2, v2⟩ := kernel_step h1 v1 (by norm_num) (by norm_num) (by norm_num at M1 ⊢; linarith) (by norm_num) (by norm_num) hx x0 x3 hm.1 hm.2.1 hm.2.2.1
    hm.2.2.2 hq.1 hq.2
  obtain ⟨h3, v3⟩ := kernel_step h2 v2 (by norm_num) (by norm_num) (by norm_num at M1 ⊢; linarith) (by norm_num) (by norm_num) hx x0 x3 hn.1 hn.2.1 hn.2.2.1
    hn.2.2.2 hr.1 hr.2
  exact h3.mono (by norm_num; linarith)

/-- The value of the cubic through four samples, written out. -/
def cubicAt (y0 y1 y2 y3 x : ℚ) : ℚ :=
  y0 * (x - 1) / (-1) * (x - 2) / (-2) * (x - 3) / (-3) + y1 * (x - 0) / 1 * (x - 2) / (-1) * (x - 3) / (-2) +
    y2 * (x - 0) / 2 * (x - 1) / 1 * (x - 3) / (-1) + y3 * (x - 0) / 3 * (x - 1) / 2 * (x - 2) / 1

theorem cubicAt_eval (p : Polynomial ℚ) (hp : p.degree < 4) (x : ℚ) :
    cubicAt (p.eval 0) (p.eval 1) (p.eval 2) (p.eval 3) x = p.eval x := by
  rw [← C50_polynomial p 4 hp x, lagrangeSum_sum]
  have r4 : List.range 4 = [0, 1, 2, 3] := by decide
  rw [List.length_map, List.length_range, Finset.sum_range_succ, Finset.sum_range_succ, Finset.sum_range_succ, Finset.sum_range_one]
  simp only [lagrangeTerm, r4]
  simp [Lit.lit, cubicAt]
  ring

/-- Between the first and the last node the cubic exceeds the samples by less than two thirds, between the middle two by a
quarter at most. -/
theorem cubicAt_le {y0 y1 y2 y3 x M : ℚ} (h0 : |y0| ≤ M) (h1 : |y1| ≤ M) (h2 : |y2| ≤ M) (h3 : |y3| ≤ M) (x0 : 0 ≤ x)
    (x3 : x ≤ 3) :
    |cubicAt y0 y1 y2 y3 x| ≤ 41 / 25 * M ∧ (1 ≤ x → x ≤ 2 → |cubicAt y0 y1 y2 y3 x| ≤ 5 / 4 * M) := by
  have M0 : 0 ≤ M := (abs_nonneg _).trans h0
  obtain ⟨a, ha⟩ : ∃ a, a = (1 - x) * (2 - x) * (3 - x) / 6 := ⟨_, rfl⟩
  obtain ⟨b, hb⟩ : ∃ b, b = x * (2 - x) * (3 - x) / 2 := ⟨_, rfl⟩
  obtain ⟨d, hd⟩ : ∃ d, d = x * (x - 1) * (3 - x) / 2 := ⟨_, rfl⟩
  obtain ⟨e, he⟩ : ∃ e, e = x * (x - 1) * (x - 2) / 6 := ⟨_, rfl⟩
  have hc : cubicAt y0 y1 y2 y3 x = a * y0 + b * y1 + d * y2 + e * y3 := by
    rw [ha, hb, hd, he, cubicAt]; ring
  have hs : a + b + d + e = 1 := by rw [ha, hb, hd, he]; ring
  have key : |cubicAt y0 y1 y2 y3 x| ≤ (|a| + |b| + |d| + |e|) * M := by
    rw [hc]
    have t : ∀ u y : ℚ, |y| ≤ M → |u * y| ≤ |u| * M := fun u y h => by
      rw [abs_mul]; exact mul_le_mul_of_nonneg_left h (abs_nonneg _)
    have := abs_add_le (a * y0 + b * y1 + d * y2) (e * y3)
    have := abs_add_le (a * y0 + b * y1) (d * y2)
    have := abs_add_le (a * y0) (b * y1)
    linarith [t a y0 h0, t b y1 h1, t d y2 h2, t e y3 h3]
  have mid : 1 ≤ x → x ≤ 2 → |cubicAt y0 y1 y2 y3 x| ≤ 5 / 4 * M := by
    intro k1 k2
    have a0 : a ≤ 0 := by
      rw [ha]; have := mul_nonneg (mul_nonneg (sub_nonneg.2 k1) (sub_nonneg.2 k2)) (sub_nonneg.2 x3); linarith
    have b0 : 0 ≤ b := by rw [hb]; have := mul_nonneg (mul_nonneg x0 (sub_nonneg.2 k2)) (sub_nonneg.2 x3); linarith
    have d0 : 0 ≤ d := by rw [hd]; have := mul_nonneg (mul_nonneg x0 (sub_nonneg.2 k1)) (sub_nonneg.2 x3); linarith
    have e0 : e ≤ 0 := by rw [he]; have := mul_nonneg (mul_nonneg x0 (sub_nonneg.2 k1)) (sub_nonneg.2 k2); linarith
    rw [abs_of_nonpos a0, abs_of_nonneg b0, abs_of_nonneg d0, abs_of_nonpos e0] at key
    refine key.trans (mul_le_mul_of_nonneg_right ?_ M0)
    have : -a + b + d + -e = 1 + (x - 1) * (2 - x) := by rw [ha, hb, hd, he]; ring
    rw [this]
    nlinarith [sq_nonneg (x - 3 / 2)]
  refine ⟨?_, mid⟩
  rcases le_total x 1 with k1 | k1
  · have l2 : 0 ≤ 2 - x := by linarith
    have a0 : 0 ≤ a := by rw [ha]; have := mul_nonneg (mul_nonneg (sub_nonneg.2 k1) l2) (sub_nonneg.2 x3); linarith
    have b0 : 0 ≤ b := by rw [hb]; have := mul_nonneg (mul_nonneg x0 l2) (sub_nonneg.2 x3); linarith
    have d0 : d ≤ 0 := by rw [hd]; have := mul_nonneg (mul_nonneg x0 (sub_nonneg.2 k1)) (sub_nonneg.2 x3); linarith
    have e0 : 0 ≤ e := by rw [he]; have := mul_nonneg (mul_nonneg x0 (sub_nonneg.2 k1)) l2; linarith
    rw [abs_of_nonneg a0, abs_of_nonneg b0, abs_of_nonpos d0, abs_of_nonneg e0] at key
    refine key.trans (mul_le_mul_of_nonneg_right ?_ M0)
    have : a + b + -d + e = 1 + x * (1 - x) * (3 - x) := by rw [ha, hb, hd, he]; ring
    rw [this]
    nlinarith [mul_nonneg x0 (sq_nonneg (x - 9 / 20)), sq_nonneg (x - 9 / 20)]
  · rcases le_total x 2 with k2 | k2
    · exact (mid k1 k2).trans (by linarith)
    · have a0 : 0 ≤ a := by
        rw [ha]; have := mul_nonneg (mul_nonneg (sub_nonneg.2 k1) (sub_nonneg.2 k2)) (sub_nonneg.2 x3); linarith
      have b0 : b ≤ 0 := by rw [hb]; have := mul_nonneg (mul_nonneg x0 (sub_nonneg.2 k2)) (sub_nonneg.2 x3); linarith
      have d0 : 0 ≤ d := by rw [hd]; have := mul_nonneg (mul_nonneg x0 (sub_nonneg.2 k1)) (sub_nonneg.2 x3); linarith
      have e0 : 0 ≤ e := by rw [he]; have := mul_nonneg (mul_nonneg x0 (sub_nonneg.2 k1)) (sub_nonneg.2 k2); linarith
      rw [abs_of_nonneg a0, abs_of_nonpos b0, abs_of_nonneg d0, abs_of_nonneg e0] at key
      refine key.trans (mul_le_mul_of_nonneg_right ?_ M0)
      have : a + -b + d + e = 1 + x * (x - 2) * (3 - x) := by rw [ha, hb, hd, he]; ring
      rw [this]
      have z0 : 0 ≤ 3 - x := by linarith
      nlinarith [mul_nonneg z0 (sq_nonneg (3 - x - 9 / 20)), sq_nonneg (3 - x - 9 / 20)]

theorem lit_exact3 : (lit 3 : F32).isFin = true ∧ (lit 3 : F32).val = 3 := by decide +kernel
theorem lit_exactm1 : (lit (-1) : F32).isFin = true ∧ (lit (-1) : F32).val = -1 := by decide +kernel
theorem lit_exactm2 : (lit (-2) : F32).isFin = true ∧ (lit (-2) : F32).val = -2 := by decide +kernel
theorem lit_exactm3 : (lit (-3) : F32).isFin = true ∧ (lit (-3) : F32).val = -3 := by decide +kernel

/-- The float kernel against the cubic. -/
theorem lagrange4_near {y0 y1 y2 y3 x : F32} {M : ℚ} (f0 : y0.isFin = true) (f1 : y1.isFin = true) (f2 : y2.isFin = true)
    (f3 : y3.isFin = true) (h0 : |y0.val| ≤ M) (h1 : |y1.val| ≤ M) (h2 : |y2.val| ≤ M) (h3 : |y3.val| ≤ M) (M1 : M ≤ 2 ^ 60)
    (hx : x.isFin = true) (x0 : 0 ≤ x.val) (x3 : x.val ≤ 3) :
    Near (lagrange4 y0 y1 y2 y3 x) (cubicAt y0.val y1.val y2.val y3.val x.val) (M / 2 ^ 13 + 1 / 2 ^ 139) := by
  have M0 : 0 ≤ M := (abs_nonneg _).trans h0
  have q0 : (lit 0 : F32).isFin = true ∧ (lit 0 : F32).val = 0 ∧ (0 : ℚ) ≤ 0 ∧ (0 : ℚ) ≤ 3 := ⟨lit0_fin, lit0_val, le_rfl, by norm_num⟩
  have q1 : (lit 1 : F32).isFin = true ∧ (lit 1 : F32).val = 1 ∧ (0 : ℚ) ≤ 1 ∧ (1 : ℚ) ≤ 3 := ⟨lit1_fin, lit1_val, by norm_num, by norm_num⟩
  have q2 : (lit 2 : F32).isFin = true ∧ (lit 2 : F32).val = 2 ∧ (0 : ℚ) ≤ 2 ∧ (2 : ℚ) ≤ 3 := ⟨lit2_fin, lit2_val, by norm_num, by norm_num⟩
  have q3 : (lit 3 : F32).isFin = true ∧ (lit 3 : F32).val = 3 ∧ (0 : ℚ) ≤ 3 ∧ (3 : ℚ) ≤ 3 := ⟨lit_exact3.1, lit_exact3.2, by norm_num, le_rfl⟩
  have r1 : (lit 1 : F32).isFin = true ∧ 1 ≤ |(lit 1 : F32).val| := ⟨lit1_fin, by rw [lit1_val]; norm_num⟩
  have r2 : (lit 2 : F32).isFin = true ∧ 1 ≤ |(lit 2 : F32).val| := ⟨lit2_fin, by rw [lit2_val]; norm_num⟩
  have r3 : (lit 3 : F32).isFin = true ∧ 1 ≤ |(lit 3 : F32).val| := ⟨lit_exact3.1, by rw [lit_exact3.2]; norm_num⟩
  have s1 : (lit (-1) : F32).isFin = true ∧ 1 ≤ |(lit (-1) : F32).val| := ⟨lit_exactm1.1, by rw [lit_exactm1.2]; norm_num⟩
  have s2 : (lit (-2) : F32).isFin = true ∧ 1 ≤ |(lit (-2) : F32).val| := ⟨lit_exactm2.1, by rw [lit_exactm2.2]; norm_num⟩
  have s3 : (lit (-3) : F32).isFin = true ∧ 1 ≤ |(lit (-3) : F32).val| := ⟨lit_exactm3.1, by rw [lit_exactm3.2]; norm_num⟩
  have bound : ∀ y a b d p q r : ℚ, |y| ≤ M → (0 ≤ a ∧ a ≤ 3) → (0 ≤ b ∧ b ≤ 3) → (0 ≤ d ∧ d ≤ 3) → 1 ≤ |p| → 1 ≤ |q| → 1 ≤ |r| →
      |y * (x.val - a) / p * (x.val - b) / q * (x.val - d) / r| ≤ 27 * M := by
    intro y a b d p q r hy ha hb hd hp hq hr
    have st : ∀ V t a p : ℚ, |t| ≤ V → (0 ≤ a ∧ a ≤ 3) → 1 ≤ |p| → |t * (x.val - a) / p| ≤ 3 * V := by
      intro V t a p ht ha hp
      have dx : |x.val - a| ≤ 3 := by rw [abs_le]; constructor <;> linarith [ha.1, ha.2]
      rw [abs_div, abs_mul]
      refine (div_le_self (by positivity) hp).trans ?_
      have := mul_le_mul ht dx (abs_nonneg _) ((abs_nonneg _).trans ht)
      linarith
    have := st _ _ d r (st _ _ b q (st _ _ a p hy ha hp) hb hq) hd hr
    linarith
  have t0 := kernel_term f0 h0 M1 hx x0 x3 q1 q2 q3 s1 s2 s3
  have t1 := kernel_term f1 h1 M1 hx x0 x3 q0 q2 q3 r1 s1 s2
  have t2 := kernel_term f2 h2 M1 hx x0 x3 q0 q1 q3 r2 r1 s1
  have t3 := kernel_term f3 h3 M1 hx x0 x3 q0 q1 q2 r3 r2 r1
  have b0 := bound _ 1 2 3 _ _ _ h0 q1.2.2 q2.2.2 q3.2.2 s1.2 s2.2 s3.2
  have b1 := bound _ 0 2 3 _ _ _ h1 q0.2.2 q2.2.2 q3.2.2 r1.2 s1.2 s2.2
  have b2 := bound _ 0 1 3 _ _ _ h2 q0.2.2 q1.2.2 q3.2.2 r2.2 r1.2 s1.2
  have b3 := bound _ 0 1 2 _ _ _ h3 q0.2.2 q1.2.2 q2.2.2 r3.2 r2.2 r1.2
  rw [lit_exactm1.2, lit_exactm2.2, lit_exactm3.2] at t0 b0
  rw [lit1_val, lit_exactm1.2, lit_exactm2.2] at t1 b1
  rw [lit1_val, lit2_val, lit_exactm1.2] at t2 b2
  rw [lit1_val, lit2_val, lit_exact3.2] at t3 b3
  have z : Near (lit 0 : F32) 0 0 := by have := Near.refl (x := (lit 0 : F32)) lit0_fin; rwa [lit0_val] at this
  norm_num only at M1
  have g0 := z.add t0 (B := 27 * M) (by rw [zero_add]; exact b0) (by norm_num; linarith)
  have g1 := g0.add t1 (B := 54 * M) ((abs_add_le _ _).trans (by rw [zero_add]; linarith)) (by norm_num; linarith)
  have g2 := g1.add t2 (B := 81 * M) ((abs_add_le _ _).trans (by
    have := abs_add_le (y0.val * (x.val - 1) / (-1) * (x.val - 2) / (-2) * (x.val - 3) / (-3)) (y1.val * (x.val - 0) / 1 * (x.val - 2) / (-1) * (x.val - 3) / (-2))
    rw [zero_add]; linarith)) (by norm_num; linarith)
  have g3 := g2.add t3 (B := 108 * M) ((abs_add_le _ _).trans (by
    have := abs_add_le (y0.val * (x.val - 1) / (-1) * (x.val - 2) / (-2) * (x.val - 3) / (-3)) (y1.val * (x.val - 0) / 1 * (x.val - 2) / (-1) * (x.val - 3) / (-2))
    have := abs_add_le (y0.val * (x.val - 1) / (-1) * (x.val - 2) / (-2) * (x.val - 3) / (-3) + y1.val * (x.val - 0) / 1 * (x.val - 2) / (-1) * (x.val - 3) / (-2))
      (y2.val * (x.val - 0) / 2 * (x.val - 1) / 1 * (x.val - 3) / (-1))
    rw [zero_add]; linarith)) (by norm_num; linarith)
  rw [zero_add] at g3
  exact g3.mono (by norm_num; linarith)

/-- C133: on finite samples of size at most `M`, and for a position between the first node and the last, the interpolation
gives a finite float within `M / 2^13` of the cubic through the samples. -/
theorem C133_accuracy (c : Cfg) {y0 y1 y2 y3 x : F32} {M : ℚ} (f0 : y0.isFin = true) (f1 : y1.isFin = true) (f2 : y2.isFin = true)
    (f3 : y3.isFin = true) (h0 : |y0.val| ≤ M) (h1 : |y1.val| ≤ M) (h2 : |y2.val| ≤ M) (h3 : |y3.val| ≤ M) (M1 : M ≤ 2 ^ 60)
    (hx : x.isFin = true) (x0 : 0 ≤ x.val) (x3 : x.val ≤ 3) {p : Polynomial ℚ} (hp : p.degree < 4) (p0 : p.eval 0 = y0.val)
    (p1 : p.eval 1 = y1.val) (p2 : p.eval 2 = y2.val) (p3 : p.eval 3 = y3.val) :
    ∃ r : F32, lagrange c [y0, y1, y2, y3] x = .ok r ∧ lagrange4 y0 y1 y2 y3 x = r ∧ r.isFin = true ∧
      |r.val - p.eval x.val| ≤ M / 2 ^ 13 + 1 / 2 ^ 139 := by
  have h := lagrange4_near f0 f1 f2 f3 h0 h1 h2 h3 M1 hx x0 x3
  rw [← p0, ← p1, ← p2, ← p3, cubicAt_eval p hp] at h
  exact ⟨_, C52_four c _ _ _ _ _ (isFin.not_nan hx) x3, rfl, h.1, h.2⟩

/-- C133: such an interpolation stays within 1.65 times the samples, and within 1.26 times between the middle two. -/
theorem C133_overshoot (c : Cfg) {y0 y1 y2 y3 x : F32} {M : ℚ} (f0 : y0.isFin = true) (f1 : y1.isFin = true) (f2 : y2.isFin = true)
    (f3 : y3.isFin = true) (h0 : |y0.val| ≤ M) (h1 : |y1.val| ≤ M) (h2 : |y2.val| ≤ M) (h3 : |y3.val| ≤ M) (M1 : M ≤ 2 ^ 60)
    (hx : x.isFin = true) (x0 : 0 ≤ x.val) (x3 : x.val ≤ 3) :
    ∃ r : F32, lagrange c [y0, y1, y2, y3] x = .ok r ∧ r.isFin = true ∧ |r.val| ≤ 165 / 100 * M + 1 / 2 ^ 139 ∧
      (1 ≤ x.val → x.val ≤ 2 → |r.val| ≤ 126 / 100 * M + 1 / 2 ^ 139) := by
  have h := lagrange4_near f0 f1 f2 f3 h0 h1 h2 h3 M1 hx x0 x3
  have M0 : 0 ≤ M := (abs_nonneg _).trans h0
  obtain ⟨k1, k2⟩ := cubicAt_le h0 h1 h2 h3 x0 x3
  refine ⟨_, C52_four c _ _ _ _ _ (isFin.not_nan hx) x3, h.1, h.abs_le.trans ?_, fun a b => h.abs_le.trans ?_⟩
  · norm_num; linarith
  · have := k2 a b; norm_num; linarith

/-- The overshoot is real: four full scale samples and a value above 1.63 between the first two. -/
example : (lit (9/20) : F32).isFin = true ∧ 0 ≤ (lit (9/20) : F32).val ∧ (lit (9/20) : F32).val ≤ 1 ∧ |(lit (-1) : F32).val| ≤ 1 ∧
    163 / 100 < (lagrange4 (lit 1) (lit 1) (lit (-1)) (lit 1) (lit (9/20)) : F32).val ∧
    12499 / 10000 < (lagrange4 (lit (-1)) (lit 1) (lit 1) (lit (-1)) (lit (3/2)) : F32).val := by decide +kernel

/-- A cubic through four samples: the squares. -/
example : (Polynomial.X ^ 2 : Polynomial ℚ).degree < 4 ∧ (Polynomial.X ^ 2 : Polynomial ℚ).eval 3 = (lit 9 : F32).val := by
  constructor
  · rw [Polynomial.degree_X_pow]; norm_num
  · rw [show (lit 9 : F32).val = 9 by decide +kernel]; norm_num

end Verif
