import Verif.Props.BiquadStable

/-! # C156: every design, run in floats -/

namespace Verif

open F32 Butterworth

/-- Rounded coefficients this close to a design's keep a margin from the unit circle. -/
theorem circle_near {co : BiquadCoeffs F32} {K2 KQ : ℚ} (p2 : 0 < K2) (pq : 0 < KQ)
    (h1 : Near co.a1 (2 * (K2 - 1) / (1 + KQ + K2)) (14 / 2 ^ 24)) (h2 : Near co.a2 ((1 - KQ + K2) / (1 + KQ + K2)) (7 / 2 ^ 24))
    {b : ℚ} (b1 : (1 + KQ + K2) / 241 ≤ b) (c1 : b ^ 2 ≤ 4 * K2) (c2 : b ≤ KQ) :
    ∃ p q, Poles co.a1.val co.a2.val p q ∧ 1 / 2 ^ 16 ≤ circleMargin p q := by
  have a0 : 0 < 1 + KQ + K2 := by linarith
  obtain ⟨h1a, h1b⟩ := abs_le.1 h1.2
  obtain ⟨h2a, h2b⟩ := abs_le.1 h2.2
  have e1 : 1 + 2 * (K2 - 1) / (1 + KQ + K2) + (1 - KQ + K2) / (1 + KQ + K2) = 4 * (K2 / (1 + KQ + K2)) := by field_simp; ring
  have e2 : 1 - 2 * (K2 - 1) / (1 + KQ + K2) + (1 - KQ + K2) / (1 + KQ + K2) = 4 * (1 / (1 + KQ + K2)) := by field_simp; ring
  have e3 : (1 - KQ + K2) / (1 + KQ + K2) = 1 - 2 * (KQ / (1 + KQ + K2)) := by field_simp; ring
  obtain ⟨u, hu⟩ : ∃ u, u = K2 / (1 + KQ + K2) := ⟨_, rfl⟩
  obtain ⟨v, hv⟩ : ∃ v, v = 1 / (1 + KQ + K2) := ⟨_, rfl⟩
  obtain ⟨w, hw⟩ : ∃ w, w = KQ / (1 + KQ + K2) := ⟨_, rfl⟩
  have b0 : 0 < b := lt_of_lt_of_le (by positivity) b1
  have u0 : 0 < u := by rw [hu]; positivity
  have v0 : 0 < v := by rw [hv]; positivity
  have uvw : u + v + w = 1 := by rw [hu, hv, hw]; field_simp; ring
  have w1 : 1 / 241 ≤ w := by
    rw [hw, div_le_div_iff₀ (by norm_num) a0]; rw [div_le_iff₀ (by norm_num)] at b1; linarith
  have uv : (1 / 241) ^ 2 ≤ 4 * (u * v) := by
    have : u * v = K2 / (1 + KQ + K2) ^ 2 := by rw [hu, hv]; field_simp
    rw [this, ← mul_div_assoc, le_div_iff₀ (by positivity)]
    have k : ((1 + KQ + K2) / 241) ^ 2 ≤ b ^ 2 := pow_le_pow_left₀ (by positivity) b1 2
    rw [div_pow] at k
    rw [div_pow]
    linarith
  rw [← hu] at e1
  rw [← hv] at e2
  rw [← hw] at e3
  norm_num at uv
  have u1 : 1 / 250000 ≤ u := by nlinarith
  have v1 : 1 / 250000 ≤ v := by nlinarith
  rw [e3] at h2a h2b
  have f1 : 4 * u - 21 / 16777216 ≤ 1 + co.a1.val + co.a2.val := by norm_num at h1a h2a ⊢; linarith
  have f2 : 4 * v - 21 / 16777216 ≤ 1 - co.a1.val + co.a2.val := by norm_num at h1b h2a ⊢; linarith
  have f3 : co.a2.val ≤ 1 - 2 * w + 7 / 16777216 := by norm_num at h2b ⊢; linarith
  have g1 : 0 < 4 * u - 21 / 16777216 := by linarith
  have g2 : 0 < 4 * v - 21 / 16777216 := by linarith
  have m1 : 1 / 65536 ≤ (1 + co.a1.val + co.a2.val) * (1 - co.a1.val + co.a2.val) / 4 := by
    have := mul_le_mul f1 f2 g2.le (g1.le.trans f1)
    nlinarith
  have m2 : 1 / 65536 ≤ (1 - co.a2.val) ^ 2 / 4 := by
    have : (2 * w - 7 / 16777216) ^ 2 ≤ (1 - co.a2.val) ^ 2 := pow_le_pow_left₀ (by linarith) (by linarith) 2
    nlinarith
  rw [show (1:ℝ) / 2 ^ 16 = ((1 / 65536 : ℚ) : ℝ) by norm_num]
  refine poles_exist ?_ ?_ ?_ ?_ ?_
  · exact_mod_cast (g1.trans_le f1)
  · exact_mod_cast (g2.trans_le f2)
  · exact_mod_cast (by linarith : co.a2.val < 1)
  · exact_mod_cast m1
  · exact_mod_cast m2

/-- Finite coefficients of at most 256 in the feed-forward path and poles that keep one of the two margins. -/
structure Safe (co : BiquadCoeffs F32) : Prop where
  fin : co.Fin
  b0 : |co.b0.val| ≤ 256
  b1 : |co.b1.val| ≤ 256
  b2 : |co.b2.val| ≤ 256
  margin : (∃ p q, Poles co.a1.val co.a2.val p q ∧ 1 / 2 ^ 16 ≤ circleMargin p q) ∨ 1 / 2 ^ 17 ≤ co.margin

theorem Safe.bounded {co : BiquadCoeffs F32} (h : Safe co) {x : ℕ → F32} {m : ℚ} (m0 : 1 / 2 ^ 120 ≤ m) (m1 : m ≤ 2 ^ 52)
    (hx : ∀ n, (x n).isFin = true ∧ |(x n).val| ≤ m) (n : ℕ) :
    ((Biquad.new co).outAt x n).isFin = true ∧ |((Biquad.new co).outAt x n).val| ≤ 2 ^ 29 * m := by
  have hG : ∀ {b y : ℚ}, |b| ≤ 256 → |y| ≤ m → |b * y| ≤ 256 * m := by
    intro b y hb hy
    rw [abs_mul]; exact mul_le_mul hb hy (abs_nonneg _) (by norm_num)
  have G0 : 1 / 2 ^ 120 ≤ 256 * m := by norm_num at m0 ⊢; linarith
  have G1 : 256 * m ≤ 2 ^ 60 := by norm_num at m1 ⊢; linarith
  have hb : ∀ n, co.FeedsAtMost (x n) (256 * m) := fun n => ⟨hG h.b0 (hx n).2, hG h.b1 (hx n).2, hG h.b2 (hx n).2⟩
  have mp : (0:ℝ) < m := by exact_mod_cast lt_of_lt_of_le (by norm_num) m0
  obtain ⟨p, q, hP, hM⟩ | hM := h.margin
  · obtain ⟨r1, r2⟩ := C155_bounded h.fin hP hM (fun n => (hx n).1) G0 G1 hb n
    refine ⟨r1, ?_⟩
    have hM0 : 0 < circleMargin p q := hP.facts.2.2.1
    have : (((256 * m : ℚ)) : ℝ) / circleMargin p q ≤ 2 ^ 16 * (256 * m) := by
      push_cast
      rw [div_le_iff₀ hM0]
      nlinarith
    have r3 : |(((Biquad.new co).outAt x n).val : ℝ)| ≤ 2 ^ 29 * m := by norm_num at this r2 ⊢; linarith
    exact_mod_cast r3
  · obtain ⟨r1, r2⟩ := C114_bounded h.fin hM (fun n => (hx n).1) G0 G1 hb n
    refine ⟨r1, ?_⟩
    have hM0 : 0 < co.margin := lt_of_lt_of_le (by norm_num) hM
    have : (((256 * m : ℚ)) : ℝ) / co.margin ≤ 2 ^ 17 * (256 * m) := by
      push_cast
      rw [div_le_iff₀ hM0]
      nlinarith
    have r3 : |(((Biquad.new co).outAt x n).val : ℝ)| ≤ 2 ^ 29 * m := by norm_num at this r2 ⊢; linarith
    exact_mod_cast r3

/-! ## Sizes of the feed-forward coefficients -/

/-- Finite and at most `B` in size. -/
def Bd (x : F32) (B : ℚ) : Prop := x.isFin = true ∧ |x.val| ≤ B

namespace Bd
variable {x y : F32} {A B C : ℚ}

theorem mono (h : Bd x A) (h' : A ≤ B) : Bd x B := ⟨h.1, h.2.trans h'⟩

theorem of_near (h : (x.isFin = true ∧ |x.val - A| ≤ 1 / 2 ^ 150 + C / 2 ^ 24)) (hA : |A| ≤ C) (h1 : 1 ≤ C) : Bd x (101 / 100 * C) := by
  refine ⟨h.1, ?_⟩
  have := abs_sub_abs_le_abs_sub x.val A
  have := h.2
  norm_num at *
  linarith

theorem add (hx : Bd x A) (hy : Bd y B) (h1 : 1 ≤ A) (h : A + B ≤ 2 ^ 60) : Bd (x + y) (101 / 100 * (A + B)) := by
  have hA := (abs_nonneg _).trans hy.2
  have k := (abs_add_le x.val y.val).trans (add_le_add hx.2 hy.2)
  exact of_near (add_near hx.1 hy.1 k (h.trans (by norm_num))) k (by linarith)

theorem sub (hx : Bd x A) (hy : Bd y B) (h1 : 1 ≤ A + B) (h : A + B ≤ 2 ^ 60) : Bd (x - y) (101 / 100 * (A + B)) := by
  have k := (abs_sub x.val y.val).trans (add_le_add hx.2 hy.2)
  refine of_near ?_ k h1
  rw [sub_fin hx.1 hy.1]
  exact rnd_near k (h.trans (by norm_num))

theorem mul (hx : Bd x A) (hy : Bd y B) (hC : A * B ≤ C) (h1 : 1 ≤ C) (h : C ≤ 2 ^ 60) : Bd (x * y) (101 / 100 * C) := by
  have k : |x.val * y.val| ≤ C := by
    rw [abs_mul]; exact (mul_le_mul hx.2 hy.2 (abs_nonneg _) ((abs_nonneg _).trans hx.2)).trans hC
  exact of_near (mul_near hx.1 hy.1 k (h.trans (by norm_num))) k h1

end Bd

theorem bd1 : Bd (lit 1 : F32) 1 := ⟨lit1_fin, by rw [lit1_val]; norm_num⟩
theorem bd2 : Bd (lit 2 : F32) 2 := ⟨lit2_fin, by rw [lit2_val]; norm_num⟩

/-- A feed-forward coefficient `norm * y`. -/
theorem bd_norm {N y : F32} {a B : ℚ} (nn : Near N (1 / a) (33 / 10 / 2 ^ 24 * (1 / a))) (a1 : 1 ≤ a) (hy : Bd y (B * a)) (B1 : 1 ≤ B)
    (B2 : B ≤ 240) : Bd (N * y) 256 := by
  have a0 : 0 < a := by linarith
  have i0 : 0 < 1 / a := by positivity
  have hN : Bd N (101 / 100 * (1 / a)) := ⟨nn.1, nn.abs_le.trans (by
    rw [abs_of_pos i0]
    linarith [mul_le_mul_of_nonneg_right (show (33:ℚ) / 10 / 2 ^ 24 ≤ 1 / 100 by norm_num) i0.le])⟩
  have e : 101 / 100 * (1 / a) * (B * a) = 101 / 100 * B := by field_simp
  exact (hN.mul hy e.le (by linarith) (by norm_num; linarith)).mono (by linarith)

/-- The numerators `1 + x + y`, `1 - x + y` and `2 (y - 1)` times `norm`. -/
theorem bd_nums {N x y : F32} {a X Y : ℚ} (nn : Near N (1 / a) (33 / 10 / 2 ^ 24 * (1 / a))) (a1 : 1 ≤ a) (aB : a ≤ 100)
    (hx : Bd x (X * a)) (hy : Bd y (Y * a)) (X0 : 0 ≤ X) (Y0 : 0 ≤ Y) (XY : X + 2 * Y ≤ 220) :
    Bd (N * (lit 1 + x + y)) 256 ∧ Bd (N * (lit 1 - x + y)) 256 ∧ (Bd (N * (lit 2 * (y - lit 1))) 256) := by
  have a0 : 0 ≤ a := by linarith
  have Xa := mul_nonneg X0 a0
  have Ya := mul_nonneg Y0 a0
  have XYa : X * a + 2 * (Y * a) ≤ 220 * a := by
    have := mul_le_mul_of_nonneg_right XY a0
    linarith
  have d1 : Bd (lit 1 : F32) a := bd1.mono a1
  have e2 := d1.add hx a1 (by norm_num; linarith)
  have e3 := d1.sub hx (by linarith) (by norm_num; linarith)
  have e4 := hy.sub d1 (by linarith) (by norm_num; linarith)
  have e5 := bd2.mul e4 (C := 2 * (101 / 100 * (Y * a + a))) le_rfl (by linarith) (by norm_num; linarith)
  refine ⟨bd_norm nn a1 (B := 240) ((e2.add hy (by linarith) (by norm_num; linarith)).mono (by linarith)) (by norm_num) (by norm_num),
    bd_norm nn a1 (B := 240) ((e3.add hy (by linarith) (by norm_num; linarith)).mono (by linarith)) (by norm_num) (by norm_num),
    bd_norm nn a1 (B := 240) (e5.mono (by linarith)) (by norm_num) (by norm_num)⟩

theorem val_nonneg_of_pos {x : F32} (h : x.neg = false) : 0 ≤ x.val := by rw [val_of_pos h]; exact magVal_nonneg _

/-- A product of numbers without a sign has none. -/
theorem mul_pos_bit {x y : F32} (hx : x.isFin = true) (hy : y.isFin = true) (nx : x.neg = false) (ny : y.neg = false) :
    (x * y).neg = false := by
  rw [mul_fin hx hy, nx, ny]
  rcases (mul_nonneg (val_nonneg_of_pos nx) (val_nonneg_of_pos ny)).eq_or_lt with h | h
  · rw [← h, rnd_zero, neg_pack]; rfl
  · exact rnd_neg_of_nonneg h

/-- The gain of a boost. -/
def BoostGain (gain : F32) : Prop := gain.isFin = true ∧ gain.neg = false ∧ gain.val ≤ 64

set_option maxHeartbeats 1000000 in
/-- The six designs without a gain in the denominator, with q from 1/16 to 2. -/
theorem safe_boost {powi : F32 → ℕ → F32} (hp : PowiNear powi) {sqrt : F32 → F32} (hs : SqrtWithin (1 / 4) sqrt) {fc q gain sr : F32}
    (s0 : 1 ≤ sr.val) (s1 : sr.val ≤ 2 ^ 30) (r0 : 1 / 600 ≤ fc.val / sr.val) (r1 : fc.val / sr.val ≤ 318 / 1000)
    (q0 : 1 / 16 ≤ q.val) (q1 : q.val ≤ 2) (hg : BoostGain gain) {co : BiquadCoeffs F32}
    (hco : co ∈ [lowpass powi fc q sr, highpass powi fc q sr, allpass powi fc q sr, notch powi fc q sr, bellBoost powi fc q gain sr,
      lowShelfBoost powi sqrt fc q gain sr]) : Safe co := by
  obtain ⟨k0, k1⟩ := warpF_range hp s0 s1 (by norm_num) r0 r1
  obtain ⟨f1, f2, l1, u1, l2, u2⟩ := setup_near (k := warpF powi fc sr) (le_trans (by norm_num) k0) (k1.trans (by norm_num))
    q0 (show q.val ≤ 64 by linarith)
  have K0 : 1 / 195 ≤ (warpF powi fc sr).val := le_trans (by norm_num) k0
  simp only [lowpass, highpass, allpass, notch, bellBoost, lowShelfBoost, setupCoeffs, List.mem_cons, List.not_mem_nil, or_false] at hco
  change co = lowpassOf (warpF powi fc sr * warpF powi fc sr) (warpF powi fc sr / q) ∨
    co = highpassOf (warpF powi fc sr * warpF powi fc sr) (warpF powi fc sr / q) ∨
    co = allpassOf (warpF powi fc sr * warpF powi fc sr) (warpF powi fc sr / q) ∨
    co = notchOf (warpF powi fc sr * warpF powi fc sr) (warpF powi fc sr / q) ∨
    co = bellBoostOf gain (warpF powi fc sr * warpF powi fc sr) (warpF powi fc sr / q) ∨
    co = lowShelfBoostOf sqrt gain (warpF powi fc sr * warpF powi fc sr) (warpF powi fc sr / q) at hco
  generalize warpF powi fc sr = k at *
  have kp : 0 < k.val := by linarith
  have qp : 0 < q.val := by linarith
  have kk : k.val ^ 2 ≤ 17 / 10 * k.val := by nlinarith
  have k2p : 0 < k.val ^ 2 := by positivity
  have b3 : k.val / q.val ≤ 16 * k.val := by rw [div_le_iff₀ qp]; nlinarith
  have b4 : 0 < k.val / q.val := div_pos kp qp
  have marg : ∀ c : BiquadCoeffs F32, Near c.a1 (2 * ((k * k).val - 1) / (1 + (k / q).val + (k * k).val)) (14 / 2 ^ 24) →
      Near c.a2 ((1 - (k / q).val + (k * k).val) / (1 + (k / q).val + (k * k).val)) (7 / 2 ^ 24) →
      (∃ p q, Poles c.a1.val c.a2.val p q ∧ 1 / 2 ^ 16 ≤ circleMargin p q) ∨ 1 / 2 ^ 17 ≤ c.margin := by
    intro c g1 g2
    rcases le_total q.val 1 with hq | hq
    · left
      have b5 : k.val ≤ k.val / q.val := by rw [le_div_iff₀ qp]; nlinarith
      exact circle_near (by linarith) (by linarith) g1 g2 (b := 99 / 100 * k.val) (by linarith) (by nlinarith) (by linarith)
    · right
      exact design_margin K0 k1 (by linarith) q1 l1 u1 l2 u2 g1 g2
  have kd : k.val ≤ 1 + (k * k).val := by nlinarith
  generalize k * k = k2 at *
  generalize k / q = kq at *
  have p2 : 0 < k2.val := by linarith
  have pq : 0 < kq.val := by linarith
  obtain ⟨nn, n1, n1', n2⟩ := design_near f1 f2 p2.le pq.le (by norm_num; linarith)
  obtain ⟨a, ha⟩ : ∃ a, a = 1 + kq.val + k2.val := ⟨_, rfl⟩
  have a1 : 1 ≤ a := by linarith
  have aB : a ≤ 100 := by linarith
  have d1 : Bd (lit 1 : F32) a := bd1.mono a1
  have d2 : Bd k2 a := ⟨f1, by rw [abs_of_pos p2]; linarith⟩
  have dq : Bd kq a := ⟨f2, by rw [abs_of_pos pq]; linarith⟩
  have dg : Bd gain 64 := ⟨hg.1, by rw [abs_of_nonneg (val_nonneg_of_pos hg.2.1)]; exact hg.2.2⟩
  have A1 : |2 * (k2.val - 1) / (1 + kq.val + k2.val)| ≤ 2 := by
    rw [← ha, abs_div, abs_of_pos (by linarith : 0 < a), div_le_iff₀ (by linarith), abs_le]; constructor <;> linarith
  have A2 : |(1 - kq.val + k2.val) / (1 + kq.val + k2.val)| ≤ 1 := by
    rw [← ha, abs_div, abs_of_pos (by linarith : 0 < a), div_le_iff₀ (by linarith), abs_le]; constructor <;> linarith
  have B1' : |(lit 1 / (lit 1 + kq + k2) * (lit 2 * (k2 - lit 1))).val| ≤ 256 := n1'.abs_le.trans (by norm_num; linarith)
  have B2 : |(lit 1 / (lit 1 + kq + k2) * (lit 1 - kq + k2)).val| ≤ 256 := n2.abs_le.trans (by norm_num; linarith)
  rw [← ha] at nn
  have sgn2 : k2.neg = false := neg_of_val_pos p2
  rcases hco with rfl | rfl | rfl | rfl | rfl | rfl
  · have w0 : Bd (lit 1 / (lit 1 + kq + k2) * k2) 256 := bd_norm nn a1 (B := 1) (by rwa [one_mul]) le_rfl (by norm_num)
    have iv : 1 / a ≤ 1 := by rw [div_le_one (by linarith)]; exact a1
    have w1 : Bd (lit 1 / (lit 1 + kq + k2) * lit 2) (101 / 100 * (21 / 10)) := by
      refine Bd.mul (A := 101 / 100) ⟨nn.1, nn.abs_le.trans ?_⟩ bd2 (by norm_num) (by norm_num) (by norm_num)
      rw [abs_of_pos (by positivity)]; norm_num at iv ⊢; linarith
    have w2 := w1.mul ⟨f1, by rw [abs_of_pos p2]⟩ (B := k2.val) (C := 101 / 100 * (21 / 10) * 10) (by nlinarith) (by norm_num) (by norm_num)
    exact ⟨⟨w0.1, w2.1, w0.1, n1.1, n2.1⟩, w0.2, w2.2.trans (by norm_num), w0.2, marg _ n1 n2⟩
  · have iv : 1 / a ≤ 1 := by rw [div_le_one (by linarith)]; exact a1
    have w0 : Bd (lit 1 / (lit 1 + kq + k2)) (101 / 100) := by
      refine ⟨nn.1, nn.abs_le.trans ?_⟩
      rw [abs_of_pos (by positivity)]; norm_num at iv ⊢; linarith
    have w1 := w0.mul (y := lit (-2)) (B := 2) ⟨by decide +kernel, by decide +kernel⟩ (C := 3) (by norm_num) (by norm_num) (by norm_num)
    exact ⟨⟨w0.1, w1.1, w0.1, n1'.1, n2.1⟩, w0.2.trans (by norm_num), w1.2.trans (by norm_num), w0.2.trans (by norm_num), marg _ n1' n2⟩
  · exact ⟨⟨n2.1, n1'.1, lit1_fin, n1'.1, n2.1⟩, B2, B1', by change |(lit 1 : F32).val| ≤ 256; rw [lit1_val]; norm_num, marg _ n1' n2⟩
  · have w0 : Bd (lit 1 / (lit 1 + kq + k2) * (lit 1 + k2)) 256 :=
      bd_norm nn a1 (B := 3) ((d1.add d2 a1 (by norm_num; linarith)).mono (by linarith)) (by norm_num) (by norm_num)
    exact ⟨⟨w0.1, n1'.1, w0.1, n1'.1, n2.1⟩, w0.2, B1', w0.2, marg _ n1' n2⟩
  · have g1 : Bd (gain * kq) (65 * a) := (dg.mul dq (C := 64 * a) le_rfl (by linarith) (by norm_num; linarith)).mono (by linarith)
    obtain ⟨w0, w2, -⟩ := bd_nums nn a1 aB g1 (y := k2) (X := 65) (Y := 1) (by rwa [one_mul]) (by norm_num) (by norm_num) (by norm_num)
    exact ⟨⟨w0.1, n1'.1, w2.1, n1'.1, n2.1⟩, w0.2, B1', w2.2, marg _ n1' n2⟩
  · have g1 : Bd (gain * k2) (65 * a) := (dg.mul d2 (C := 64 * a) le_rfl (by linarith) (by norm_num; linarith)).mono (by linarith)
    have h1 := dg.mul bd2 (C := 128) (by norm_num) (by norm_num) (by norm_num)
    have h2 := h1.mul ⟨f1, by rw [abs_of_pos p2]⟩ (B := k2.val) (C := 130 * (10 : ℚ)) (by norm_num; linarith) (by norm_num) (by norm_num)
    have h3 : (gain * lit 2 * k2).neg = false := mul_pos_bit h1.1 f1 (mul_pos_bit hg.1 lit2_fin hg.2.1 (by decide +kernel)) sgn2
    have h4 : (gain * lit 2 * k2).val ≤ 133 * k.val ^ 2 := by
      obtain ⟨-, m⟩ := mul_near (B := 130 * k2.val) h1.1 f1 (by
        rw [abs_mul, abs_of_pos p2]; exact mul_le_mul_of_nonneg_right (h1.2.trans (by norm_num)) p2.le) (by norm_num; linarith)
      have m' := (abs_le.1 m).2
      have : (gain * lit 2).val * k2.val ≤ 130 * k2.val :=
        mul_le_mul_of_nonneg_right ((le_abs_self _).trans (h1.2.trans (by norm_num))) p2.le
      have : 1 / 195 * k.val ≤ k.val ^ 2 := by nlinarith
      norm_num at m' ⊢; linarith
    obtain ⟨t1, t2, t3, t4⟩ := hs _ h2.1 h3
    have T : (sqrt (gain * lit 2 * k2)).val ≤ 14 * k.val := by
      have sq : (sqrt (gain * lit 2 * k2)).val ^ 2 ≤ (14 * k.val) ^ 2 := by
        rcases le_total (1 / 2 ^ 126) (gain * lit 2 * k2).val with h | h
        · have := (abs_le.1 (t3 h)).2
          linarith
        · have := t4 h
          have : (1:ℚ) / 2 ^ 100 ≤ k.val ^ 2 := le_trans (by norm_num) (show (1 / 195) ^ 2 ≤ k.val ^ 2 from pow_le_pow_left₀ (by norm_num) K0 2)
          linarith
      exact (pow_le_pow_iff_left₀ t2 (by linarith) (by norm_num)).1 sq
    have dt : Bd (sqrt (gain * lit 2 * k2)) (14 * a) := ⟨t1, by rw [abs_of_nonneg t2]; linarith⟩
    obtain ⟨w0, w2, w1⟩ := bd_nums nn a1 aB dt g1 (by norm_num) (by norm_num) (by norm_num)
    exact ⟨⟨w0.1, w1.1, w2.1, n1'.1, n2.1⟩, w0.2, w1.2, w2.2, marg _ n1' n2⟩

/-- The cut bell, for gains from -16 to -1/16 and `q` between a sixteenth of the gain and the gain. -/
theorem safe_bell_cut {powi : F32 → ℕ → F32} (hp : PowiNear powi) {fc q gain sr : F32} (s0 : 1 ≤ sr.val) (s1 : sr.val ≤ 2 ^ 30)
    (r0 : 1 / 600 ≤ fc.val / sr.val) (r1 : fc.val / sr.val ≤ 318 / 1000) (q0 : 1 / 16 ≤ q.val)
    (g0 : gain.val ≤ -1 / 16) (g1 : -16 ≤ gain.val) (gq0 : -gain.val ≤ 16 * q.val) (gq1 : q.val ≤ -gain.val) :
    Safe (bellCut powi fc q gain sr) := by
  obtain ⟨k0, k1⟩ := warpF_range hp s0 s1 (by norm_num) r0 r1
  obtain ⟨f1, f2, l1, u1, l2, u2⟩ := setup_near (k := warpF powi fc sr) (le_trans (by norm_num) k0) (k1.trans (by norm_num)) q0
    (show q.val ≤ 64 by linarith)
  have K0 : 1 / 195 ≤ (warpF powi fc sr).val := le_trans (by norm_num) k0
  simp only [bellCut, setupCoeffs]
  change Safe (bellCutOf gain (warpF powi fc sr * warpF powi fc sr) (warpF powi fc sr / q))
  generalize warpF powi fc sr = k at *
  have kp : 0 < k.val := by linarith
  have qp : 0 < q.val := by linarith
  have kk : k.val ^ 2 ≤ 17 / 10 * k.val := by nlinarith
  have k2p : 0 < k.val ^ 2 := by positivity
  have b4 : 0 < k.val / q.val := div_pos kp qp
  have b5 : k.val ≤ -gain.val * (k.val / q.val) := by
    rw [← mul_div_assoc, le_div_iff₀ qp]; nlinarith
  have b6 : -gain.val * (k.val / q.val) ≤ 16 * k.val := by
    rw [← mul_div_assoc, div_le_iff₀ qp]; nlinarith
  have b7 : k.val / q.val ≤ 16 * k.val := by rw [div_le_iff₀ qp]; nlinarith
  have h1 : -gain.val * (99 / 100 * (k.val / q.val)) ≤ -gain.val * (k / q).val := mul_le_mul_of_nonneg_left l2 (by linarith)
  have h2 : -gain.val * (k / q).val ≤ -gain.val * (101 / 100 * (k.val / q.val)) := mul_le_mul_of_nonneg_left u2 (by linarith)
  have gk : 1 / 16 * (k / q).val ≤ -gain.val * (k / q).val := mul_le_mul_of_nonneg_right (by linarith) (by linarith)
  generalize k * k = k2 at *
  generalize k / q = kq at *
  have p2 : 0 < k2.val := by linarith
  have pq : 0 < kq.val := by linarith
  have gf : gain.isFin = true := fin_of_val (by rw [abs_of_neg (by linarith)]; norm_num; linarith)
  obtain ⟨m1, m2⟩ := mul_near (a := -gain) (B := -gain.val * kq.val) (by rw [isFin_neg']; exact gf) f2
    (by rw [val_neg', abs_of_pos (by linarith)]) (by norm_num; linarith)
  rw [val_neg'] at m2
  obtain ⟨m2a, m2b⟩ := abs_le.1 m2
  have gq0 : 98 / 100 * k.val ≤ (-gain * kq).val := by norm_num at m2a ⊢; linarith
  have gq1 : (-gain * kq).val ≤ 164 / 10 * k.val := by norm_num at m2b ⊢; linarith
  have gk' : kq.val ≤ 17 * (-gain * kq).val := by norm_num at m2a ⊢; linarith
  have pg : 0 < (-gain * kq).val := by linarith
  obtain ⟨nn, -, n1, n2⟩ := design_near f1 m1 p2.le pg.le (by norm_num; linarith)
  have marg := circle_near (co := bellCutOf gain k2 kq) p2 pg n1 n2 (b := 98 / 100 * k.val) (by linarith) (by nlinarith) (by linarith)
  obtain ⟨a, ha⟩ : ∃ a, a = 1 + (-gain * kq).val + k2.val := ⟨_, rfl⟩
  have a1 : 1 ≤ a := by linarith
  have aB : a ≤ 100 := by linarith
  have d2 : Bd k2 a := ⟨f1, by rw [abs_of_pos p2]; linarith⟩
  have dq : Bd kq (17 * a) := ⟨f2, by rw [abs_of_pos pq]; linarith⟩
  have A1 : |2 * (k2.val - 1) / (1 + (-gain * kq).val + k2.val)| ≤ 2 := by
    rw [← ha, abs_div, abs_of_pos (by linarith : 0 < a), div_le_iff₀ (by linarith), abs_le]; constructor <;> linarith
  have B1 : |(lit 1 / (lit 1 + -gain * kq + k2) * (lit 2 * (k2 - lit 1))).val| ≤ 256 := n1.abs_le.trans (by norm_num; linarith)
  rw [← ha] at nn
  obtain ⟨w0, w2, -⟩ := bd_nums nn a1 aB dq (y := k2) (Y := 1) (by rwa [one_mul]) (by norm_num) (by norm_num) (by norm_num)
  exact ⟨⟨w0.1, n1.1, w2.1, n1.1, n2.1⟩, w0.2, B1, w2.2, .inl marg⟩

set_option maxHeartbeats 1000000 in
/-- The cut shelf, for gains from -16 to -1 (its poles do not depend on `q`). -/
theorem safe_shelf_cut {powi : F32 → ℕ → F32} (hp : PowiNear powi) {sqrt : F32 → F32} (hs : SqrtWithin (1 / 4) sqrt) {fc q gain sr : F32}
    (s0 : 1 ≤ sr.val) (s1 : sr.val ≤ 2 ^ 30) (r0 : 1 / 600 ≤ fc.val / sr.val) (r1 : fc.val / sr.val ≤ 318 / 1000)
    (q0 : 1 / 16 ≤ q.val) (q1 : q.val ≤ 64) (g0 : gain.val ≤ -1) (g1 : -16 ≤ gain.val) :
    Safe (lowShelfCut powi sqrt fc q gain sr) := by
  obtain ⟨k0, k1⟩ := warpF_range hp s0 s1 (by norm_num) r0 r1
  obtain ⟨f1, f2, l1, u1, l2, u2⟩ := setup_near (k := warpF powi fc sr) (le_trans (by norm_num) k0) (k1.trans (by norm_num)) q0 q1
  have K0 : 1 / 195 ≤ (warpF powi fc sr).val := le_trans (by norm_num) k0
  simp only [lowShelfCut, setupCoeffs]
  change Safe (lowShelfCutOf sqrt gain (warpF powi fc sr * warpF powi fc sr) (warpF powi fc sr / q))
  generalize warpF powi fc sr = k at *
  have kp : 0 < k.val := by linarith
  have qp : 0 < q.val := by linarith
  have kk : k.val ^ 2 ≤ 17 / 10 * k.val := by nlinarith
  have kk' : 1 / 195 * k.val ≤ k.val ^ 2 := by nlinarith
  have k2p : 0 < k.val ^ 2 := by positivity
  have b4 : 0 < k.val / q.val := div_pos kp qp
  have b7 : k.val / q.val ≤ 16 * k.val := by rw [div_le_iff₀ qp]; nlinarith
  have kd : k.val ≤ 1 + (k * k).val := by nlinarith
  generalize k * k = k2 at *
  generalize k / q = kq at *
  have p2 : 0 < k2.val := by linarith
  have pq : 0 < kq.val := by linarith
  obtain ⟨g, hg⟩ : ∃ g, g = -gain := ⟨_, rfl⟩
  have gf : g.isFin = true := by
    rw [hg, isFin_neg']; exact fin_of_val (by rw [abs_of_neg (by linarith)]; norm_num; linarith)
  have gv : g.val = -gain.val := by rw [hg]; exact val_neg' _
  have h1 : 1 * k2.val ≤ g.val * k2.val := mul_le_mul_of_nonneg_right (by linarith) p2.le
  have h2 : g.val * k2.val ≤ 16 * k2.val := mul_le_mul_of_nonneg_right (by linarith) p2.le
  -- gain * k2
  obtain ⟨m1, m2⟩ := mul_near (a := g) (B := g.val * k2.val) gf f1 (by rw [abs_of_pos (by linarith)]) (by norm_num; linarith)
  obtain ⟨m2a, m2b⟩ := abs_le.1 m2
  obtain ⟨H, hH⟩ : ∃ H, H = g.val * k2.val := ⟨_, rfl⟩
  rw [← hH] at h1 h2 m2a m2b
  have G0 : 99 / 100 * H ≤ (g * k2).val := by norm_num at m2a ⊢; linarith
  have G1 : (g * k2).val ≤ 101 / 100 * H := by norm_num at m2b ⊢; linarith
  -- gain * 2 * k2
  obtain ⟨n1, n2⟩ := mul_near (a := g) (B := g.val * 2) gf lit2_fin (by rw [lit2_val, abs_of_pos (by linarith)]) (by norm_num; linarith)
  rw [lit2_val] at n2
  obtain ⟨n2a, n2b⟩ := abs_le.1 n2
  have N0 : 199 / 100 * g.val ≤ (g * lit 2).val := by norm_num at n2a ⊢; linarith
  have N1 : (g * lit 2).val ≤ 201 / 100 * g.val := by norm_num at n2b ⊢; linarith
  have i1 : 199 / 100 * H ≤ (g * lit 2).val * k2.val := by rw [hH, ← mul_assoc]; exact mul_le_mul_of_nonneg_right N0 p2.le
  have i2 : (g * lit 2).val * k2.val ≤ 201 / 100 * H := by rw [hH, ← mul_assoc]; exact mul_le_mul_of_nonneg_right N1 p2.le
  obtain ⟨o1, o2⟩ := mul_near (B := (g * lit 2).val * k2.val) n1 f1 (by rw [abs_of_pos (by linarith)]) (by norm_num; linarith)
  obtain ⟨o2a, o2b⟩ := abs_le.1 o2
  have O0 : 198 / 100 * H ≤ (g * lit 2 * k2).val := by norm_num at o2a ⊢; linarith
  have O1 : (g * lit 2 * k2).val ≤ 202 / 100 * H := by norm_num at o2b ⊢; linarith
  obtain ⟨t1, t2, t3, -⟩ := hs _ o1 (neg_of_val_pos (by linarith))
  obtain ⟨t3a, t3b⟩ := abs_le.1 (t3 (by norm_num; linarith))
  have Hp : 0 < H := by linarith
  have T0 : 148 / 100 * H ≤ (sqrt (g * lit 2 * k2)).val ^ 2 := by linarith
  have T1 : (sqrt (g * lit 2 * k2)).val ^ 2 ≤ 253 / 100 * H := by linarith
  have T2 : 12 / 10 * k.val ≤ (sqrt (g * lit 2 * k2)).val := by
    refine (pow_le_pow_iff_left₀ (by linarith) t2 (by norm_num : (2:ℕ) ≠ 0)).1 ?_
    rw [mul_pow]; norm_num; linarith
  have T3 : (sqrt (g * lit 2 * k2)).val ≤ 12 := by
    refine (pow_le_pow_iff_left₀ t2 (by norm_num) (by norm_num : (2:ℕ) ≠ 0)).1 ?_
    norm_num; linarith
  have pg : 0 < (g * k2).val := by linarith
  have pt : 0 < (sqrt (g * lit 2 * k2)).val := by linarith
  obtain ⟨nn, -, w1, w2⟩ := design_near m1 t1 pg.le t2 (by norm_num; linarith)
  have TT : (sqrt (g * lit 2 * k2)).val ^ 2 ≤ 12 * (sqrt (g * lit 2 * k2)).val := by
    rw [sq]; exact mul_le_mul_of_nonneg_right T3 t2
  have marg := circle_near (co := lowShelfCutOf sqrt gain k2 kq) pg pt (by subst hg; exact w1) (by subst hg; exact w2)
    (b := (sqrt (g * lit 2 * k2)).val) (by linarith) (by linarith) le_rfl
  obtain ⟨a, ha⟩ : ∃ a, a = 1 + (sqrt (g * lit 2 * k2)).val + (g * k2).val := ⟨_, rfl⟩
  have a1 : 1 ≤ a := by linarith
  have aB : a ≤ 100 := by linarith
  have d2 : Bd k2 (2 * a) := ⟨f1, by rw [abs_of_pos p2]; linarith⟩
  have dq : Bd kq (36 * a) := ⟨f2, by rw [abs_of_pos pq]; linarith⟩
  rw [← ha] at nn
  obtain ⟨w0, w3, w4⟩ := bd_nums nn a1 aB dq d2 (by norm_num) (by norm_num) (by norm_num)
  subst hg
  exact ⟨⟨w0.1, w4.1, w3.1, w1.1, w2.1⟩, w0.2, w4.2, w3.2, .inl marg⟩

/-! ## C156 -/

/-- A filter as the crate designs it, with `fc` from sr/600 to 0.318 sr: low-pass, high-pass, all-pass, notch, and bell and low shelf with a
gain of at most 64 (q from 1/16 to 2); the bell with a (negative) cut; the low shelf with a cut. -/
inductive Designed (powi : F32 → ℕ → F32) (sqrt : F32 → F32) : BiquadCoeffs F32 → Prop
  | plain {fc q gain sr : F32} (s0 : 1 ≤ sr.val) (s1 : sr.val ≤ 2 ^ 30) (r0 : 1 / 600 ≤ fc.val / sr.val) (r1 : fc.val / sr.val ≤ 318 / 1000)
      (q0 : 1 / 16 ≤ q.val) (q1 : q.val ≤ 2) (hg : BoostGain gain) (co : BiquadCoeffs F32)
      (hco : co ∈ [lowpass powi fc q sr, highpass powi fc q sr, allpass powi fc q sr, notch powi fc q sr,
        bell powi fc q gain sr (fun g => !g.neg), lowShelf powi sqrt fc q gain sr (fun g => !g.neg)]) : Designed powi sqrt co
  | bellCut {fc q gain sr : F32} (s0 : 1 ≤ sr.val) (s1 : sr.val ≤ 2 ^ 30) (r0 : 1 / 600 ≤ fc.val / sr.val) (r1 : fc.val / sr.val ≤ 318 / 1000)
      (q0 : 1 / 16 ≤ q.val) (g0 : gain.val ≤ -1 / 16) (g1 : -16 ≤ gain.val) (gq0 : -gain.val ≤ 16 * q.val) (gq1 : q.val ≤ -gain.val) :
      Designed powi sqrt (bell powi fc q gain sr (fun g => !g.neg))
  | shelfCut {fc q gain sr : F32} (s0 : 1 ≤ sr.val) (s1 : sr.val ≤ 2 ^ 30) (r0 : 1 / 600 ≤ fc.val / sr.val) (r1 : fc.val / sr.val ≤ 318 / 1000)
      (q0 : 1 / 16 ≤ q.val) (q1 : q.val ≤ 64) (g0 : gain.val ≤ -1) (g1 : -16 ≤ gain.val) :
      Designed powi sqrt (lowShelf powi sqrt fc q gain sr (fun g => !g.neg))

theorem Designed.safe {powi : F32 → ℕ → F32} (hp : PowiNear powi) {sqrt : F32 → F32} (hs : SqrtWithin (1 / 4) sqrt) {co : BiquadCoeffs F32}
    (h : Designed powi sqrt co) : Safe co := by
  cases h with
  | plain s0 s1 r0 r1 q0 q1 hg co hco =>
    refine safe_boost hp hs s0 s1 r0 r1 q0 q1 hg ?_
    simpa only [bell, lowShelf, hg.2.1, Bool.not_false, if_true] using hco
  | bellCut s0 s1 r0 r1 q0 g0 g1 gq0 gq1 =>
    have hn := neg_of_val_neg (by linarith : F32.val _ < 0)
    simp only [bell, hn, Bool.not_true, Bool.false_eq_true, if_false]
    exact safe_bell_cut hp s0 s1 r0 r1 q0 g0 g1 gq0 gq1
  | shelfCut s0 s1 r0 r1 q0 q1 g0 g1 =>
    have hn := neg_of_val_neg (by linarith : F32.val _ < 0)
    simp only [lowShelf, hn, Bool.not_true, Bool.false_eq_true, if_false]
    exact safe_shelf_cut hp hs s0 s1 r0 r1 q0 q1 g0 g1

/-- C156: every design, computed and run in floats from rest, stays finite and bounded for ever, whatever (bounded) signal it is fed with. -/
theorem C156_never_blows_up {powi : F32 → ℕ → F32} (hp : PowiNear powi) {sqrt : F32 → F32} (hs : SqrtWithin (1 / 4) sqrt)
    {co : BiquadCoeffs F32} (h : Designed powi sqrt co) {x : ℕ → F32} {m : ℚ} (m0 : 1 / 2 ^ 120 ≤ m) (m1 : m ≤ 2 ^ 52)
    (hx : ∀ n, (x n).isFin = true ∧ |(x n).val| ≤ m) (n : ℕ) :
    ((Biquad.new co).outAt x n).isFin = true ∧ |((Biquad.new co).outAt x n).val| ≤ 2 ^ 29 * m :=
  (h.safe hp hs).bounded m0 m1 hx n

/-- The output of filters one after the other, all from rest. -/
def chainOut : List (BiquadCoeffs F32) → (ℕ → F32) → ℕ → F32
  | [], x => x
  | co :: cs, x => chainOut cs fun n => (Biquad.new co).outAt x n

/-- C156: the same for designs in a chain. -/
theorem C156_chain {powi : F32 → ℕ → F32} (hp : PowiNear powi) {sqrt : F32 → F32} (hs : SqrtWithin (1 / 4) sqrt)
    {cs : List (BiquadCoeffs F32)} (h : ∀ co ∈ cs, Designed powi sqrt co) {x : ℕ → F32} {m : ℚ} (m0 : 1 / 2 ^ 120 ≤ m)
    (m1 : (2 ^ 29) ^ cs.length * m ≤ 2 ^ 81) (hx : ∀ n, (x n).isFin = true ∧ |(x n).val| ≤ m) (n : ℕ) :
    (chainOut cs x n).isFin = true ∧ |(chainOut cs x n).val| ≤ (2 ^ 29) ^ cs.length * m := by
  induction cs generalizing x m with
  | nil => simpa [chainOut] using hx n
  | cons co cs ih =>
    rw [List.length_cons, pow_succ, mul_assoc] at m1 ⊢
    have mp : 0 < m := lt_of_lt_of_le (by norm_num) m0
    have k : 1 ≤ ((2:ℚ) ^ 29) ^ cs.length := one_le_pow₀ (by norm_num)
    refine ih (fun c hc => h c (List.mem_cons_of_mem _ hc)) (by norm_num at m0 ⊢; linarith) m1 fun i => ?_
    refine C156_never_blows_up hp hs (h co List.mem_cons_self) m0 ?_ hx i
    have := mul_le_mul_of_nonneg_right k (show 0 ≤ 2 ^ 29 * m by positivity)
    norm_num at this m1 ⊢; linarith

/-- A flat low-pass at 1 kHz, a cut bell at 5 kHz and a cut low shelf at 300 Hz (at 48 kHz) are among the designs; the contracts can be met. -/
example : Designed powiMul mmSqrt (lowpass powiMul (lit 1000) (lit (1 / 4)) (lit 48000)) ∧
    Designed powiMul mmSqrt (bell powiMul (lit 5000) (lit 1) (lit (-4)) (lit 48000) (fun g => !g.neg)) ∧
    Designed powiMul mmSqrt (lowShelf powiMul mmSqrt (lit 300) (lit 1) (lit (-4)) (lit 48000) (fun g => !g.neg)) ∧
    PowiNear powiMul ∧ SqrtWithin (1 / 4) mmSqrt := by
  refine ⟨.plain (gain := lit 1) ?_ ?_ ?_ ?_ ?_ ?_ ⟨?_, ?_, ?_⟩ _ (List.mem_cons_self ..), .bellCut ?_ ?_ ?_ ?_ ?_ ?_ ?_ ?_ ?_,
    .shelfCut ?_ ?_ ?_ ?_ ?_ ?_ ?_ ?_, powiMul_near, fun x hx hn => ?_⟩
  iterate 26 decide +kernel
  obtain ⟨a, b, c, d⟩ := mmSqrt_within x hx hn
  have := mul_le_mul_of_nonneg_right (show (126:ℚ) / 1000 ≤ 1 / 4 by norm_num) (val_nonneg_of_pos hn)
  exact ⟨a, b, fun h => (c h).trans this, d⟩

/-- The poles of that flat low-pass are real, which C114 does not cover. -/
example : let co : BiquadCoeffs F32 := lowpass powiMul (lit 1000) (lit (1 / 4)) (lit 48000)
    co.a2.val - co.a1.val ^ 2 / 4 < 0 := by decide +kernel

end Verif
