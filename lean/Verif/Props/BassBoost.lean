import Verif.Props.BassFloat
import Verif.Props.DesignRun

/-! # C156 further down: bells and shelves down to a 2400th of the sample rate

C156 starts at a 600th of the sample rate, 80 Hz at 48 kHz: above the lowest bands of an equaliser. With the margin of C118_bass the six
designs without a gain in the denominator, and chains of them, are bounded from 20 Hz up. -/

namespace Verif
open F32 Butterworth

/-- Finite coefficients, moderate feed-forward, a pole margin of 2^-20. -/
structure FineSafe (co : BiquadCoeffs F32) : Prop where
  fin : co.Fin
  b0 : |co.b0.val| ≤ 256
  b1 : |co.b1.val| ≤ 256
  b2 : |co.b2.val| ≤ 256
  margin : 1 / 2 ^ 20 ≤ co.margin

theorem FineSafe.bounded {co : BiquadCoeffs F32} (h : FineSafe co) {x : ℕ → F32} {m : ℚ} (m0 : 1 / 2 ^ 120 ≤ m) (m1 : m ≤ 2 ^ 52)
    (hx : ∀ n, (x n).isFin = true ∧ |(x n).val| ≤ m) (n : ℕ) :
    ((Biquad.new co).outAt x n).isFin = true ∧ |((Biquad.new co).outAt x n).val| ≤ 2 ^ 32 * m := by
  have hG : ∀ {b y : ℚ}, |b| ≤ 256 → |y| ≤ m → |b * y| ≤ 256 * m := by
    intro b y hb hy
    rw [abs_mul]; exact mul_le_mul hb hy (abs_nonneg _) (by norm_num)
  obtain ⟨r1, r2⟩ := C114_fine (G := 256 * m) h.fin h.margin (fun n => (hx n).1) (by norm_num at m0 ⊢; linarith)
    (by norm_num at m1 ⊢; linarith) (fun n => ⟨hG h.b0 (hx n).2, hG h.b1 (hx n).2, hG h.b2 (hx n).2⟩) n
  refine ⟨r1, ?_⟩
  have hM := h.margin
  have hM0 : 0 < co.margin := lt_of_lt_of_le (by norm_num) hM
  have mp : (0:ℝ) < m := by exact_mod_cast lt_of_lt_of_le (by norm_num) m0
  have : (((256 * m : ℚ)) : ℝ) / co.margin ≤ 2 ^ 20 * (256 * m) := by
    push_cast
    rw [div_le_iff₀ hM0]
    nlinarith
  have r3 : |(((Biquad.new co).outAt x n).val : ℝ)| ≤ 2 ^ 32 * m := by norm_num at this r2 ⊢; linarith
  exact_mod_cast r3

set_option maxHeartbeats 1000000 in
/-- The six designs without a gain in the denominator, from a 2400th of the sample rate up. -/
theorem fine_boost {powi : F32 → ℕ → F32} (hp : PowiNear powi) {sqrt : F32 → F32} (hs : SqrtWithin (1 / 4) sqrt) {fc q gain sr : F32}
    (s0 : 1 ≤ sr.val) (s1 : sr.val ≤ 2 ^ 30) (r0 : 1 / 2400 ≤ fc.val / sr.val) (r1 : fc.val / sr.val ≤ 318 / 1000)
    (q0 : 3 / 5 ≤ q.val) (q1 : q.val ≤ 2) (hg : BoostGain gain) {co : BiquadCoeffs F32}
    (hco : co ∈ [lowpass powi fc q sr, highpass powi fc q sr, allpass powi fc q sr, notch powi fc q sr, bellBoost powi fc q gain sr,
      lowShelfBoost powi sqrt fc q gain sr]) : FineSafe co := by
  obtain ⟨k0, k1⟩ := warpF_range hp s0 s1 (by norm_num) r0 r1
  obtain ⟨f1, f2, l1, u1, l2, u2⟩ := setup_near (k := warpF powi fc sr) (le_trans (by norm_num) k0) (k1.trans (by norm_num))
    (show 1 / 16 ≤ q.val by linarith) (show q.val ≤ 64 by linarith)
  have K0 : 3141 / 2400000 ≤ (warpF powi fc sr).val := le_trans (by norm_num) k0
  simp only [lowpass, highpass, allpass, notch, bellBoost, lowShelfBoost, setupCoeffs, List.mem_cons, List.not_mem_nil, or_false] at hco
  change co = lowpassOf (warpF powi fc sr * warpF powi fc sr) (warpF powi fc sr / q) ∨
    co = highpassOf (warpF powi fc sr * warpF powi fc sr) (warpF powi fc sr / q) ∨
    co = allpassOf (warpF powi fc sr * warpF powi fc sr) (warpF powi fc sr / q) ∨
    co = notchOf (warpF powi fc sr * warpF powi fc sr) (warpF powi fc sr / q) ∨
    co = bellBoostOf gain (warpF powi fc sr * warpF powi fc sr) (warpF powi fc sr / q) ∨
    co = lowShelfBoostOf sqrt gain (warpF powi fc sr * warpF powi fc sr) (warpF powi fc sr / q) at hco
  generalize warpF powi fc sr = k at *
  have kp : 0 < k.val := by linarith
  have qp : 0 < q.val := by linarith
  have kk : k.val ^ 2 ≤ 17 / 10 * k.val := by nlinarith
  have k2p : 0 < k.val ^ 2 := by positivity
  have b3 : k.val / q.val ≤ 16 * k.val := by rw [div_le_iff₀ qp]; nlinarith
  have b4 : 0 < k.val / q.val := div_pos kp qp
  have marg : ∀ c : BiquadCoeffs F32,
      (c.a1 = lit 1 / (lit 1 + k / q + k * k) * lit 2 * (k * k - lit 1) ∨ c.a1 = lit 1 / (lit 1 + k / q + k * k) * (lit 2 * (k * k - lit 1))) →
      c.a2 = lit 1 / (lit 1 + k / q + k * k) * (lit 1 - k / q + k * k) → 1 / 2 ^ 20 ≤ c.margin :=
    fun c g1 g2 => margin_bass f1 f2 K0 k1 q0 q1 l1 u1 l2 u2 g1 g2
  have kd : k.val ≤ 1 + (k * k).val := by nlinarith
  generalize k * k = k2 at *
  generalize k / q = kq at *
  have p2 : 0 < k2.val := by linarith
  have pq : 0 < kq.val := by linarith
  obtain ⟨nn, n1, n1', n2⟩ := design_near f1 f2 p2.le pq.le (by norm_num; linarith)
  obtain ⟨a, ha⟩ : ∃ a, a = 1 + kq.val + k2.val := ⟨_, rfl⟩
  have a1 : 1 ≤ a := by linarith
  have aB : a ≤ 100 := by linarith
  have d1 : Bd (lit 1 : F32) a := bd1.mono a1
  have d2 : Bd k2 a := ⟨f1, by rw [abs_of_pos p2]; linarith⟩
  have dq : Bd kq a := ⟨f2, by rw [abs_of_pos pq]; linarith⟩
  have dg : Bd gain 64 := ⟨hg.1, by rw [abs_of_nonneg (val_nonneg_of_pos hg.2.1)]; exact hg.2.2⟩
  have A1 : |2 * (k2.val - 1) / (1 + kq.val + k2.val)| ≤ 2 := by
    rw [← ha, abs_div, abs_of_pos (by linarith : 0 < a), div_le_iff₀ (by linarith), abs_le]; constructor <;> linarith
  have A2 : |(1 - kq.val + k2.val) / (1 + kq.val + k2.val)| ≤ 1 := by
    rw [← ha, abs_div, abs_of_pos (by linarith : 0 < a), div_le_iff₀ (by linarith), abs_le]; constructor <;> linarith
  have B1' : |(lit 1 / (lit 1 + kq + k2) * (lit 2 * (k2 - lit 1))).val| ≤ 256 := n1'.abs_le.trans (by norm_num; linarith)
  have B2 : |(lit 1 / (lit 1 + kq + k2) * (lit 1 - kq + k2)).val| ≤ 256 := n2.abs_le.trans (by norm_num; linarith)
  rw [← ha] at nn
  have sgn2 : k2.neg = false := neg_of_val_pos p2
  rcases hco with rfl | rfl | rfl | rfl | rfl | rfl
  · have w0 : Bd (lit 1 / (lit 1 + kq + k2) * k2) 256 := bd_norm nn a1 (B := 1) (by rwa [one_mul]) le_rfl (by norm_num)
    have iv : 1 / a ≤ 1 := by rw [div_le_one (by linarith)]; exact a1
    have w1 : Bd (lit 1 / (lit 1 + kq + k2) * lit 2) (101 / 100 * (21 / 10)) := by
      refine Bd.mul (A := 101 / 100) ⟨nn.1, nn.abs_le.trans ?_⟩ bd2 (by norm_num) (by norm_num) (by norm_num)
      rw [abs_of_pos (by positivity)]; norm_num at iv ⊢; linarith
    have w2 := w1.mul ⟨f1, by rw [abs_of_pos p2]⟩ (B := k2.val) (C := 101 / 100 * (21 / 10) * 10) (by nlinarith) (by norm_num) (by norm_num)
    exact ⟨⟨w0.1, w2.1, w0.1, n1.1, n2.1⟩, w0.2, w2.2.trans (by norm_num), w0.2, marg _ (Or.inl rfl) rfl⟩
  · have iv : 1 / a ≤ 1 := by rw [div_le_one (by linarith)]; exact a1
    have w0 : Bd (lit 1 / (lit 1 + kq + k2)) (101 / 100) := by
      refine ⟨nn.1, nn.abs_le.trans ?_⟩
      rw [abs_of_pos (by positivity)]; norm_num at iv ⊢; linarith
    have w1 := w0.mul (y := lit (-2)) (B := 2) ⟨by decide +kernel, by decide +kernel⟩ (C := 3) (by norm_num) (by norm_num) (by norm_num)
    exact ⟨⟨w0.1, w1.1, w0.1, n1'.1, n2.1⟩, w0.2.trans (by norm_num), w1.2.trans (by norm_num), w0.2.trans (by norm_num), marg _ (Or.inr rfl) rfl⟩
  · exact ⟨⟨n2.1, n1'.1, lit1_fin, n1'.1, n2.1⟩, B2, B1', by change |(lit 1 : F32).val| ≤ 256; rw [lit1_val]; norm_num, marg _ (Or.inr rfl) rfl⟩
  · have w0 : Bd (lit 1 / (lit 1 + kq + k2) * (lit 1 + k2)) 256 :=
      bd_norm nn a1 (B := 3) ((d1.add d2 a1 (by norm_num; linarith)).mono (by linarith)) (by norm_num) (by norm_num)
    exact ⟨⟨w0.1, n1'.1, w0.1, n1'.1, n2.1⟩, w0.2, B1', w0.2, marg _ (Or.inr rfl) rfl⟩
  · have g1 : Bd (gain * kq) (65 * a) := (dg.mul dq (C := 64 * a) le_rfl (by linarith) (by norm_num; linarith)).mono (by linarith)
    obtain ⟨w0, w2, -⟩ := bd_nums nn a1 aB g1 (y := k2) (X := 65) (Y := 1) (by rwa [one_mul]) (by norm_num) (by norm_num) (by norm_num)
    exact ⟨⟨w0.1, n1'.1, w2.1, n1'.1, n2.1⟩, w0.2, B1', w2.2, marg _ (Or.inr rfl) rfl⟩
  · have g1 : Bd (gain * k2) (65 * a) := (dg.mul d2 (C := 64 * a) le_rfl (by linarith) (by norm_num; linarith)).mono (by linarith)
    have h1 := dg.mul bd2 (C := 128) (by norm_num) (by norm_num) (by norm_num)
    have h2 := h1.mul ⟨f1, by rw [abs_of_pos p2]⟩ (B := k2.val) (C := 130 * (10 : ℚ)) (by norm_num; linarith) (by norm_num) (by norm_num)
    have h3 : (gain * lit 2 * k2).neg = false := mul_pos_bit h1.1 f1 (mul_pos_bit hg.1 lit2_fin hg.2.1 (by decide +kernel)) sgn2
    have h4 : (gain * lit 2 * k2).val ≤ 133 * k.val ^ 2 := by
      obtain ⟨-, m⟩ := mul_near (B := 130 * k2.val) h1.1 f1 (by
        rw [abs_mul, abs_of_pos p2]; exact mul_le_mul_of_nonneg_right (h1.2.trans (by norm_num)) p2.le) (by norm_num; linarith)
      have m' := (abs_le.1 m).2
      have : (gain * lit 2).val * k2.val ≤ 130 * k2.val :=
        mul_le_mul_of_nonneg_right ((le_abs_self _).trans (h1.2.trans (by norm_num))) p2.le
      have : 1 / 1000 * k.val ≤ k.val ^ 2 := by nlinarith
      norm_num at m' ⊢; linarith
    obtain ⟨t1, t2, t3, t4⟩ := hs _ h2.1 h3
    have T : (sqrt (gain * lit 2 * k2)).val ≤ 14 * k.val := by
      have sq : (sqrt (gain * lit 2 * k2)).val ^ 2 ≤ (14 * k.val) ^ 2 := by
        rcases le_total (1 / 2 ^ 126) (gain * lit 2 * k2).val with h | h
        · have := (abs_le.1 (t3 h)).2
          linarith
        · have := t4 h
          have : (1:ℚ) / 2 ^ 100 ≤ k.val ^ 2 := le_trans (by norm_num) (show (3141 / 2400000) ^ 2 ≤ k.val ^ 2 from pow_le_pow_left₀ (by norm_num) K0 2)
          linarith
      exact (pow_le_pow_iff_left₀ t2 (by linarith) (by norm_num)).1 sq
    have dt : Bd (sqrt (gain * lit 2 * k2)) (14 * a) := ⟨t1, by rw [abs_of_nonneg t2]; linarith⟩
    obtain ⟨w0, w2, w1⟩ := bd_nums nn a1 aB dt g1 (by norm_num) (by norm_num) (by norm_num)
    exact ⟨⟨w0.1, w1.1, w2.1, n1'.1, n2.1⟩, w0.2, w1.2, w2.2, marg _ (Or.inr rfl) rfl⟩

/-- The designs of C156_bass: q from 0.6 to 2, from a 2400th of the sample rate, bells and low shelves through their public names. -/
def BassDesigned (powi : F32 → ℕ → F32) (sqrt : F32 → F32) (co : BiquadCoeffs F32) : Prop :=
  ∃ fc q gain sr : F32, 1 ≤ sr.val ∧ sr.val ≤ 2 ^ 30 ∧ 1 / 2400 ≤ fc.val / sr.val ∧ fc.val / sr.val ≤ 318 / 1000 ∧
    3 / 5 ≤ q.val ∧ q.val ≤ 2 ∧ BoostGain gain ∧
    co ∈ [lowpass powi fc q sr, highpass powi fc q sr, allpass powi fc q sr, notch powi fc q sr, bell powi fc q gain sr (fun g => !g.neg),
      lowShelf powi sqrt fc q gain sr (fun g => !g.neg)]

/-- C156 from a 2400th of the sample rate up. -/
theorem C156_bass {powi : F32 → ℕ → F32} (hp : PowiNear powi) {sqrt : F32 → F32} (hs : SqrtWithin (1 / 4) sqrt)
    {co : BiquadCoeffs F32} (h : BassDesigned powi sqrt co) {x : ℕ → F32} {m : ℚ} (m0 : 1 / 2 ^ 120 ≤ m) (m1 : m ≤ 2 ^ 52)
    (hx : ∀ n, (x n).isFin = true ∧ |(x n).val| ≤ m) (n : ℕ) :
    ((Biquad.new co).outAt x n).isFin = true ∧ |((Biquad.new co).outAt x n).val| ≤ 2 ^ 32 * m := by
  obtain ⟨fc, q, gain, sr, s0, s1, r0, r1, q0, q1, hg, hco⟩ := h
  refine (fine_boost hp hs s0 s1 r0 r1 q0 q1 hg ?_).bounded m0 m1 hx n
  simpa only [bell, lowShelf, hg.2.1, Bool.not_false, if_true] using hco

/-- The same for designs in a chain. -/
theorem C156_bass_chain {powi : F32 → ℕ → F32} (hp : PowiNear powi) {sqrt : F32 → F32} (hs : SqrtWithin (1 / 4) sqrt)
    {cs : List (BiquadCoeffs F32)} (h : ∀ co ∈ cs, BassDesigned powi sqrt co) {x : ℕ → F32} {m : ℚ} (m0 : 1 / 2 ^ 120 ≤ m)
    (m1 : (2 ^ 32) ^ cs.length * m ≤ 2 ^ 84) (hx : ∀ n, (x n).isFin = true ∧ |(x n).val| ≤ m) (n : ℕ) :
    (chainOut cs x n).isFin = true ∧ |(chainOut cs x n).val| ≤ (2 ^ 32) ^ cs.length * m := by
  induction cs generalizing x m with
  | nil => simpa [chainOut] using hx n
  | cons co cs ih =>
    rw [List.length_cons, pow_succ, mul_assoc] at m1 ⊢
    have mp : 0 < m := lt_of_lt_of_le (by norm_num) m0
    have k : 1 ≤ ((2:ℚ) ^ 32) ^ cs.length := one_le_pow₀ (by norm_num)
    refine ih (fun c hc => h c (List.mem_cons_of_mem _ hc)) (by norm_num at m0 ⊢; linarith) m1 fun i => ?_
    refine C156_bass hp hs (h co List.mem_cons_self) m0 ?_ hx i
    have := mul_le_mul_of_nonneg_right k (show 0 ≤ 2 ^ 32 * m by positivity)
    norm_num at this m1 ⊢; linarith

/-- A low shelf at 60 Hz with a gain of 4 and a bell at 31 Hz with a gain of 2 (at 48 kHz). -/
example : BassDesigned powiMul mmSqrt (lowShelf powiMul mmSqrt (lit 60) (lit (7 / 10)) (lit 4) (lit 48000) (fun g => !g.neg)) ∧
    BassDesigned powiMul mmSqrt (bell powiMul (lit 31) (lit (3 / 2)) (lit 2) (lit 48000) (fun g => !g.neg)) := by
  refine ⟨⟨lit 60, lit (7 / 10), lit 4, lit 48000, ?_, ?_, ?_, ?_, ?_, ?_, ?_, by simp⟩,
    ⟨lit 31, lit (3 / 2), lit 2, lit 48000, ?_, ?_, ?_, ?_, ?_, ?_, ?_, by simp⟩⟩
  all_goals first | (unfold BoostGain; decide +kernel) | decide +kernel

end Verif
