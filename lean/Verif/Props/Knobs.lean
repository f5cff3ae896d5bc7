import Verif.Props.Magnitude
import Verif.Props.DesignFloat
import Verif.Props.EnvelopeCurve

/-! # C170, C171: the knobs of the filters turn the right way

C170 is about cutoff and q, C171 about the gain of a bell. The responses are those in exact arithmetic, at every
frequency; that the cutoff in force follows the one asked for is proved for floats as well. -/

namespace Verif
open Butterworth

section
variable {powi : ℝ → ℕ → ℝ} {fc fc' q q' gain sr : ℝ}

theorem warp_mono (hp : PowiExact powi) (hsr : 0 < sr) (h : fc ≤ fc') : warp powi fc sr ≤ warp powi fc' sr := by
  have hpi : (0:ℝ) < lit FMath.piQ := by
    show (0:ℝ) < ((FMath.piQ : ℚ) : ℝ)
    exact_mod_cast (by norm_num [FMath.piQ] : (0:ℚ) < FMath.piQ)
  unfold warp
  exact (C55_odd_increasing hp).2.monotone (div_le_div_of_nonneg_right (mul_le_mul_of_nonneg_left h hpi.le) hsr.le)

theorem warp_strict (hp : PowiExact powi) (hsr : 0 < sr) (h : fc < fc') : warp powi fc sr < warp powi fc' sr := by
  have hpi : (0:ℝ) < lit FMath.piQ := by
    show (0:ℝ) < ((FMath.piQ : ℚ) : ℝ)
    exact_mod_cast (by norm_num [FMath.piQ] : (0:ℚ) < FMath.piQ)
  unfold warp
  exact (C55_odd_increasing hp).2 (div_lt_div_of_pos_right (mul_lt_mul_of_pos_left h hpi) hsr)

/-! ## cutoff -/

/-- C170: without resonance, turning the cutoff up makes a low-pass louder and a high-pass quieter, at every frequency. -/
theorem C170_cutoff (hp : PowiExact powi) (hfc : 0 < fc) (hq : 0 < q) (hsr : 0 < sr) (hr : q ^ 2 ≤ 1 / 2) (h : fc ≤ fc') {z : ℂ}
    (hz : ‖z‖ = 1) :
    ‖(lowpass powi fc q sr).cgain z‖ ≤ ‖(lowpass powi fc' q sr).cgain z‖ ∧
    ‖(highpass powi fc' q sr).cgain z‖ ≤ ‖(highpass powi fc q sr).cgain z‖ := by
  obtain ⟨p1, e1⟩ := lowpass_magnitude hp hfc hq hsr hz
  obtain ⟨p2, e2⟩ := lowpass_magnitude hp (hfc.trans_le h) hq hsr hz
  obtain ⟨-, e3⟩ := highpass_magnitude hp hfc hq hsr hz
  obtain ⟨-, e4⟩ := highpass_magnitude hp (hfc.trans_le h) hq hsr hz
  obtain ⟨u, v⟩ := re_range hz
  have k0 := warp_pos hp hfc hsr
  have hk : warp powi fc sr ^ 2 ≤ warp powi fc' sr ^ 2 := pow_le_pow_left₀ k0.le (warp_mono hp hsr h) 2
  have k2 : 0 < warp powi fc sr ^ 2 := by positivity
  obtain ⟨s, hs⟩ : ∃ s, s = 1 / q ^ 2 := ⟨_, rfl⟩
  have s2 : 2 ≤ s := by rw [hs, le_div_iff₀ (by positivity)]; linarith
  rw [show (warp powi fc sr / q) ^ 2 = warp powi fc sr ^ 2 * s by rw [hs]; ring] at p1 e1 e3
  rw [show (warp powi fc' sr / q) ^ 2 = warp powi fc' sr ^ 2 * s by rw [hs]; ring] at p2 e2 e4
  generalize warp powi fc sr ^ 2 = K at *
  generalize warp powi fc' sr ^ 2 = L at *
  generalize 1 - z.re = a at *
  generalize 1 + z.re = b at *
  have hL : 0 < L := k2.trans_le hk
  have hsq : K ^ 2 ≤ L ^ 2 := pow_le_pow_left₀ k2.le hk 2
  constructor <;> apply norm_le_of_sq
  · rw [e1, e2, div_le_div_iff₀ p1 p2]
    have t1 : 0 ≤ b ^ 2 * a ^ 2 * (L ^ 2 - K ^ 2) := mul_nonneg (by positivity) (by linarith)
    have t2 : 0 ≤ (s - 2) * (K * L * (L - K) * (a * b ^ 3)) :=
      mul_nonneg (by linarith) (mul_nonneg (mul_nonneg (by positivity) (by linarith)) (mul_nonneg u (pow_nonneg v 3)))
    nlinarith
  · rw [e3, e4, div_le_div_iff₀ p2 p1]
    have t1 : 0 ≤ a ^ 2 * b ^ 2 * (L ^ 2 - K ^ 2) := mul_nonneg (by positivity) (by linarith)
    have t2 : 0 ≤ (s - 2) * ((L - K) * (a ^ 3 * b)) :=
      mul_nonneg (by linarith) (mul_nonneg (by linarith) (mul_nonneg (pow_nonneg u 3) v))
    nlinarith

/-- C170: with resonance it never does at all frequencies: the resonance of the lower cutoff is louder than what the higher
cutoff passes there. -/
theorem C170_resonant (hp : PowiExact powi) (hfc : 0 < fc) (hq : 0 < q) (hsr : 0 < sr) (hr : 1 / 2 < q ^ 2) (h : fc < fc') :
    ∃ z : ℂ, ‖z‖ = 1 ∧ ‖(lowpass powi fc' q sr).cgain z‖ < ‖(lowpass powi fc q sr).cgain z‖ := by
  have k0 := warp_pos hp hfc hsr
  have hk : warp powi fc sr ^ 2 < warp powi fc' sr ^ 2 := pow_lt_pow_left₀ (warp_strict hp hsr h) k0.le two_ne_zero
  have k2 : 0 < warp powi fc sr ^ 2 := by positivity
  obtain ⟨s, hs⟩ : ∃ s, s = 1 / q ^ 2 := ⟨_, rfl⟩
  have s0 : 0 < s := by rw [hs]; positivity
  have s2 : s < 2 := by rw [hs, div_lt_iff₀ (by positivity)]; linarith
  obtain ⟨z, hz, hre, hb⟩ := circle_point (r := warp powi fc sr ^ 2 * (1 - s / 2)) (mul_nonneg k2.le (by linarith))
  refine ⟨z, hz, ?_⟩
  obtain ⟨p1, e1⟩ := lowpass_magnitude hp hfc hq hsr hz
  obtain ⟨p2, e2⟩ := lowpass_magnitude hp (hfc.trans h) hq hsr hz
  refine (sq_lt_sq₀ (norm_nonneg _) (norm_nonneg _)).1 ?_
  rw [show (warp powi fc sr / q) ^ 2 = warp powi fc sr ^ 2 * s by rw [hs]; ring] at p1 e1
  rw [show (warp powi fc' sr / q) ^ 2 = warp powi fc' sr ^ 2 * s by rw [hs]; ring] at p2 e2
  rw [e1, e2, div_lt_div_iff₀ p2 p1, hre]
  generalize warp powi fc sr ^ 2 = K at *
  generalize warp powi fc' sr ^ 2 = L at *
  generalize 1 + z.re = b at *
  have key : 0 < (1 - s / 2) ^ 2 * K ^ 2 * (L - K) ^ 2 * b ^ 4 := by
    have : 0 < 1 - s / 2 := by linarith
    have : 0 < L - K := by linarith
    positivity
  nlinarith

/-! ## q -/

/-- C170: turning up q makes low-pass, high-pass and notch louder at every frequency, and a boosting bell quieter (it gets
narrower). -/
theorem C170_q (hp : PowiExact powi) (hfc : 0 < fc) (hq : 0 < q) (hsr : 0 < sr) (h : q ≤ q') {z : ℂ} (hz : ‖z‖ = 1) :
    ‖(lowpass powi fc q sr).cgain z‖ ≤ ‖(lowpass powi fc q' sr).cgain z‖ ∧
    ‖(highpass powi fc q sr).cgain z‖ ≤ ‖(highpass powi fc q' sr).cgain z‖ ∧
    ‖(notch powi fc q sr).cgain z‖ ≤ ‖(notch powi fc q' sr).cgain z‖ ∧
    (1 ≤ gain → ‖(bellBoost powi fc q' gain sr).cgain z‖ ≤ ‖(bellBoost powi fc q gain sr).cgain z‖) := by
  have hq' := hq.trans_le h
  obtain ⟨p1, e1⟩ := lowpass_magnitude hp hfc hq hsr hz
  obtain ⟨p2, e2⟩ := lowpass_magnitude hp hfc hq' hsr hz
  obtain ⟨-, e3⟩ := highpass_magnitude hp hfc hq hsr hz
  obtain ⟨-, e4⟩ := highpass_magnitude hp hfc hq' hsr hz
  obtain ⟨-, e5⟩ := notch_magnitude hp hfc hq hsr hz
  obtain ⟨-, e6⟩ := notch_magnitude hp hfc hq' hsr hz
  have e7 := bellBoost_magnitude hp hfc hq hsr gain hz
  have e8 := bellBoost_magnitude hp hfc hq' hsr gain hz
  obtain ⟨u, v⟩ := re_range hz
  have k0 := warp_pos hp hfc hsr
  have hm : (warp powi fc sr / q') ^ 2 * ((1 - z.re) * (1 + z.re)) ≤ (warp powi fc sr / q) ^ 2 * ((1 - z.re) * (1 + z.re)) :=
    mul_le_mul_of_nonneg_right (pow_le_pow_left₀ (by positivity) (div_le_div_of_nonneg_left k0.le hq h) 2) (mul_nonneg u v)
  have hx := sq_nonneg (warp powi fc sr ^ 2 * (1 + z.re) - (1 - z.re))
  have hy : 0 ≤ (warp powi fc sr / q') ^ 2 * ((1 - z.re) * (1 + z.re)) := mul_nonneg (sq_nonneg _) (mul_nonneg u v)
  generalize (warp powi fc sr / q') ^ 2 * ((1 - z.re) * (1 + z.re)) = y' at *
  generalize (warp powi fc sr / q) ^ 2 * ((1 - z.re) * (1 + z.re)) = y at *
  generalize (warp powi fc sr ^ 2 * (1 + z.re) - (1 - z.re)) ^ 2 = x at *
  refine ⟨norm_le_of_sq ?_, norm_le_of_sq ?_, norm_le_of_sq ?_, fun hg => norm_le_of_sq ?_⟩
  · rw [e1, e2]; exact div_le_div_of_nonneg_left (sq_nonneg _) p2 (by linarith)
  · rw [e3, e4]; exact div_le_div_of_nonneg_left (sq_nonneg _) p2 (by linarith)
  · rw [e5, e6]; exact div_le_div_of_nonneg_left hx p2 (by linarith)
  · rw [e7, e8, div_le_div_iff₀ p2 p1]
    have : 0 ≤ (gain ^ 2 - 1) * (x * (y - y')) := mul_nonneg (by nlinarith) (mul_nonneg hx (by linarith))
    nlinarith

/-! ## gain -/

/-- C171, the full statement: turning up the gain never makes a bell quieter. -/
def C171_Full : Prop :=
  ∀ (fc q sr g g' : ℝ) (z : ℂ), 0 < fc → 0 < q → 0 < sr → g ≤ g' → ‖z‖ = 1 → ∀ pos : ℝ → Bool, (∀ x, pos x = true ↔ 0 ≤ x) →
    ‖(bell (fun x n => x ^ n) fc q g sr pos).cgain z‖ ≤ ‖(bell (fun x n => x ^ n) fc q g' sr pos).cgain z‖

/-- C171: so it is among the boosts, and among the cuts. -/
theorem C171_partial (hp : PowiExact powi) (hfc : 0 < fc) (hq : 0 < q) (hsr : 0 < sr) {pos : ℝ → Bool} (hpos : ∀ x, pos x = true ↔ 0 ≤ x)
    {g g' : ℝ} (h : g ≤ g') (hs : 0 ≤ g ∨ g' < 0) {z : ℂ} (hz : ‖z‖ = 1) :
    ‖(bell powi fc q g sr pos).cgain z‖ ≤ ‖(bell powi fc q g' sr pos).cgain z‖ := by
  obtain ⟨p1, -⟩ := notch_magnitude hp hfc hq hsr hz
  obtain ⟨u, v⟩ := re_range hz
  have hx := sq_nonneg (warp powi fc sr ^ 2 * (1 + z.re) - (1 - z.re))
  have hy : 0 ≤ (warp powi fc sr / q) ^ 2 * ((1 - z.re) * (1 + z.re)) := mul_nonneg (sq_nonneg _) (mul_nonneg u v)
  rcases hs with hg | hg
  · have a1 := (hpos g).2 hg
    have a2 := (hpos g').2 (hg.trans h)
    simp only [bell, a1, a2, if_true]
    refine norm_le_of_sq ?_
    rw [bellBoost_magnitude hp hfc hq hsr g hz, bellBoost_magnitude hp hfc hq hsr g' hz]
    refine div_le_div_of_nonneg_right ?_ p1.le
    have : g ^ 2 ≤ g' ^ 2 := pow_le_pow_left₀ hg h 2
    have := mul_le_mul_of_nonneg_right this hy
    linarith
  · have a1 : pos g = false := by rw [Bool.eq_false_iff]; intro e; have := (hpos g).1 e; linarith
    have a2 : pos g' = false := by rw [Bool.eq_false_iff]; intro e; have := (hpos g').1 e; linarith
    simp only [bell, a1, a2, Bool.false_eq_true, if_false]
    obtain ⟨q1, f1⟩ := bellCut_magnitude hp hfc hq hsr (lt_of_le_of_lt h hg) hz
    obtain ⟨q2, f2⟩ := bellCut_magnitude hp hfc hq hsr hg hz
    refine norm_le_of_sq ?_
    rw [f1, f2]
    refine div_le_div_of_nonneg_left p1.le q2 ?_
    have : g' ^ 2 ≤ g ^ 2 := by nlinarith
    have := mul_le_mul_of_nonneg_right this hy
    linarith

/-- C171 is refuted: a gain of -1 is flat, a gain of 0 takes the centre away altogether. -/
theorem C171_refuted : ¬ C171_Full := by
  intro h
  have hp : PowiExact (fun x n => x ^ n) := fun _ _ => rfl
  have k0 := warp_pos (fc := 1) (sr := 4) hp one_pos (by norm_num)
  obtain ⟨z, hz, hre, hb⟩ := circle_point (r := warp (fun x n => x ^ n) 1 4 ^ 2) (by positivity)
  have := h 1 1 4 (-1) 0 z one_pos one_pos (by norm_num) (by norm_num) hz (fun x => decide (0 ≤ x)) (fun x => by simp)
  have d1 : decide ((0:ℝ) ≤ -1) = false := by rw [decide_eq_false_iff_not]; norm_num
  have d2 : decide ((0:ℝ) ≤ 0) = true := by simp
  simp only [bell, d1, d2, if_true, Bool.false_eq_true, if_false] at this
  have e1 := (bellCut_magnitude (q := 1) (gain := -1) hp (fc := 1) (sr := 4) one_pos one_pos (by norm_num) (by norm_num) hz)
  have e2 := bellBoost_magnitude (q := 1) hp (fc := 1) (sr := 4) one_pos one_pos (by norm_num) 0 hz
  have s := pow_le_pow_left₀ (norm_nonneg _) this 2
  rw [e1.2, e2, hre] at s
  rw [neg_one_sq, one_mul] at s
  have e3 := e1.1
  rw [neg_one_sq, one_mul, hre] at e3
  rw [div_self e3.ne', sub_self] at s
  norm_num at s

end

/-! ## the cutoff in floats -/

open F32

/-- A power that grows with its base, on `[0, 1]`, for the exponents in use. -/
def PowiMono (powi : F32 → ℕ → F32) : Prop :=
  ∀ x y n, 0 ≤ x.val → x.val ≤ y.val → y.val ≤ 1 → n ≤ 15 → (powi x n).val ≤ (powi y n).val

theorem powiMul_mono : PowiMono powiMul := by
  intro x y n h0 h1 h2 hn
  have xf : x.isFin = true := fin_of_val (by rw [abs_of_nonneg h0]; norm_num; linarith)
  have yf : y.isFin = true := fin_of_val (by rw [abs_of_nonneg (h0.trans h1)]; norm_num; linarith)
  have key : ∀ n : ℕ, n ≤ 15 → 0 ≤ (powiMul x n).val ∧ (powiMul x n).val ≤ (powiMul y n).val := by
    intro n
    induction n with
    | zero => intro _; exact ⟨by rw [powiMul, lit1_val]; norm_num, le_refl _⟩
    | succ n ih =>
      intro hn
      obtain ⟨a, b⟩ := ih (by omega)
      have f1 := (powiMul_near x n h0 (h1.trans h2) (by omega)).1
      have f2 := (powiMul_near y n (h0.trans h1) h2 (by omega)).1
      rw [powiMul, powiMul, mul_fin f1 xf, mul_fin f2 yf]
      exact ⟨rnd_val_nonneg (mul_nonneg a h0), rnd_mono (mul_le_mul b h1 h0 (a.trans b))⟩
  exact (key n hn).2

/-- Finite, not above, and both at most `2^k`. -/
structure UpTo (k : ℕ) (x y : F32) : Prop where
  l : x.isFin = true
  r : y.isFin = true
  le : x.val ≤ y.val
  bl : |x.val| ≤ 2 ^ k
  br : |y.val| ≤ 2 ^ k

theorem UpTo.add {k : ℕ} (hk : k ≤ 100) {x y u v : F32} (h : UpTo k x y) (g : UpTo k u v) : UpTo (k + 1) (x + u) (y + v) := by
  have b1 : |x.val + u.val| ≤ 2 ^ (k + 1) := by
    have := abs_add_le x.val u.val; rw [pow_succ]; linarith [h.bl, g.bl]
  have b2 : |y.val + v.val| ≤ 2 ^ (k + 1) := by
    have := abs_add_le y.val v.val; rw [pow_succ]; linarith [h.br, g.br]
  obtain ⟨f1, c1⟩ := rnd_pow_bound (s := x.neg && u.neg) (k := k + 1) (by omega) b1
  obtain ⟨f2, c2⟩ := rnd_pow_bound (s := y.neg && v.neg) (k := k + 1) (by omega) b2
  rw [← add_fin h.l g.l] at f1 c1
  rw [← add_fin h.r g.r] at f2 c2
  refine ⟨f1, f2, ?_, c1, c2⟩
  rw [add_fin h.l g.l, add_fin h.r g.r]; exact rnd_mono (add_le_add h.le g.le)

theorem UpTo.scale {k : ℕ} (hk : k ≤ 100) {x y c : F32} (h : UpTo k x y) (cf : c.isFin = true) (c0 : 0 ≤ c.val) (c1 : c.val ≤ 1) :
    UpTo k (c * x) (c * y) := by
  have b : ∀ z : F32, |z.val| ≤ 2 ^ k → |c.val * z.val| ≤ 2 ^ k := fun z hz => by
    rw [abs_mul, abs_of_nonneg c0]
    exact (mul_le_of_le_one_left (abs_nonneg _) c1).trans hz
  obtain ⟨f1, d1⟩ := rnd_pow_bound (s := c.neg != x.neg) (k := k) (by omega) (b x h.bl)
  obtain ⟨f2, d2⟩ := rnd_pow_bound (s := c.neg != y.neg) (k := k) (by omega) (b y h.br)
  rw [← mul_fin cf h.l] at f1 d1
  rw [← mul_fin cf h.r] at f2 d2
  refine ⟨f1, f2, ?_, d1, d2⟩
  rw [mul_fin cf h.l, mul_fin cf h.r]; exact rnd_mono (mul_le_mul_of_nonneg_left h.le c0)

theorem UpTo.wider {k l : ℕ} (hk : k ≤ l) {x y : F32} (h : UpTo k x y) : UpTo l x y :=
  have : (2:ℚ) ^ k ≤ 2 ^ l := pow_le_pow_right₀ (by norm_num) hk
  ⟨h.l, h.r, h.le, h.bl.trans this, h.br.trans this⟩

/-- C170: in floats, `fast_tan` never falls on `[0, 1]`. -/
theorem C170_fast_tan {powi : F32 → ℕ → F32} (hp : PowiNear powi) (hm : PowiMono powi) {x y : F32} (h0 : 0 ≤ x.val)
    (h1 : x.val ≤ y.val) (h2 : y.val ≤ 1) : (FMath.fastTan powi x).val ≤ (FMath.fastTan powi y).val := by
  have xf : x.isFin = true := fin_of_val (by rw [abs_of_nonneg h0]; norm_num; linarith)
  have yf : y.isFin = true := fin_of_val (by rw [abs_of_nonneg (h0.trans h1)]; norm_num; linarith)
  have hb : ∀ z : F32, 0 ≤ z.val → z.val ≤ 1 → ∀ n ≤ 15, (powi z n).isFin = true ∧ |(powi z n).val| ≤ 2 ^ 1 := by
    intro z z0 z1 n hn
    obtain ⟨f, e⟩ := hp z n z0 z1 hn
    have p1 : z.val ^ n ≤ 1 := pow_le_one₀ z0 z1
    have p0 : 0 ≤ z.val ^ n := pow_nonneg z0 n
    refine ⟨f, ?_⟩
    generalize z.val ^ n = w at *
    norm_num at e ⊢
    obtain ⟨e1, e2⟩ := abs_le.1 e
    rw [abs_le]; constructor <;> linarith
  have pw : ∀ n ≤ 15, UpTo 1 (powi x n) (powi y n) := fun n hn =>
    ⟨(hb x h0 (h1.trans h2) n hn).1, (hb y (h0.trans h1) h2 n hn).1, hm x y n h0 h1 h2 hn, (hb x h0 (h1.trans h2) n hn).2,
      (hb y (h0.trans h1) h2 n hn).2⟩
  have s0 : UpTo 1 (lit 0) (lit 0) := ⟨lit0_fin, lit0_fin, le_refl _, by rw [lit0_val]; norm_num, by rw [lit0_val]; norm_num⟩
  have sx : UpTo 1 x y := ⟨xf, yf, h1, by rw [abs_of_nonneg h0]; norm_num; linarith, by rw [abs_of_nonneg (h0.trans h1)]; norm_num; linarith⟩
  have step : ∀ (k : ℕ) (r r' c : F32) (n : ℕ), 1 ≤ k → k ≤ 100 → n ≤ 15 → c.isFin = true ∧ 0 ≤ c.val ∧ c.val ≤ 1 → UpTo k r r' →
      UpTo (k + 1) (r + c * powi x n) (r' + c * powi y n) := fun k r r' c n hk hk' hn hc h =>
    h.add hk' (((pw n hn).scale (by norm_num) hc.1 hc.2.1 hc.2.2).wider hk)
  have r1 := s0.add (by norm_num) sx
  have r3 := step _ _ _ (lit 1 / lit 3) 3 (by norm_num) (by norm_num) (by norm_num) (by decide +kernel) r1
  have r5 := step _ _ _ (lit 2 / lit 15) 5 (by norm_num) (by norm_num) (by norm_num) (by decide +kernel) r3
  have r7 := step _ _ _ (lit 17 / lit 315) 7 (by norm_num) (by norm_num) (by norm_num) (by decide +kernel) r5
  have r9 := step _ _ _ (lit 62 / lit 2835) 9 (by norm_num) (by norm_num) (by norm_num) (by decide +kernel) r7
  have r11 := step _ _ _ (lit 1382 / lit 155925) 11 (by norm_num) (by norm_num) (by norm_num) (by decide +kernel) r9
  have r13 := step _ _ _ (lit 21844 / lit 6081075) 13 (by norm_num) (by norm_num) (by norm_num) (by decide +kernel) r11
  have r15 := step _ _ _ (lit 929569 / lit 638512875) 15 (by norm_num) (by norm_num) (by norm_num) (by decide +kernel) r13
  exact r15.le

/-- The angle `setup_coeffs` takes the tangent of. -/
theorem angle_mono {fc fc' sr sr' : F32} (f0 : 0 ≤ fc.val) (f1 : fc.val ≤ fc'.val) (f2 : fc'.val ≤ 2 ^ 30) (s0 : 1 ≤ sr'.val)
    (s1 : sr'.val ≤ sr.val) (s2 : sr.val ≤ 2 ^ 30) :
    (lit FMath.piQ * fc / sr : F32).isFin = true ∧ (lit FMath.piQ * fc' / sr' : F32).isFin = true ∧
    0 ≤ (lit FMath.piQ * fc / sr : F32).val ∧ (lit FMath.piQ * fc / sr : F32).val ≤ (lit FMath.piQ * fc' / sr' : F32).val := by
  have fin : ∀ z : F32, |z.val| ≤ 2 ^ 30 → z.isFin = true := fun z hz => fin_of_val (lt_of_le_of_lt hz (by norm_num))
  have ff := fin fc (by rw [abs_of_nonneg f0]; linarith)
  have ff' := fin fc' (by rw [abs_of_nonneg (f0.trans f1)]; linarith)
  have sf := fin sr (by rw [abs_of_nonneg (by linarith)]; linarith)
  have sf' := fin sr' (by rw [abs_of_nonneg (by linarith)]; linarith)
  obtain ⟨pf, pl, ph⟩ : (lit FMath.piQ : F32).isFin = true ∧ 0 ≤ (lit FMath.piQ : F32).val ∧ (lit FMath.piQ : F32).val ≤ 4 := by decide +kernel
  have prod : ∀ z : F32, z.isFin = true → 0 ≤ z.val → z.val ≤ 2 ^ 30 →
      (lit FMath.piQ * z : F32).isFin = true ∧ 0 ≤ (lit FMath.piQ * z : F32).val ∧ (lit FMath.piQ * z : F32).val ≤ 2 ^ 32 := fun z zf z0 z1 => by
    have b : |(lit FMath.piQ : F32).val * z.val| ≤ 2 ^ 32 := by
      rw [abs_of_nonneg (mul_nonneg pl z0)]
      calc _ ≤ (4:ℚ) * 2 ^ 30 := mul_le_mul ph z1 z0 (by norm_num)
        _ = 2 ^ 32 := by norm_num
    obtain ⟨g1, g2⟩ := rnd_pow_bound (s := (lit FMath.piQ : F32).neg != z.neg) (k := 32) (by norm_num) b
    rw [mul_fin pf zf]
    exact ⟨g1, rnd_val_nonneg (mul_nonneg pl z0), (le_abs_self _).trans g2⟩
  obtain ⟨a1, a2, a3⟩ := prod fc ff f0 (f1.trans f2)
  obtain ⟨b1, b2, b3⟩ := prod fc' ff' (f0.trans f1) f2
  have hm : (lit FMath.piQ * fc : F32).val ≤ (lit FMath.piQ * fc' : F32).val := by
    rw [mul_fin pf ff, mul_fin pf ff']; exact rnd_mono (mul_le_mul_of_nonneg_left f1 pl)
  have quo : ∀ z w : F32, z.isFin = true → 0 ≤ z.val → z.val ≤ 2 ^ 32 → w.isFin = true → 1 ≤ w.val → (z / w).isFin = true :=
    fun z w zf z0 z1 wf w1 => by
    rw [div_fin zf wf (by linarith)]
    refine (rnd_pow_bound (k := 32) (by norm_num) ?_).1
    rw [abs_of_nonneg (div_nonneg z0 (by linarith))]
    exact (div_le_self z0 w1).trans z1
  refine ⟨quo _ _ a1 a2 a3 sf (s0.trans s1), quo _ _ b1 b2 b3 sf' s0, ?_, ?_⟩
  · rw [div_fin a1 sf (by linarith)]; exact rnd_val_nonneg (div_nonneg a2 (by linarith))
  · rw [div_fin a1 sf (by linarith), div_fin b1 sf' (by linarith)]
    exact rnd_mono (div_le_div₀ b2 hm (by linarith) s1)

theorem angle_le_one {fc sr : F32} (f0 : 0 ≤ fc.val) (h : fc.val ≤ 318 / 1000 * sr.val) (s0 : 1 ≤ sr.val) (s1 : sr.val ≤ 2 ^ 30) :
    (lit FMath.piQ * fc / sr : F32).val ≤ 1 := by
  have fin : ∀ z : F32, |z.val| ≤ 2 ^ 30 → z.isFin = true := fun z hz => fin_of_val (lt_of_le_of_lt hz (by norm_num))
  have ff := fin fc (by rw [abs_of_nonneg f0]; linarith)
  have sf := fin sr (by rw [abs_of_nonneg (by linarith)]; linarith)
  obtain ⟨pf, pl, ph⟩ : (lit FMath.piQ : F32).isFin = true ∧ 0 ≤ (lit FMath.piQ : F32).val ∧ (lit FMath.piQ : F32).val ≤ 31416 / 10000 := by
    decide +kernel
  have hle : (lit FMath.piQ : F32).val * fc.val ≤ sr.val := by
    have : (lit FMath.piQ : F32).val * fc.val ≤ 31416 / 10000 * (318 / 1000 * sr.val) := mul_le_mul ph h f0 (by norm_num)
    linarith
  have hm : (lit FMath.piQ * fc : F32).val ≤ sr.val := by
    rw [mul_fin pf ff]; exact rnd_le_rep ⟨sr, sf, rfl⟩ hle
  have mf : (lit FMath.piQ * fc : F32).isFin = true := by
    rw [mul_fin pf ff]
    refine (rnd_pow_bound (k := 30) (by norm_num) ?_).1
    rw [abs_of_nonneg (mul_nonneg pl f0)]; linarith
  rw [div_fin mf sf (by linarith)]
  refine rnd_le_rep rep_one ?_
  rw [div_le_one (by linarith)]; exact hm

theorem tanQ_ge {x : ℚ} (h : 0 ≤ x) : x ≤ tanQ x := by
  unfold tanQ
  have : 0 ≤ 1/3 * x^3 + 2/15 * x^5 + 17/315 * x^7 + 62/2835 * x^9 + 1382/155925 * x^11 + 21844/6081075 * x^13 + 929569/638512875 * x^15 := by
    positivity
  linarith

theorem tanQ_le {x : ℚ} (h : 0 ≤ x) (h1 : x ≤ 1) : tanQ x ≤ 17 / 10 := by
  have p : ∀ n : ℕ, x ^ n ≤ 1 := fun n => pow_le_one₀ h h1
  unfold tanQ
  have := p 3; have := p 5; have := p 7; have := p 9; have := p 11; have := p 13; have := p 15
  linarith

/-- C170: in floats, too, a higher cutoff or a lower sample rate never tunes a filter lower, and a higher q never makes the
band wider, up to 0.318 of the sample rate; nor does any of it let a high-pass through with more gain. -/
theorem C170_floats {powi : F32 → ℕ → F32} (hp : PowiNear powi) (hm : PowiMono powi) {fc fc' q q' sr sr' : F32}
    (f0 : 1 / 2 ^ 20 ≤ fc.val) (f1 : fc.val ≤ fc'.val) (f2 : fc'.val ≤ 318 / 1000 * sr'.val) (s0 : 1 ≤ sr'.val)
    (s1 : sr'.val ≤ sr.val) (s2 : sr.val ≤ 2 ^ 30) (q0 : 1 / 2 ^ 60 ≤ q'.val) (q1 : q'.val ≤ q.val) (q2 : q.isFin = true) :
    (setupCoeffs powi fc q sr).1.val ≤ (setupCoeffs powi fc' q' sr').1.val ∧
    (setupCoeffs powi fc q sr).2.val ≤ (setupCoeffs powi fc' q' sr').2.val ∧
    (highpass powi fc' q' sr').b0.val ≤ (highpass powi fc q sr).b0.val := by
  have fp : 0 ≤ fc.val := le_trans (by norm_num) f0
  have fb : fc'.val ≤ 2 ^ 30 := by linarith
  have qp' : 0 < q'.val := lt_of_lt_of_le (by norm_num) q0
  obtain ⟨g1, g2, g3, g4⟩ := angle_mono fp f1 fb s0 s1 s2
  have g5 := angle_le_one (fp.trans f1) f2 s0 (s1.trans s2)
  have t := C170_fast_tan hp hm g3 g4 g5
  obtain ⟨n1, n2⟩ := fastTan_near hp g3 (g4.trans g5)
  obtain ⟨n3, n4⟩ := fastTan_near hp (g3.trans g4) g5
  -- the tangent is not negative and at most 2
  have lo : 1 / 2 ^ 60 ≤ (lit FMath.piQ * fc / sr : F32).val := by
    obtain ⟨pf, pl⟩ : (lit FMath.piQ : F32).isFin = true ∧ 1 ≤ (lit FMath.piQ : F32).val := by decide +kernel
    have fin : ∀ z : F32, |z.val| ≤ 2 ^ 30 → z.isFin = true := fun z hz => fin_of_val (lt_of_le_of_lt hz (by norm_num))
    have ff := fin fc (by rw [abs_of_nonneg fp]; linarith)
    have sf := fin sr (by rw [abs_of_nonneg (by linarith)]; exact s2)
    have b1 : fc.val ≤ (lit FMath.piQ * fc : F32).val := by
      rw [mul_fin pf ff]
      exact le_rnd (isFin.not_nan ff) (le_mul_of_one_le_left fp pl)
    have mf : (lit FMath.piQ * fc : F32).isFin = true := by
      rw [mul_fin pf ff]
      have ph : (lit FMath.piQ : F32).val ≤ 4 := by decide +kernel
      refine (rnd_pow_bound (k := 32) (by norm_num) ?_).1
      rw [abs_of_nonneg (mul_nonneg (by linarith) fp)]
      calc _ ≤ (4:ℚ) * 2 ^ 30 := mul_le_mul ph (f1.trans fb) fp (by norm_num)
        _ = 2 ^ 32 := by norm_num
    rw [div_fin mf sf (by linarith)]
    refine rep_le_rnd ?_ ?_
    · exact rep_of_zpow (m := 1) (e := -60) (by norm_num) (by norm_num) (by norm_num) (by norm_num)
    · rw [le_div_iff₀ (by linarith)]
      have : 1 / 2 ^ 60 * sr.val ≤ 1 / 2 ^ 60 * 2 ^ 30 := mul_le_mul_of_nonneg_left s2 (by norm_num)
      norm_num at this f0 ⊢
      linarith
  have hk0 : 0 ≤ (FMath.fastTan powi (lit FMath.piQ * fc / sr)).val := by
    have a := tanQ_ge g3
    have b := (abs_le.1 n2).1
    generalize (lit FMath.piQ * fc / sr : F32).val = x at *
    norm_num at b lo
    linarith
  have hk2 : (FMath.fastTan powi (lit FMath.piQ * fc' / sr')).val ≤ 2 := by
    have a := tanQ_le (g3.trans g4) g5
    have b := (abs_le.1 n4).2
    generalize (lit FMath.piQ * fc' / sr' : F32).val = x at *
    norm_num at b
    linarith
  have e1 : (setupCoeffs powi fc q sr) = (FMath.fastTan powi (lit FMath.piQ * fc / sr) * FMath.fastTan powi (lit FMath.piQ * fc / sr),
      FMath.fastTan powi (lit FMath.piQ * fc / sr) / q) := rfl
  have e2 : (setupCoeffs powi fc' q' sr') = (FMath.fastTan powi (lit FMath.piQ * fc' / sr') * FMath.fastTan powi (lit FMath.piQ * fc' / sr'),
      FMath.fastTan powi (lit FMath.piQ * fc' / sr') / q') := rfl
  have e3 : (highpass powi fc q sr).b0 = lit 1 / (lit 1 + (setupCoeffs powi fc q sr).2 + (setupCoeffs powi fc q sr).1) := rfl
  have e4 : (highpass powi fc' q' sr').b0 = lit 1 / (lit 1 + (setupCoeffs powi fc' q' sr').2 + (setupCoeffs powi fc' q' sr').1) := rfl
  rw [e3, e4, e1, e2]
  generalize FMath.fastTan powi (lit FMath.piQ * fc / sr) = k at *
  generalize FMath.fastTan powi (lit FMath.piQ * fc' / sr') = k' at *
  have qf' : q'.isFin = true := by
    have := fin_le_max q2
    rw [abs_of_nonneg (by linarith)] at this
    refine fin_of_val ?_
    rw [abs_of_nonneg qp'.le]
    refine lt_of_le_of_lt (q1.trans this) (by norm_num)
  have kk' : 0 ≤ k'.val := hk0.trans t
  have sq : UpTo 62 (k * k) (k' * k') := by
    have b1 : |k.val * k.val| ≤ 2 ^ 62 := by rw [abs_of_nonneg (mul_nonneg hk0 hk0)]; norm_num; nlinarith
    have b2 : |k'.val * k'.val| ≤ 2 ^ 62 := by rw [abs_of_nonneg (mul_nonneg kk' kk')]; norm_num; nlinarith
    have c1 := rnd_pow_bound (s := k.neg != k.neg) (k := 62) (by norm_num) b1
    have c2 := rnd_pow_bound (s := k'.neg != k'.neg) (k := 62) (by norm_num) b2
    rw [← mul_fin n1 n1] at c1
    rw [← mul_fin n3 n3] at c2
    refine ⟨c1.1, c2.1, ?_, c1.2, c2.2⟩
    rw [mul_fin n1 n1, mul_fin n3 n3]; exact rnd_mono (mul_le_mul t t hk0 kk')
  have qu : UpTo 61 (k / q) (k' / q') := by
    have le : k.val / q.val ≤ k'.val / q'.val := div_le_div₀ kk' t qp' q1
    have b2 : k'.val / q'.val ≤ 2 ^ 61 := by
      rw [div_le_iff₀ qp']
      have : (2:ℚ) ^ 61 * (1 / 2 ^ 60) ≤ 2 ^ 61 * q'.val := mul_le_mul_of_nonneg_left q0 (by norm_num)
      norm_num at this ⊢
      linarith
    have p1 : 0 ≤ k.val / q.val := div_nonneg hk0 (by linarith)
    have c1 := rnd_pow_bound (s := k.neg != q.neg) (k := 61) (by norm_num) (q := k.val / q.val) (by rw [abs_of_nonneg p1]; exact le.trans b2)
    have c2 := rnd_pow_bound (s := k'.neg != q'.neg) (k := 61) (by norm_num) (q := k'.val / q'.val)
      (by rw [abs_of_nonneg (p1.trans le)]; exact b2)
    rw [← div_fin n1 q2 (by linarith)] at c1
    rw [← div_fin n3 qf' qp'.ne'] at c2
    refine ⟨c1.1, c2.1, ?_, c1.2, c2.2⟩
    rw [div_fin n1 q2 (by linarith), div_fin n3 qf' qp'.ne']; exact rnd_mono le
  refine ⟨sq.le, qu.le, ?_⟩
  have one : UpTo 61 (lit 1) (lit 1) := ⟨lit1_fin, lit1_fin, le_refl _, by rw [lit1_val]; norm_num, by rw [lit1_val]; norm_num⟩
  have a0 := (one.add (by norm_num) qu).add (by norm_num) sq
  have pos : 1 ≤ (lit 1 + k / q + k * k : F32).val := by
    have z1 : 0 ≤ (k / q).val := by rw [div_fin n1 q2 (by linarith)]; exact rnd_val_nonneg (div_nonneg hk0 (by linarith))
    have z2 : 0 ≤ (k * k).val := by rw [mul_fin n1 n1]; exact rnd_val_nonneg (mul_nonneg hk0 hk0)
    have f := (one.add (by norm_num) qu).l
    have z3 : 1 ≤ (lit 1 + k / q : F32).val := by
      rw [add_fin lit1_fin qu.l]; exact rep_le_rnd rep_one (by rw [lit1_val]; linarith)
    rw [add_fin f sq.l]; exact rep_le_rnd rep_one (by linarith)
  have pos' := pos.trans a0.le
  show (lit 1 / (lit 1 + k' / q' + k' * k') : F32).val ≤ (lit 1 / (lit 1 + k / q + k * k) : F32).val
  rw [div_fin lit1_fin a0.l (by linarith), div_fin lit1_fin a0.r (by linarith), lit1_val]
  exact rnd_mono (one_div_le_one_div_of_le (by linarith) a0.le)

/-! ## examples -/

example : PowiNear powiMul ∧ PowiMono powiMul := ⟨powiMul_near, powiMul_mono⟩

/-- 1 kHz and 2 kHz at 48 kHz. -/
example : (setupCoeffs powiMul (lit 1000) (lit 1) (lit 48000)).1.val < (setupCoeffs powiMul (lit 2000) (lit 1) (lit 48000)).1.val ∧
    (highpass powiMul (lit 2000) (lit 1) (lit 48000)).b0.val < (highpass powiMul (lit 1000) (lit 1) (lit 48000)).b0.val := by
  decide +kernel

example : (1:ℝ) / 2 < (1:ℝ) ^ 2 ∧ ((1:ℝ) / 2) ^ 2 ≤ 1 / 2 := by norm_num

end Verif
