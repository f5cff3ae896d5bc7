import Mathlib.Analysis.Calculus.MeanValue
import Mathlib.Analysis.SpecialFunctions.Trigonometric.Deriv
import Mathlib.Analysis.Real.Pi.Bounds
import Verif.Props.Oscillators

/-! # C146: a wavetable plays the waveform it was sampled from -/

namespace Verif
open F32

/-- `W` is a waveform with slope `D`, never steeper than `L`, whose slope changes at most at rate `M`. -/
structure Smooth (W D : ℝ → ℝ) (L M : ℝ) : Prop where
  deriv : ∀ x, HasDerivAt W (D x) x
  slope : ∀ x, |D x| ≤ L
  bend : ∀ x y, |D x - D y| ≤ M * |x - y|

/-- `xs` holds one cycle of `W`, sampled at equal distances with an error of at most `ε`. -/
def SampledFrom (W : ℝ → ℝ) (ε : ℝ) (xs : List F32) : Prop :=
  ∀ k (hk : k < xs.length), xs[k].isFin = true ∧ |xs[k].val| ≤ 2 ∧ |((xs[k].val : ℚ) : ℝ) - W (k / xs.length)| ≤ ε

theorem Smooth.tangent {W D : ℝ → ℝ} {L M : ℝ} (h : Smooth W D L M) {y b : ℝ} (hyb : y ≤ b) :
    |W b - W y - (b - y) * D y| ≤ M * (b - y) ^ 2 / 2 := by
  have hf : ∀ x, HasDerivAt (fun t => W t - W y - (t - y) * D y) (D x - D y) x := fun x => by
    have h1 := ((h.deriv x).sub_const (W y)).sub (((hasDerivAt_id x).sub_const y).mul_const (D y))
    exact h1.congr_deriv (by simp)
  have hB : ∀ x, HasDerivAt (fun t => M * (t - y) ^ 2 / 2) (M * (x - y)) x := fun x => by
    have h1 := ((((hasDerivAt_id x).sub_const y).pow 2).const_mul M).div_const 2
    exact h1.congr_deriv (by simp; ring)
  have := image_norm_le_of_norm_deriv_right_le_deriv_boundary (a := y) (b := b)
    (f := fun t => W t - W y - (t - y) * D y) (f' := fun x => D x - D y)
    (fun x _ => (hf x).continuousAt.continuousWithinAt) (fun x _ => (hf x).hasDerivWithinAt)
    (B := fun t => M * (t - y) ^ 2 / 2) (B' := fun x => M * (x - y)) (by simp) hB
    (fun x hx => by
      rw [Real.norm_eq_abs]
      refine (h.bend x y).trans_eq ?_
      rw [abs_of_nonneg (by linarith [hx.1])]) (x := b) ⟨hyb, le_rfl⟩
  simpa using this

theorem Smooth.neg {W D : ℝ → ℝ} {L M : ℝ} (h : Smooth W D L M) : Smooth (fun x => W (-x)) (fun x => -D (-x)) L M where
  deriv x := by
    have h1 := (h.deriv (-x)).comp x (hasDerivAt_neg x)
    exact h1.congr_deriv (by simp)
  slope x := by rw [abs_neg]; exact h.slope _
  bend x y := by
    have := h.bend (-y) (-x)
    rw [show -y - -x = x - y by ring] at this
    rwa [show -D (-x) - -D (-y) = D (-y) - D (-x) by ring]

/-- The chord of a cell of width `w`. -/
theorem Smooth.chord {W D : ℝ → ℝ} {L M : ℝ} (h : Smooth W D L M) {a w t : ℝ} (hw : 0 ≤ w) (t0 : 0 ≤ t) (t1 : t ≤ 1) :
    |W (a + t * w) - ((1 - t) * W a + t * W (a + w))| ≤ M * w ^ 2 / 8 := by
  have hM : 0 ≤ M := by
    have := (abs_nonneg _).trans (h.bend 1 0)
    simpa using this
  have tw0 : 0 ≤ t * w := by positivity
  have tw1 : 0 ≤ (1 - t) * w := mul_nonneg (by linarith) hw
  have l := h.neg.tangent (y := -(a + t * w)) (b := -a) (by linarith)
  have r := abs_le.1 (h.tangent (y := a + t * w) (b := a + w) (by linarith))
  simp only [neg_neg] at l
  have l := abs_le.1 l
  have q : t * (1 - t) ≤ 1 / 4 := by nlinarith [sq_nonneg (t - 1 / 2)]
  have q' : M * w ^ 2 / 2 * (t * (1 - t)) ≤ M * w ^ 2 / 2 * (1 / 4) := mul_le_mul_of_nonneg_left q (by positivity)
  have t1' : 0 ≤ 1 - t := by linarith
  have l1 := mul_le_mul_of_nonneg_left l.1 t1'
  have l2 := mul_le_mul_of_nonneg_left l.2 t1'
  have r1 := mul_le_mul_of_nonneg_left r.1 t0
  have r2 := mul_le_mul_of_nonneg_left r.2 t0
  rw [abs_le]
  constructor <;> nlinarith

theorem Smooth.lipschitz {W D : ℝ → ℝ} {L M : ℝ} (h : Smooth W D L M) (x y : ℝ) : |W x - W y| ≤ L * |x - y| := by
  have := Convex.norm_image_sub_le_of_norm_hasDerivWithin_le (f := W) (f' := D) (C := L) (s := Set.univ) (x := y) (y := x)
    (fun x _ => (h.deriv x).hasDerivWithinAt) (fun x _ => by rw [Real.norm_eq_abs]; exact h.slope x) convex_univ
    (Set.mem_univ _) (Set.mem_univ _)
  simpa [Real.norm_eq_abs] using this

/-- C146: while it stays in its table (C71), a wavetable oscillator answers with the waveform the table was sampled from,
at the counted phase: within the sampling error, an eighth of the bend over the square of the table size, and rounding. -/
theorem C146_waveform {c : Cfg} {mem : Mem F32} {xs : List F32} {o : WavetableOscillator SoftPhaseAccumulator}
    (h : Views c mem o.lookupTable xs) (h2 : 2 ≤ xs.length) (hn : xs.length ≤ 2 ^ 24)
    (hp : (xs.length : ℚ) * o.acc.nextValueNormalized.2.val ≤ (xs.length - 1) * (1 - 1 / 2 ^ 24))
    {W D : ℝ → ℝ} {L M ε : ℝ} (hW : Smooth W D L M) (hxs : SampledFrom W ε xs) :
    ∃ r, o.next c mem = .ok ({ o with acc := o.acc.nextValueNormalized.1 }, r) ∧
      |((r.val : ℚ) : ℝ) - W (o.acc.nextValue.2 / 2 ^ 32)| ≤ ε + M / (8 * xs.length ^ 2) + L / 2 ^ 22 + 1 / 10 ^ 6 := by
  obtain ⟨k, hk, t, r, hr, hbl, t0, t1, herr, -, -⟩ := C71_partial h h2 hn hp
  refine ⟨r, hr, ?_⟩
  obtain ⟨af, ab, ae⟩ := hxs k (by omega)
  obtain ⟨bf, bb, be⟩ := hxs (k + 1) hk
  obtain ⟨-, hb⟩ := hbl af bf
  have hL : 0 ≤ L := (abs_nonneg _).trans (hW.slope 0)
  obtain ⟨pf, p0, p1⟩ := phase_isPhase o.acc
  have perr := phase_err o.acc
  obtain ⟨p, hpd⟩ : ∃ p, p = o.acc.nextValueNormalized.2.val := ⟨_, rfl⟩
  rw [← hpd] at herr p0 p1 perr
  obtain ⟨A, hA⟩ : ∃ A, A = xs[k].val := ⟨_, rfl⟩
  obtain ⟨B, hB⟩ : ∃ B, B = xs[k + 1].val := ⟨_, rfl⟩
  rw [← hA] at ab ae hb
  rw [← hB] at bb be hb
  obtain ⟨N, hN⟩ : ∃ N : ℕ, N = xs.length := ⟨_, rfl⟩
  rw [← hN] at herr ae be h2 ⊢
  have hN2 : (2:ℝ) ≤ N := by exact_mod_cast h2
  have hNp : (0:ℝ) < N := by linarith
  -- the blend
  have hb1 : |r.val - ((1 - t) * A + t * B)| ≤ 1 / 10 ^ 6 := by
    refine hb.trans ?_
    have := max_le ab bb
    have h3 : 3 / 2 ^ 24 * max |A| |B| ≤ 3 / 2 ^ 24 * 2 := by gcongr
    refine (add_le_add h3 le_rfl).trans (by norm_num)
  have hb2 : |(r.val : ℝ) - ((1 - t) * A + t * B)| ≤ 1 / 10 ^ 6 := by
    have := (Rat.cast_le (K := ℝ)).2 hb1
    push_cast at this; exact this
  have t0' : (0:ℝ) ≤ t := by exact_mod_cast t0
  have t1' : (t:ℝ) ≤ 1 := by exact_mod_cast t1.le
  -- the samples
  have hs : |((1 - t) * A + t * B : ℝ) - ((1 - t) * W (k / N) + t * W ((k + 1 : ℕ) / N))| ≤ ε := by
    rw [abs_le] at ae be ⊢
    constructor <;> nlinarith [ae.1, ae.2, be.1, be.2]
  -- the chord
  have hc := hW.chord (a := k / N) (w := 1 / N) (t := t) (by positivity) t0' t1'
  rw [show (k:ℝ) / N + 1 / N = (k + 1 : ℕ) / N by push_cast; ring, show M * (1 / (N:ℝ)) ^ 2 / 8 = M / (8 * N ^ 2) by
    field_simp] at hc
  -- the position
  have hpos : |(k:ℝ) / N + t * (1 / N) - o.acc.nextValue.2 / 2 ^ 32| ≤ 1 / 2 ^ 22 := by
    have e1 : |(k:ℝ) + t - N * p| ≤ N * p / 2 ^ 24 + 1 / 2 ^ 150 := by
      have := (Rat.cast_le (K := ℝ)).2 herr
      push_cast at this; exact this
    have e2 : |(p:ℝ) - o.acc.nextValue.2 / 2 ^ 32| ≤ 1 / 2 ^ 24 := by
      have := (Rat.cast_le (K := ℝ)).2 perr
      push_cast at this; exact this
    have p1' : (p:ℝ) ≤ 1 := by exact_mod_cast p1
    have e3 : |(k:ℝ) / N + t * (1 / N) - p| ≤ 1 / 2 ^ 24 + 1 / 2 ^ 150 := by
      rw [show (k:ℝ) / N + t * (1 / N) - p = (k + t - N * p) / N by field_simp, abs_div, abs_of_pos hNp, div_le_iff₀ hNp]
      refine e1.trans ?_
      have : (N:ℝ) * p ≤ N * 1 := mul_le_mul_of_nonneg_left p1' hNp.le
      have h4 : (N:ℝ) * p / 2 ^ 24 ≤ N * 1 / 2 ^ 24 := by gcongr
      nlinarith
    have := abs_add_le ((k:ℝ) / N + t * (1 / N) - p) (p - o.acc.nextValue.2 / 2 ^ 32)
    rw [show (k:ℝ) / N + t * (1 / N) - p + (p - o.acc.nextValue.2 / 2 ^ 32) = (k:ℝ) / N + t * (1 / N) - o.acc.nextValue.2 / 2 ^ 32 by ring] at this
    norm_num at this e2 e3 ⊢; linarith
  have hl : |W ((k:ℝ) / N + t * (1 / N)) - W (o.acc.nextValue.2 / 2 ^ 32)| ≤ L / 2 ^ 22 := by
    refine (hW.lipschitz _ _).trans ?_
    calc L * _ ≤ L * (1 / 2 ^ 22) := by gcongr
      _ = _ := by ring
  rw [abs_le] at hb2 hs hc hl ⊢
  constructor <;> linarith [hb2.1, hb2.2, hs.1, hs.2, hc.1, hc.2, hl.1, hl.2]

/-! ## The sine -/

theorem smooth_sine : Smooth (fun x => Real.sin (2 * Real.pi * x)) (fun x => 2 * Real.pi * Real.cos (2 * Real.pi * x))
    (2 * Real.pi) (4 * Real.pi ^ 2) where
  deriv x := by
    have h1 := ((hasDerivAt_id x).const_mul (2 * Real.pi)).sin
    exact h1.congr_deriv (by simp; ring)
  slope x := by
    have hpi := Real.pi_pos
    rw [abs_mul, abs_of_pos (by positivity)]
    exact mul_le_of_le_one_right (by positivity) (Real.abs_cos_le_one _)
  bend x y := by
    have hpi := Real.pi_pos
    rw [← mul_sub, abs_mul, abs_of_pos (by positivity)]
    have := Real.abs_cos_sub_cos_le (2 * Real.pi * x) (2 * Real.pi * y)
    rw [← mul_sub, abs_mul (2 * Real.pi), abs_of_pos (show 0 < 2 * Real.pi by positivity)] at this
    calc 2 * Real.pi * |Real.cos (2 * Real.pi * x) - Real.cos (2 * Real.pi * y)| ≤
        2 * Real.pi * (2 * Real.pi * |x - y|) := by gcongr
      _ = _ := by ring

/-- C146 for the sine: a table of `n` samples of a sine, each within half a unit in the last place, plays it within
`5/n^2` and 3 millionths. -/
theorem C146_sine {c : Cfg} {mem : Mem F32} {xs : List F32} {o : WavetableOscillator SoftPhaseAccumulator}
    (h : Views c mem o.lookupTable xs) (h2 : 2 ≤ xs.length) (hn : xs.length ≤ 2 ^ 24)
    (hp : (xs.length : ℚ) * o.acc.nextValueNormalized.2.val ≤ (xs.length - 1) * (1 - 1 / 2 ^ 24))
    (hxs : SampledFrom (fun x => Real.sin (2 * Real.pi * x)) (1 / 2 ^ 25) xs) :
    ∃ r, o.next c mem = .ok ({ o with acc := o.acc.nextValueNormalized.1 }, r) ∧
      |((r.val : ℚ) : ℝ) - Real.sin (2 * Real.pi * (o.acc.nextValue.2 / 2 ^ 32))| ≤ 5 / xs.length ^ 2 + 3 / 10 ^ 6 := by
  obtain ⟨r, hr, he⟩ := C146_waveform h h2 hn hp smooth_sine hxs
  refine ⟨r, hr, he.trans ?_⟩
  have hph := Real.pi_lt_d2
  have hpi := Real.pi_pos
  have h1 : 4 * Real.pi ^ 2 / (8 * (xs.length:ℝ) ^ 2) ≤ 5 / (xs.length:ℝ) ^ 2 := by
    have hN : (0:ℝ) < (xs.length:ℝ) ^ 2 := by
      have : (0:ℝ) < xs.length := by exact_mod_cast (by omega : 0 < xs.length)
      positivity
    rw [div_le_div_iff₀ (by positivity) hN]
    have : Real.pi ^ 2 ≤ 10 := by norm_num at hph; nlinarith
    nlinarith
  norm_num at h1 hph ⊢
  linarith

/-- The table of four samples of a sine. -/
example : SampledFrom (fun x => Real.sin (2 * Real.pi * x)) (1 / 2 ^ 25) [lit 0, lit 1, lit 0, lit (-1)] := by
  intro k hk
  have e1 : 2 * Real.pi * (1 / 4) = Real.pi / 2 := by ring
  have e2 : 2 * Real.pi * (2 / 4) = Real.pi := by ring
  have e3 : 2 * Real.pi * (3 / 4) = Real.pi / 2 + Real.pi := by ring
  have v0 : |(((lit 0 : F32).val : ℚ) : ℝ) - Real.sin (2 * Real.pi * ((0:ℕ) / (4:ℕ)))| ≤ 1 / 2 ^ 25 := by
    rw [lit0_val]; simp
  have v1 : |(((lit 1 : F32).val : ℚ) : ℝ) - Real.sin (2 * Real.pi * ((1:ℕ) / (4:ℕ)))| ≤ 1 / 2 ^ 25 := by
    rw [lit1_val]; push_cast; rw [e1]; simp
  have v2 : |(((lit 0 : F32).val : ℚ) : ℝ) - Real.sin (2 * Real.pi * ((2:ℕ) / (4:ℕ)))| ≤ 1 / 2 ^ 25 := by
    rw [lit0_val]; push_cast; rw [e2]; simp
  have v3 : |(((lit (-1) : F32).val : ℚ) : ℝ) - Real.sin (2 * Real.pi * ((3:ℕ) / (4:ℕ)))| ≤ 1 / 2 ^ 25 := by
    rw [litm1_val]; push_cast; rw [e3, Real.sin_add]; simp
  match k, hk with
  | 0, _ => exact ⟨lit0_fin, show |(lit 0 : F32).val| ≤ 2 by rw [lit0_val]; norm_num, v0⟩
  | 1, _ => exact ⟨lit1_fin, show |(lit 1 : F32).val| ≤ 2 by rw [lit1_val]; norm_num, v1⟩
  | 2, _ => exact ⟨lit0_fin, show |(lit 0 : F32).val| ≤ 2 by rw [lit0_val]; norm_num, v2⟩
  | 3, _ => exact ⟨litm1_fin, show |(lit (-1) : F32).val| ≤ 2 by rw [litm1_val]; norm_num, v3⟩

/-- An oscillator an eighth of a turn into that table. -/
example : OwnBlock Cfg.release32 (fun _ => some [lit 0, lit 1, lit 0, lit (-1)]) ⟨⟨some 0, 0⟩, 4⟩ [lit 0, lit 1, lit 0, lit (-1)] ∧
    (4 : ℚ) * ({ counter := 2 ^ 29, freq := lit 0, shift := 0, minStep := lit 0 } : SoftPhaseAccumulator).nextValueNormalized.2.val ≤
      (4 - 1) * (1 - 1 / 2 ^ 24) := ⟨⟨0, rfl, rfl, rfl, by decide⟩, by decide +kernel⟩

end Verif
