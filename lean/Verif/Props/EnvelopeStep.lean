import Verif.Props.Clicks
import Mathlib.Analysis.Convex.SpecificFunctions.Basic
import Mathlib.Analysis.MeanInequalitiesPow

/-! # C191: how far an envelope moves in one sample

C176 bounds the steps of an envelope by the steps of its power function. Here the power function is within `ε` of the real one. -/

namespace Verif
open F32 AudioRateADSR

/-- Contract of `powf` for one exponent: within `ε` of the real power for bases up to `1 + h`. -/
def PowfNear (powf : F32 → F32 → F32) (p : F32) (h : ℚ) (ε : ℝ) : Prop :=
  ∀ t : F32, t.isFin = true → 0 ≤ t.val → t.val ≤ 1 + h → |((powf t p).val : ℝ) - (t.val : ℝ) ^ (p.val : ℝ)| ≤ ε

/-- The most that `t^p` grows when `t < 1` grows by at most `h`. -/
noncomputable def curveStep (p h : ℝ) : ℝ := if p ≤ 1 then h ^ p else p * h * (1 + h) ^ (p - 1)

theorem curve_step {p h t t' : ℝ} (p0 : 0 < p) (h0 : 0 ≤ h) (t0 : 0 ≤ t) (t1 : t ≤ 1) (a : t ≤ t') (b : t' ≤ t + h) :
    0 ≤ t' ^ p - t ^ p ∧ t' ^ p - t ^ p ≤ curveStep p h := by
  have mono := Real.rpow_le_rpow t0 a p0.le
  refine ⟨by linarith, ?_⟩
  unfold curveStep
  split_ifs with hp
  · have k := Real.rpow_add_le_add_rpow t0 h0 p0.le hp
    have := Real.rpow_le_rpow (t0.trans a) b p0.le
    linarith
  · have hp := (not_le.1 hp).le
    rcases eq_or_lt_of_le (t0.trans a) with z | z
    · have : t = 0 := by linarith
      rw [← z, this, sub_self]; positivity
    · have k := one_add_mul_self_le_rpow_one_add (s := (t - t') / t') (by rw [le_div_iff₀ z]; linarith) hp
      rw [show 1 + (t - t') / t' = t / t' by field_simp; ring, Real.div_rpow t0 z.le] at k
      have zp : 0 < t' ^ p := Real.rpow_pos_of_pos z p
      rw [le_div_iff₀ zp] at k
      have e : t' ^ p = t' ^ (p - 1) * t' := by rw [← Real.rpow_add_one z.ne']; congr 1; ring
      have e2 : (1 + p * ((t - t') / t')) * t' ^ p = t' ^ p - p * (t' - t) * t' ^ (p - 1) := by
        rw [e]; field_simp; ring
      rw [e2] at k
      have c1 : t' ^ (p - 1) ≤ (1 + h) ^ (p - 1) := Real.rpow_le_rpow z.le (by linarith) (by linarith)
      have c2 : p * (t' - t) * t' ^ (p - 1) ≤ p * h * (1 + h) ^ (p - 1) :=
        mul_le_mul (mul_le_mul_of_nonneg_left (by linarith) p0.le) c1 (Real.rpow_nonneg z.le _) (by positivity)
      linarith

/-- An accurate power function moves as the real one. -/
theorem accurate_steps {powf : F32 → F32 → F32} {p : F32} {h W : ℚ} {ε : ℝ} (hn : PowfNear powf p h ε) (p0 : 0 < p.val) (h0 : 0 ≤ h)
    (hW : curveStep p.val h + 2 * ε ≤ W) : PowfSteps powf p h W := by
  have p0' : (0:ℝ) < p.val := by exact_mod_cast p0
  have h0' : (0:ℝ) ≤ h := by exact_mod_cast h0
  have ε0 : 0 ≤ ε := (abs_nonneg _).trans (hn (lit 0) lit0_fin (by rw [lit0_val]) (by rw [lit0_val]; linarith))
  have cast : ∀ {x y : ℚ}, x ≤ y → (x:ℝ) ≤ y := fun h => by exact_mod_cast h
  constructor
  · intro t f a b
    have n := abs_le.1 (hn t f a (by linarith))
    have b' := cast b
    have k := (curve_step p0' h0' le_rfl zero_le_one (show (0:ℝ) ≤ t.val by exact_mod_cast a) (by linarith)).2
    rw [Real.zero_rpow p0'.ne', sub_zero] at k
    have : ((powf t p).val : ℝ) ≤ W := by linarith
    exact_mod_cast this
  · intro t t' f f' a b c d
    have n := abs_le.1 (hn t f a (by linarith))
    have n' := abs_le.1 (hn t' f' (a.trans c) (by linarith))
    have d' := cast d
    push_cast at d'
    obtain ⟨k0, k⟩ := curve_step p0' h0' (show (0:ℝ) ≤ t.val by exact_mod_cast a) (show (t.val:ℝ) ≤ 1 by exact_mod_cast b.le) (cast c) d'
    have : |((powf t' p).val : ℝ) - (powf t p).val| ≤ W := by
      rw [abs_le]
      constructor <;> linarith
    exact_mod_cast this

theorem inv_slope_pos {s : F32} (h : s.isFin = true ∧ 0 < s.val ∧ s.val ≤ 20) : 1 / 2 ^ 5 ≤ (lit 1 / s : F32).val := by
  rw [div_fin lit1_fin h.1 h.2.1.ne', lit1_val]
  refine rep_le_rnd (rep_of_pos_pow (by norm_num)) ?_
  exact one_div_le_one_div_of_le h.2.1 (h.2.2.trans (by norm_num))

/-- C191: with a power function good to `ε`, no two samples of an envelope whose gate is opened only when it is idle differ by more than
the real curves `t^(1/slope)` and `t^slope` move in one step of the fastest stage, plus `2 ε` and rounding. -/
theorem C191_step {powf : F32 → F32 → F32} {h W : ℚ} {ε : ℝ} {e0 e : AudioRateADSR} (hp : PowfModerate powf) (hf : FreshModerate e0)
    (up : PowfNear powf (lit 1 / e0.slope) h ε) (down : PowfNear powf e0.slope h ε)
    (ha : e0.attack.val + 1 / 2 ^ 23 ≤ h) (hd : e0.decay.val + 1 / 2 ^ 23 ≤ h) (hr : e0.release.val + 1 / 2 ^ 23 ≤ h)
    (w1 : curveStep (lit 1 / e0.slope : F32).val h + 2 * ε ≤ W) (w2 : curveStep e0.slope.val h + 2 * ε ≤ W) {xs : List F32}
    (hg : Gated powf False e0 e xs) : (lit 0 :: xs).IsChain (fun x y : F32 => |y.val - x.val| ≤ W + 1 / 2 ^ 21) := by
  obtain ⟨H, -⟩ := fresh_oncurve (powf := powf) (h := h) (W := W) hf
  have inv := H.inv
  have h0 : 0 ≤ h := by
    have := inv.attack.2.1
    have : (0:ℚ) < 1 / 2 ^ 23 := by positivity
    linarith
  have i0 : 0 < (lit 1 / e0.slope : F32).val := lt_of_lt_of_le (by positivity) (inv_slope_pos inv.slope)
  exact C176_partial hp hf ⟨accurate_steps up i0 h0 w1, accurate_steps down inv.slope.2.1 h0 w2, ha, hd, hr⟩ hg

/-- C191: the first sample of an attack is the rate of the attack to the power `1/slope`. -/
theorem C191_first {powf : F32 → F32 → F32} {h : ℚ} {ε : ℝ} {e0 : AudioRateADSR} (hf : FreshModerate e0)
    (up : PowfNear powf (lit 1 / e0.slope) h ε) (h0 : 0 ≤ h) :
    |((e0.triggerOn.tick powf).2.val : ℝ) - (e0.attack.val : ℝ) ^ ((lit 1 / e0.slope : F32).val : ℝ)| ≤ ε := by
  obtain ⟨H, -⟩ := fresh_oncurve (powf := powf) (h := h) (W := 0) hf
  have inv := H.inv
  obtain ⟨a1, a2, a3⟩ := inv.attack
  have hs : e0.state = .idle := by
    obtain ⟨a, d, s, r, sl, sr, h1, h2, h3, h4, h5, h6, h7, h8, hn⟩ := hf
    obtain ⟨e, hn', -, -, hs, -⟩ := new_inv h1 h2 h3 h4 h5 h6 h7 h8
    rw [hn] at hn'
    obtain rfl := Except.ok.inj hn'
    exact hs
  have eq : e0.triggerOn = { e0 with state := .attack, t := lit 0 } := by simp only [triggerOn, hs]
  have sum : (lit 0 + e0.attack).isFin = true ∧ (lit 0 + e0.attack).val = e0.attack.val := by
    rw [add_fin lit0_fin a1, lit0_val, zero_add]
    exact ⟨(rep_val a1).rnd_fin _, (rep_val a1).rnd_val _⟩
  have n := up (lit 0 + e0.attack) sum.1 (by rw [sum.2]; exact a2) (by rw [sum.2]; linarith)
  rw [sum.2] at n
  have p0 : 0 < (lit 1 / e0.slope : F32).val := lt_of_lt_of_le (by positivity) (inv_slope_pos inv.slope)
  have le1 : (e0.attack.val : ℝ) ^ ((lit 1 / e0.slope : F32).val : ℝ) ≤ 1 :=
    Real.rpow_le_one (by exact_mod_cast a2) (by exact_mod_cast a3) (by exact_mod_cast p0.le)
  rw [eq, attack_eq rfl]
  split_ifs with hc
  · have c1 : 1 ≤ (powf (lit 0 + e0.attack) (lit 1 / e0.slope)).val := by
      have := (le_iff.1 hc).2.2; rwa [lit1_val] at this
    have c1' : (1:ℝ) ≤ (powf (lit 0 + e0.attack) (lit 1 / e0.slope)).val := by exact_mod_cast c1
    have := abs_le.1 n
    simp only [lit1_val]
    push_cast
    rw [abs_of_nonneg (by linarith)]
    linarith
  · exact n

/-- C191: an attack of slope 20 that lasts up to 65536 samples starts with a jump to more than half of full scale. -/
theorem C191_jump {powf : F32 → F32 → F32} {h : ℚ} {ε : ℝ} {e0 : AudioRateADSR} (hf : FreshModerate e0)
    (up : PowfNear powf (lit 1 / e0.slope) h ε) (h0 : 0 ≤ h) (hs : e0.slope = lit 20) (ha : 1 / 2 ^ 16 ≤ e0.attack.val) :
    9 / 16 - ε ≤ ((e0.triggerOn.tick powf).2.val : ℝ) := by
  have k := abs_le.1 (C191_first hf up h0)
  have pv : (lit 1 / lit 20 : F32).val ≤ 13 / 256 ∧ 0 ≤ (lit 1 / lit 20 : F32).val := by decide +kernel
  rw [hs] at k
  have p1 : ((lit 1 / lit 20 : F32).val : ℝ) ≤ 13 / 256 := by
    have := (Rat.cast_le (K := ℝ)).2 pv.1; push_cast at this; exact this
  have p0 : (0:ℝ) ≤ (lit 1 / lit 20 : F32).val := by exact_mod_cast pv.2
  generalize ((lit 1 / lit 20 : F32).val : ℝ) = p at *
  have a : (1:ℝ) / 2 ^ 16 ≤ e0.attack.val := by
    have := (Rat.cast_le (K := ℝ)).2 ha; push_cast at this; exact this
  have b : ((1:ℝ) / 2 ^ 16) ^ (13 / 256 : ℝ) ≤ (e0.attack.val : ℝ) ^ p :=
    (Real.rpow_le_rpow_of_exponent_ge (by positivity) (by norm_num) p1).trans (Real.rpow_le_rpow (by positivity) a p0)
  have c : (9 / 16 : ℝ) ≤ ((1:ℝ) / 2 ^ 16) ^ (13 / 256 : ℝ) := by
    refine le_of_pow_le_pow_left₀ (n := 16) (by norm_num) (Real.rpow_nonneg (by positivity) _) ?_
    rw [← Real.rpow_natCast (((1:ℝ) / 2 ^ 16) ^ (13 / 256 : ℝ)), ← Real.rpow_mul (by positivity),
      show (1:ℝ) / 2 ^ 16 = (1 / 2) ^ ((16:ℕ):ℝ) by rw [Real.rpow_natCast]; norm_num, ← Real.rpow_mul (by norm_num),
      show (((16:ℕ):ℝ) * (13 / 256 * ((16:ℕ):ℝ))) = ((13:ℕ):ℝ) by norm_num, Real.rpow_natCast]
    norm_num
  linarith [k.1]

/-- Such an envelope: one second of attack at 48000 samples a second, slope 20. -/
example : ∃ e0, FreshModerate e0 ∧ e0.slope = lit 20 ∧ 1 / 2 ^ 16 ≤ e0.attack.val := by
  have one : AtLeastOneSample (lit 1) (lit 48000) := ⟨⟨by decide +kernel, by decide +kernel⟩, by decide +kernel⟩
  obtain ⟨e0, hn⟩ : ∃ e0, AudioRateADSR.new (lit 1) (lit 1) (lit (1/2)) (lit 1) (lit 20) (lit 48000) = .ok e0 ∧ e0.slope = lit 20 ∧
      1 / 2 ^ 16 ≤ e0.attack.val := by
    have k : (match AudioRateADSR.new (lit 1) (lit 1) (lit (1/2)) (lit 1) (lit 20) (lit 48000) with
        | .ok e => decide (e.slope = lit 20) && decide (1 / 2 ^ 16 ≤ e.attack.val) | .error _ => false) = true := by decide +kernel
    rcases hn : AudioRateADSR.new (lit 1) (lit 1) (lit (1/2)) (lit 1) (lit 20) (lit 48000) with f | e0
    · rw [hn] at k; simp at k
    · rw [hn] at k
      simp only [Bool.and_eq_true, decide_eq_true_eq] at k
      exact ⟨e0, rfl, k⟩
  exact ⟨e0, ⟨lit 1, lit 1, lit (1/2), lit 1, lit 20, lit 48000, one, one, by decide +kernel, one, ⟨by decide +kernel, by decide +kernel⟩,
    by decide +kernel, by decide +kernel, by decide +kernel, hn.1⟩, hn.2⟩

/-- With slope 1 and an exact power the step is the step of the straight line. -/
example {e : AudioRateADSR} {xs : List F32} (hg : Gated (fun t _ => t) False smallEnv e xs) :
    (lit 0 :: xs).IsChain (fun x y : F32 => |y.val - x.val| ≤ (1 / 4 + 1 / 2 ^ 23) + 1 / 2 ^ 21) := by
  have v : (lit (1/4) : F32).val = 1 / 4 := by decide +kernel
  have one : (lit 1 / smallEnv.slope : F32).val = 1 ∧ smallEnv.slope.val = 1 := by decide +kernel
  have near : ∀ p : F32, p.val = 1 → PowfNear (fun t _ => t) p (1 / 4 + 1 / 2 ^ 23) 0 := by
    intro p hp t _ _ _
    rw [hp]; simp
  have cs : curveStep ((1:ℚ):ℝ) ((1 / 4 + 1 / 2 ^ 23 : ℚ) : ℝ) + 2 * 0 ≤ ((1 / 4 + 1 / 2 ^ 23 : ℚ) : ℝ) := by
    unfold curveStep; simp
  refine C191_step powf_one small_fresh (near _ one.1) (near _ one.2) ?_ ?_ ?_ (by rw [one.1]; exact cs) (by rw [one.2]; exact cs) hg <;>
    simp only [smallEnv, v] <;> norm_num

end Verif
