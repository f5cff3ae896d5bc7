import Verif.Props.EnvelopeCurve

/-! # C176: an envelope does not click -/

namespace Verif
open F32 AudioRateADSR

/-- A power with exponent `p` that changes by at most `W` when its base grows by at most `h`, starting with 0 at 0. -/
structure PowfSteps (powf : F32 → F32 → F32) (p : F32) (h W : ℚ) : Prop where
  start : ∀ t : F32, t.isFin = true → 0 ≤ t.val → t.val ≤ h → (powf t p).val ≤ W
  step : ∀ t t' : F32, t.isFin = true → t'.isFin = true → 0 ≤ t.val → t.val < 1 → t.val ≤ t'.val → t'.val ≤ t.val + h →
    |(powf t' p).val - (powf t p).val| ≤ W

/-- Reached from `e0` by gates and ticks only, with the samples returned on the way; `free` says whether the gate may be
opened at any time or only when the envelope is idle. -/
inductive Gated (powf : F32 → F32 → F32) (free : Prop) (e0 : AudioRateADSR) : AudioRateADSR → List F32 → Prop
  | start : Gated powf free e0 e0 []
  | on {e xs} : Gated powf free e0 e xs → (free ∨ e.state = .idle) → Gated powf free e0 e.triggerOn xs
  | off {e xs} : Gated powf free e0 e xs → Gated powf free e0 e.triggerOff xs
  | tick {e xs} : Gated powf free e0 e xs → Gated powf free e0 (e.tick powf).1 (xs ++ [(e.tick powf).2])

/-- An envelope just made, with times of at least one sample and a slope of at most 20. -/
def FreshModerate (e : AudioRateADSR) : Prop :=
  ∃ a d s r sl sr, AtLeastOneSample a sr ∧ AtLeastOneSample d sr ∧ s.isNaN = false ∧ AtLeastOneSample r sr ∧
    Pos sl ∧ sl.val ≤ 20 ∧ sr.isFin = true ∧ 1 / 2 ≤ sr.val ∧ AudioRateADSR.new a d s r sl sr = .ok e

/-- The power at the current time `t`, as a rational, and where it may be after the next step. -/
def PowerNow (powf : F32 → F32 → F32) (p t : F32) (h W P : ℚ) : Prop :=
  0 ≤ P ∧ P < 1 ∧ ∀ t' : F32, t'.isFin = true → t.val ≤ t'.val → t'.val ≤ t.val + h → |(powf t' p).val - P| ≤ W

/-- What holds between calls: the last sample is `envelope_value`, and it is the curve of the stage at time `t`. -/
structure EnvOnCurve (powf : F32 → F32 → F32) (h W : ℚ) (e0 e : AudioRateADSR) : Prop where
  inv : EnvInv e
  attack : e.attack = e0.attack
  decay : e.decay = e0.decay
  release : e.release = e0.release
  slope : e.slope = e0.slope
  idle : e.state = .idle → e.envelopeValue.val = 0
  sus : e.state = .sustain → e.envelopeValue = e.sustain
  att : e.state = .attack → e.t.val < 1 ∧ ∃ P, PowerNow powf (lit 1 / e.slope) e.t h W P ∧ e.envelopeValue.val = P
  dec : e.state = .decay → ∃ P, PowerNow powf e.slope e.t h W P ∧
    |e.envelopeValue.val - ((1 - P) * (1 - e.sustain.val) + e.sustain.val)| ≤ 1 / 2 ^ 22
  rel : e.state = .release → ∃ P, PowerNow powf e.slope e.t h W P ∧
    |e.envelopeValue.val - (1 - P) * e.releaseVal.val| ≤ 1 / 2 ^ 22

variable {powf : F32 → F32 → F32} {h W : ℚ} {e0 e : AudioRateADSR}

theorem power_start {p t : F32} (hs : PowfSteps powf p h W) (hp : PowfModerate powf) (hn : p.isNaN = false) (h0 : 0 ≤ p.val)
    (ht : t.val = 0) : PowerNow powf p t h W 0 := by
  refine ⟨le_rfl, by norm_num, fun t' f a b => ?_⟩
  rw [ht] at a b
  have n := hp.nonneg _ _ (isFin.not_nan f) a hn h0
  rw [sub_zero, abs_of_nonneg n]
  exact hs.start t' f a (by linarith)

theorem power_at {p t : F32} (hs : PowfSteps powf p h W) (hp : PowfModerate powf) (hn : p.isNaN = false) (h0 : 0 ≤ p.val)
    (f : t.isFin = true) (t0 : 0 ≤ t.val) (t1 : t.val < 1) (w1 : (powf t p).val < 1) :
    PowerNow powf p t h W (powf t p).val :=
  ⟨hp.nonneg _ _ (isFin.not_nan f) t0 hn h0, w1, fun t' f' a b => hs.step t t' f f' t0 t1 a b⟩

/-- The time moves on by its rate, rounded. -/
theorem time_step {t r : F32} (ht : t.isFin = true ∧ 0 ≤ t.val ∧ t.val ≤ 2) (t1 : t.val < 1)
    (hr : r.isFin = true ∧ 0 ≤ r.val ∧ r.val ≤ 1) :
    (t + r).isFin = true ∧ t.val ≤ (t + r).val ∧ (t + r).val ≤ t.val + (r.val + 1 / 2 ^ 23) := by
  obtain ⟨a1, -⟩ := t_add ht hr
  have e := add_fin ht.1 hr.1
  refine ⟨a1, ?_, ?_⟩
  · rw [e]; exact rep_le_rnd (rep_val ht.1) (by linarith [hr.2.1])
  · rw [e] at a1 ⊢
    have := abs_le.1 (rnd_error a1)
    have b : |t.val + r.val| / 2 ^ 24 ≤ 2 / 2 ^ 24 :=
      div_le_div_of_nonneg_right (by rw [abs_of_nonneg (by linarith [ht.2.1, hr.2.1])]; linarith [hr.2.2]) (by positivity)
    have c : max (1 / 2 ^ 150) (|t.val + r.val| / 2 ^ 24) ≤ 1 / 2 ^ 23 := max_le (by norm_num) (by linarith)
    linarith [this.2]

theorem abs_sub_unit {x y : ℚ} (x0 : 0 ≤ x) (x1 : x ≤ 1) (y0 : 0 ≤ y) (y1 : y ≤ 1) : |x - y| ≤ 1 := by
  rw [abs_le]; constructor <;> linarith

/-- The decay formula is close to the exact one. -/
theorem decay_near {w s : F32} (hw : w.isFin = true) (w0 : 0 ≤ w.val) (w1 : w.val ≤ 1) (hs : Unit01 s) :
    |((lit 1 - w) * (lit 1 - s) + s).val - ((1 - w.val) * (1 - s.val) + s.val)| ≤ 1 / 2 ^ 22 := by
  obtain ⟨s1, s2, s3⟩ := hs
  obtain ⟨u1, u2, -, u4⟩ := one_sub_val hw w0
  obtain ⟨d1, d2, -, d4⟩ := one_sub_val (w := s) (Unit01.fin ⟨s1, s2, s3⟩) s2
  have u0 := u4 w1
  have d0 := d4 s3
  have eu : |(lit 1 - w).val - (1 - w.val)| ≤ 1 / 2 ^ 25 := by
    rw [sub_fin lit1_fin hw, lit1_val]
    exact rnd_error_unit (by rw [abs_le]; constructor <;> linarith)
  have ed : |(lit 1 - s).val - (1 - s.val)| ≤ 1 / 2 ^ 25 := by
    rw [sub_fin lit1_fin (Unit01.fin ⟨s1, s2, s3⟩), lit1_val]
    exact rnd_error_unit (by rw [abs_le]; constructor <;> linarith)
  obtain ⟨m1, -⟩ := mul_unit u1 d1 d0 d2
  have em : |((lit 1 - w) * (lit 1 - s)).val - (lit 1 - w).val * (lit 1 - s).val| ≤ 1 / 2 ^ 25 := by
    rw [mul_fin u1 d1]
    refine rnd_error_unit ?_
    rw [abs_of_nonneg (mul_nonneg u0 d0)]
    exact mul_le_one₀ u2 d0 d2
  obtain ⟨v1, -, -⟩ := decay_val hw w0 ⟨s1, s2, s3⟩
  rw [add_fin m1 (Unit01.fin ⟨s1, s2, s3⟩)] at v1 ⊢
  have ev := rnd_error v1
  generalize ((lit 1 - w) * (lit 1 - s)).val = m at *
  generalize (lit 1 - w).val = u at *
  generalize (lit 1 - s).val = d at *
  have c : max (1 / 2 ^ 150) (|m + s.val| / 2 ^ 24) ≤ 1 / 2 ^ 24 + 1 / 2 ^ 25 := by
    refine max_le (by norm_num) ?_
    rw [div_le_iff₀ (by positivity)]
    have : u * d ≤ d := mul_le_of_le_one_left d0 u2
    have p0 : 0 ≤ u * d := mul_nonneg u0 d0
    have := abs_le.1 em
    have := abs_le.1 ed
    rw [abs_le]; constructor <;> norm_num at * <;> linarith
  have em := abs_le.1 em
  have eu := abs_le.1 eu
  have ed := abs_le.1 ed
  have k1 : |u * d - (1 - w.val) * (1 - s.val)| ≤ 1 / 2 ^ 24 := by
    rw [show u * d - (1 - w.val) * (1 - s.val) = (u - (1 - w.val)) * d + (1 - w.val) * (d - (1 - s.val)) by ring]
    refine (abs_add_le _ _).trans ?_
    rw [abs_mul, abs_mul, abs_of_nonneg d0, abs_of_nonneg (by linarith : 0 ≤ 1 - w.val)]
    have a1 : |u - (1 - w.val)| * d ≤ 1 / 2 ^ 25 * 1 := mul_le_mul (abs_le.2 eu) d2 d0 (by positivity)
    have a2 : (1 - w.val) * |d - (1 - s.val)| ≤ 1 * (1 / 2 ^ 25) := mul_le_mul (by linarith) (abs_le.2 ed) (abs_nonneg _) (by norm_num)
    norm_num at a1 a2 ⊢; linarith
  have k1 := abs_le.1 k1
  have ev := abs_le.1 (ev.trans c)
  clear c v1
  rw [abs_le]
  norm_num at em k1 ev ⊢
  constructor <;> linarith [em.1, em.2, k1.1, k1.2, ev.1, ev.2]

/-- The release formula is close to the exact one. -/
theorem release_near {w r : F32} (hw : w.isFin = true) (w0 : 0 ≤ w.val) (w1 : w.val ≤ 1) (hr : Unit01 r) :
    |((lit 1 - w) * r).val - (1 - w.val) * r.val| ≤ 1 / 2 ^ 24 := by
  obtain ⟨u1, u2, -, u4⟩ := one_sub_val hw w0
  have u0 := u4 w1
  have eu : |(lit 1 - w).val - (1 - w.val)| ≤ 1 / 2 ^ 25 := by
    rw [sub_fin lit1_fin hw, lit1_val]
    exact rnd_error_unit (by rw [abs_le]; constructor <;> linarith)
  have em : |((lit 1 - w) * r).val - (lit 1 - w).val * r.val| ≤ 1 / 2 ^ 25 := by
    rw [mul_fin u1 hr.fin]
    refine rnd_error_unit ?_
    rw [abs_of_nonneg (mul_nonneg u0 hr.2.1)]
    exact mul_le_one₀ u2 hr.2.1 hr.2.2
  have k : |(lit 1 - w).val * r.val - (1 - w.val) * r.val| ≤ 1 / 2 ^ 25 * 1 := by
    rw [← sub_mul, abs_mul, abs_of_nonneg hr.2.1]
    exact mul_le_mul eu hr.2.2 hr.2.1 (by positivity)
  refine (abs_sub_le _ ((lit 1 - w).val * r.val) _).trans ((add_le_add em k).trans (by norm_num))

/-- What a tick needs to know of the settings: the two exponents and the largest rate. -/
structure StepSizes (powf : F32 → F32 → F32) (h W : ℚ) (e0 : AudioRateADSR) : Prop where
  up : PowfSteps powf (lit 1 / e0.slope) h W
  down : PowfSteps powf e0.slope h W
  attack : e0.attack.val + 1 / 2 ^ 23 ≤ h
  decay : e0.decay.val + 1 / 2 ^ 23 ≤ h
  release : e0.release.val + 1 / 2 ^ 23 ≤ h

/-- One tick: the sample returned is the new `envelope_value`, close to the old one. -/
theorem oncurve_tick (hp : PowfModerate powf) (hS : StepSizes powf h W e0) (H : EnvOnCurve powf h W e0 e) :
    EnvOnCurve powf h W e0 (e.tick powf).1 ∧ ((e.tick powf).2.val = (e.tick powf).1.envelopeValue.val) ∧
      |(e.tick powf).2.val - e.envelopeValue.val| ≤ W + 1 / 2 ^ 21 := by
  have inv := H.inv
  have inv' := (tick_inv hp inv).2
  have W0 : 0 ≤ W := by
    have f := hS.up.step (lit 0) (lit 0) lit0_fin lit0_fin (by rw [lit0_val]) (by rw [lit0_val]; norm_num) le_rfl (by
      have := hS.attack
      have a := inv.attack.2.1
      rw [H.attack] at a
      have : (0:ℚ) ≤ 1 / 2 ^ 23 := by positivity
      linarith)
    exact (abs_nonneg _).trans f
  have sn := isFin.not_nan inv.slope.1
  have s0 := inv.slope.2.1.le
  obtain ⟨i1, i2⟩ := inv_slope inv.slope.1 inv.slope.2.1
  have up : PowfSteps powf (lit 1 / e.slope) h W := by rw [H.slope]; exact hS.up
  have down : PowfSteps powf e.slope h W := by rw [H.slope]; exact hS.down
  rcases hs : e.state with _ | _ | _ | _ | _
  · rw [idle_eq hs]
    refine ⟨H, by rw [H.idle hs, lit0_val], ?_⟩
    rw [H.idle hs, lit0_val, sub_zero, abs_zero]; positivity
  · obtain ⟨t1, P, ⟨P0, P1, hP⟩, hv⟩ := H.att hs
    obtain ⟨a1, a2, a3⟩ := time_step inv.t t1 inv.attack
    have b := hP _ a1 a2 (by have := hS.attack; rw [H.attack] at a3 ⊢; linarith)
    have a0 : 0 ≤ (e.t + e.attack).val := inv.t.2.1.trans a2
    have n1 := hp.nn _ _ (isFin.not_nan a1) a0 i1 i2
    have n2 := hp.nonneg _ _ (isFin.not_nan a1) a0 i1 i2
    have bb := abs_le.1 b
    rw [attack_eq hs] at inv' ⊢
    split_ifs at inv' ⊢ with hc
    · have c1 : 1 ≤ (powf (e.t + e.attack) (lit 1 / e.slope)).val := by
        have := (le_iff.1 hc).2.2; rwa [lit1_val] at this
      refine ⟨⟨inv', H.attack, H.decay, H.release, H.slope, by simp, by simp, by simp, fun _ => ?_, by simp⟩, rfl, ?_⟩
      · refine ⟨0, power_start down hp sn s0 lit0_val, ?_⟩
        simp only [lit1_val]
        rw [show 1 - ((1 - 0) * (1 - e.sustain.val) + e.sustain.val) = 0 by ring, abs_zero]; positivity
      · rw [lit1_val, hv, abs_of_pos (by linarith)]
        have : (0:ℚ) ≤ 1 / 2 ^ 21 := by positivity
        linarith [bb.2]
    · rw [le_false (isFin.not_nan lit1_fin) n1, lit1_val] at hc
      have t2 : (e.t + e.attack).val < 1 := by
        by_contra hn
        linarith [hp.ge_one _ _ (isFin.not_nan a1) (not_lt.1 hn) i1 i2]
      refine ⟨⟨inv', H.attack, H.decay, H.release, H.slope, by simp [hs], by simp [hs], fun _ => ⟨t2, _, ?_, rfl⟩, by simp [hs],
        by simp [hs]⟩, rfl, ?_⟩
      · exact power_at up hp i1 i2 a1 a0 t2 hc
      · rw [hv]
        have : (0:ℚ) ≤ 1 / 2 ^ 21 := by positivity
        linarith
  · obtain ⟨P, ⟨P0, P1, hP⟩, hv⟩ := H.dec hs
    obtain ⟨a1, a2, a3⟩ := time_step inv.t (inv.t1 (.inl hs)) inv.decay
    have b := hP _ a1 a2 (by have := hS.decay; rw [H.decay] at a3 ⊢; linarith)
    have a0 : 0 ≤ (e.t + e.decay).val := inv.t.2.1.trans a2
    have w1 := hp.fin _ _ (isFin.not_nan a1) a0 (t_add inv.t inv.decay).2.2.1 sn s0 inv.slope.2.2
    have w0 := hp.nonneg _ _ (isFin.not_nan a1) a0 sn s0
    obtain ⟨v1, v2, v3⟩ := decay_val w1 w0 inv.sustain
    have near := fun w2 => decay_near w1 w0 w2 inv.sustain
    have bb := abs_le.1 b
    have vv := abs_le.1 hv
    have z0 := inv.sustain.2.1
    have z1 := inv.sustain.2.2
    rw [decay_eq hs] at inv' ⊢
    have wp := power_at down hp sn s0 a1 a0
    generalize hw : (powf (e.t + e.decay) e.slope).val = w at *
    generalize hvv : (lit 1 - powf (e.t + e.decay) e.slope) * (lit 1 - e.sustain) + e.sustain = V at *
    have ge := fun x => hp.ge_one _ _ (isFin.not_nan a1) x sn s0
    have gap : |(w - P) * (1 - e.sustain.val)| ≤ W := by
      rw [abs_mul, abs_of_nonneg (by linarith : 0 ≤ 1 - e.sustain.val)]
      exact (mul_le_of_le_one_right (abs_nonneg _) (by linarith)).trans b
    have gg := abs_le.1 gap
    split_ifs at inv' ⊢ with hc
    · refine ⟨⟨inv', H.attack, H.decay, H.release, H.slope, by simp, by simp, by simp, by simp, by simp⟩, rfl, ?_⟩
      simp only
      have hc := (le_iff.1 hc).2.2
      by_cases w2 : w ≤ 1
      · have nn := abs_le.1 (near w2)
        have : 0 ≤ (1 - w) * (1 - e.sustain.val) := mul_nonneg (by linarith) (by linarith)
        rw [abs_le]; norm_num at *; constructor <;> nlinarith
      · have k1 : 0 ≤ (1 - P) * (1 - e.sustain.val) := mul_nonneg (by linarith) (by linarith)
        have k2 : (1 - P) * (1 - e.sustain.val) ≤ (w - P) * (1 - e.sustain.val) :=
          mul_le_mul_of_nonneg_right (by linarith) (by linarith)
        rw [abs_le]; norm_num at *; constructor <;> linarith
    · rw [le_false (isFin.not_nan v1) inv.sustain.1] at hc
      have w2 : w < 1 := by by_contra hn; linarith [v3 (not_lt.1 hn)]
      have t2 : (e.t + e.decay).val < 1 := by
        by_contra hn
        have := ge (not_lt.1 hn)
        rw [hw] at this; linarith
      have nn := near w2.le
      refine ⟨⟨inv', H.attack, H.decay, H.release, H.slope, by simp [hs], by simp [hs], by simp [hs], fun _ => ⟨w, wp t2 w2, nn⟩,
        by simp [hs]⟩, rfl, ?_⟩
      have nn := abs_le.1 nn
      rw [abs_le]; norm_num at *; constructor <;> nlinarith
  · obtain ⟨P, ⟨P0, P1, hP⟩, hv⟩ := H.rel hs
    obtain ⟨a1, a2, a3⟩ := time_step inv.t (inv.t1 (.inr hs)) inv.release
    have b := hP _ a1 a2 (by have := hS.release; rw [H.release] at a3 ⊢; linarith)
    have a0 : 0 ≤ (e.t + e.release).val := inv.t.2.1.trans a2
    have w1 := hp.fin _ _ (isFin.not_nan a1) a0 (t_add inv.t inv.release).2.2.1 sn s0 inv.slope.2.2
    have w0 := hp.nonneg _ _ (isFin.not_nan a1) a0 sn s0
    obtain ⟨v1, v2, v3⟩ := release_val w1 w0 inv.rel
    have near := fun w2 => release_near w1 w0 w2 inv.rel
    have bb := abs_le.1 b
    have vv := abs_le.1 hv
    have z0 := inv.rel.2.1
    have z1 := inv.rel.2.2
    rw [release_eq hs] at inv' ⊢
    have wp := power_at down hp sn s0 a1 a0
    generalize hw : (powf (e.t + e.release) e.slope).val = w at *
    generalize hvv : (lit 1 - powf (e.t + e.release) e.slope) * e.releaseVal = V at *
    have ge := fun x => hp.ge_one _ _ (isFin.not_nan a1) x sn s0
    have gap : |(w - P) * e.releaseVal.val| ≤ W := by
      rw [abs_mul, abs_of_nonneg z0]
      exact (mul_le_of_le_one_right (abs_nonneg _) z1).trans b
    have gg := abs_le.1 gap
    split_ifs at inv' ⊢ with hc
    · refine ⟨⟨inv', H.attack, H.decay, H.release, H.slope, by simp [lit0_val], by simp, by simp, by simp, by simp⟩, rfl, ?_⟩
      simp only [lit0_val]
      have hc := (le_iff.1 hc).2.2
      rw [epsilon_val.1] at hc
      by_cases w2 : w ≤ 1
      · have nn := abs_le.1 (near w2)
        have : 0 ≤ (1 - w) * e.releaseVal.val := mul_nonneg (by linarith) z0
        rw [abs_le]; norm_num at *; constructor <;> nlinarith
      · have k1 : 0 ≤ (1 - P) * e.releaseVal.val := mul_nonneg (by linarith) z0
        have k2 : (1 - P) * e.releaseVal.val ≤ (w - P) * e.releaseVal.val :=
          mul_le_mul_of_nonneg_right (by linarith) z0
        rw [abs_le]; norm_num at *; constructor <;> linarith
    · rw [le_false (isFin.not_nan v1) (isFin.not_nan epsilon_val.2), epsilon_val.1] at hc
      have w2 : w < 1 := by
        by_contra hn
        have : (0:ℚ) < 1 / 2 ^ 23 := by positivity
        linarith [v3 (not_lt.1 hn)]
      have t2 : (e.t + e.release).val < 1 := by
        by_contra hn
        have := ge (not_lt.1 hn)
        rw [hw] at this; linarith
      have nn := near w2.le
      refine ⟨⟨inv', H.attack, H.decay, H.release, H.slope, by simp [hs], by simp [hs], by simp [hs], by simp [hs],
        fun _ => ⟨w, wp t2 w2, nn.trans (by norm_num)⟩⟩, rfl, ?_⟩
      have nn := abs_le.1 nn
      rw [abs_le]; norm_num at *; constructor <;> nlinarith
  · rw [sustain_eq hs]
    refine ⟨H, by rw [H.sus hs], ?_⟩
    rw [H.sus hs, sub_self, abs_zero]; positivity

/-- Opening the gate of an idle envelope. -/
theorem oncurve_on (hp : PowfModerate powf) (hS : StepSizes powf h W e0) (H : EnvOnCurve powf h W e0 e) (hs : e.state = .idle) :
    EnvOnCurve powf h W e0 e.triggerOn ∧ e.triggerOn.envelopeValue = e.envelopeValue := by
  have inv' := apply_on hp H.inv
  have eq : e.triggerOn = { e with state := .attack, t := lit 0 } := by simp only [triggerOn, hs]
  obtain ⟨i1, i2⟩ := inv_slope H.inv.slope.1 H.inv.slope.2.1
  have up : PowfSteps powf (lit 1 / e.slope) h W := by rw [H.slope]; exact hS.up
  rw [eq] at inv' ⊢
  refine ⟨⟨inv', H.attack, H.decay, H.release, H.slope, by simp, by simp, fun _ => ⟨by simp [lit0_val], 0, ?_, H.idle hs⟩, by simp, by simp⟩, rfl⟩
  exact power_start up hp i1 i2 lit0_val

/-- Closing the gate. -/
theorem oncurve_off (hp : PowfModerate powf) (hS : StepSizes powf h W e0) (H : EnvOnCurve powf h W e0 e) :
    EnvOnCurve powf h W e0 e.triggerOff ∧ e.triggerOff.envelopeValue = e.envelopeValue := by
  have inv' := apply_off hp H.inv
  have sn := isFin.not_nan H.inv.slope.1
  have s0 := H.inv.slope.2.1.le
  have down : PowfSteps powf e.slope h W := by rw [H.slope]; exact hS.down
  have go : e.triggerOff = { e with state := .release, releaseVal := e.envelopeValue, t := lit 0 } →
      EnvOnCurve powf h W e0 e.triggerOff ∧ e.triggerOff.envelopeValue = e.envelopeValue := by
    intro eq
    rw [eq] at inv' ⊢
    refine ⟨⟨inv', H.attack, H.decay, H.release, H.slope, by simp, by simp, by simp, by simp, fun _ => ⟨0, ?_, ?_⟩⟩, rfl⟩
    · exact power_start down hp sn s0 lit0_val
    · simp
  rcases hs : e.state with _ | _ | _ | _ | _
  · have : e.triggerOff = e := by simp only [triggerOff, hs]
    rw [this]; exact ⟨H, rfl⟩
  · exact go (by simp only [triggerOff, hs])
  · exact go (by simp only [triggerOff, hs])
  · have : e.triggerOff = e := by simp only [triggerOff, hs]
    rw [this]; exact ⟨H, rfl⟩
  · exact go (by simp only [triggerOff, hs])

/-- C176 as first stated: whatever the gate does, no two samples in a row (nor the first one and silence) differ by more
than the curve moves in one step. -/
def C176_full : Prop :=
  ∀ (powf : F32 → F32 → F32) (h W : ℚ) (e0 e : AudioRateADSR) (xs : List F32), PowfModerate powf → FreshModerate e0 →
    StepSizes powf h W e0 → Gated powf True e0 e xs →
    (lit 0 :: xs).IsChain (fun x y : F32 => |y.val - x.val| ≤ W + 1 / 2 ^ 21)

theorem fresh_oncurve (hf : FreshModerate e0) : EnvOnCurve powf h W e0 e0 ∧ e0.envelopeValue = lit 0 := by
  obtain ⟨a, d, s, r, sl, sr, h1, h2, h3, h4, h5, h6, h7, h8, hn⟩ := hf
  obtain ⟨e, hn', inv, -, hs, hv⟩ := new_inv h1 h2 h3 h4 h5 h6 h7 h8
  rw [hn] at hn'
  obtain rfl := Except.ok.inj hn'
  exact ⟨⟨inv, rfl, rfl, rfl, rfl, fun _ => by rw [hv, lit0_val], by simp [hs], by simp [hs], by simp [hs], by simp [hs]⟩, hv⟩

theorem gated_oncurve (hp : PowfModerate powf) (hf : FreshModerate e0) (hS : StepSizes powf h W e0) {xs : List F32}
    (hg : Gated powf False e0 e xs) : EnvOnCurve powf h W e0 e ∧
      ((lit 0 :: xs).getLast (by simp)).val = e.envelopeValue.val ∧
      (lit 0 :: xs).IsChain (fun x y : F32 => |y.val - x.val| ≤ W + 1 / 2 ^ 21) := by
  induction hg with
  | start => exact ⟨(fresh_oncurve hf).1, by rw [(fresh_oncurve hf (powf := powf) (h := h) (W := W)).2]; rfl, by simp⟩
  | on _ hi ih =>
    obtain ⟨a, b, c⟩ := ih
    obtain ⟨d1, d2⟩ := oncurve_on hp hS a (hi.resolve_left id)
    exact ⟨d1, by rw [b, d2], c⟩
  | off _ ih =>
    obtain ⟨a, b, c⟩ := ih
    obtain ⟨d1, d2⟩ := oncurve_off hp hS a
    exact ⟨d1, by rw [b, d2], c⟩
  | tick _ ih =>
    obtain ⟨a, b, c⟩ := ih
    obtain ⟨d1, d2, d3⟩ := oncurve_tick hp hS a
    refine ⟨d1, by simpa using d2, ?_⟩
    rw [← List.cons_append, List.isChain_append]
    refine ⟨c, by simp, fun x hx y hy => ?_⟩
    rw [List.getLast?_eq_some_getLast (by simp)] at hx
    simp only [Option.mem_def, Option.some.injEq, List.head?_cons] at hx hy
    rw [← hx, ← hy, b]
    exact d3

/-- C176, what holds: if the gate is opened only when the envelope is idle (and closed at any time), it never clicks. -/
theorem C176_partial (hp : PowfModerate powf) (hf : FreshModerate e0) (hS : StepSizes powf h W e0) {xs : List F32}
    (hg : Gated powf False e0 e xs) : (lit 0 :: xs).IsChain (fun x y : F32 => |y.val - x.val| ≤ W + 1 / 2 ^ 21) :=
  (gated_oncurve hp hf hS hg).2.2

theorem linear_steps {p : F32} {h : ℚ} : PowfSteps (fun t _ => t) p h h :=
  ⟨fun _ _ _ b => b, fun t t' _ _ _ _ a b => by rw [abs_of_nonneg (by linarith)]; linarith⟩

theorem small_sizes : StepSizes (fun t _ => t) (1 / 4 + 1 / 2 ^ 23) (1 / 4 + 1 / 2 ^ 23) smallEnv := by
  have v : (lit (1/4) : F32).val = 1 / 4 := by decide +kernel
  refine ⟨linear_steps, linear_steps, ?_, ?_, ?_⟩ <;> simp only [smallEnv, v] <;> norm_num

theorem small_fresh : FreshModerate smallEnv :=
  ⟨lit (1/2), lit (1/2), lit (1/2), lit (1/2), lit 1, lit 8, small_one, small_one, by decide +kernel, small_one,
    ⟨by decide +kernel, by decide +kernel⟩, by decide +kernel, by decide +kernel, by decide +kernel, smallEnv_new⟩

/-- C176 is false: opening the gate again during the attack makes the envelope fall back to the start of the attack. -/
theorem C176_refuted : ¬ C176_full := by
  intro H
  have g : Gated (fun t _ => t) True smallEnv _ _ :=
    ((((((Gated.start.on (.inl trivial)).tick).tick).tick).on (.inl trivial)).tick)
  have c := H _ _ _ _ _ _ powf_one small_fresh small_sizes g
  revert c
  decide +kernel

/-- What a gate opened during the attack does: the next sample is the first one of an attack, whatever the level was. -/
theorem C176_actual {e : AudioRateADSR} (hs : e.state = .attack)
    (hc : F32.le (lit 1) (powf (lit 0 + e.attack) (lit 1 / e.slope)) = false) :
    (e.triggerOn.tick powf).2 = powf (lit 0 + e.attack) (lit 1 / e.slope) := by
  have eq : e.triggerOn = { e with state := .attack, t := lit 0 } := by simp only [triggerOn, hs]
  rw [eq, attack_eq rfl]
  simp [hc]

theorem Gated.congr {free : Prop} {xs ys : List F32} (g : Gated powf free e0 e xs) (eq : xs = ys) :
    Gated powf free e0 e ys := eq ▸ g

/-- Two samples of attack, the gate closed, four samples of release: 0, 1/4, 1/2, 3/8, 1/4, 1/8, 0. -/
example : ∃ e, Gated (fun t _ => t) False smallEnv e [lit (1/4), lit (1/2), lit (3/8), lit (1/4), lit (1/8), lit 0] ∧
    e.state = .idle := by
  have g : Gated (fun t _ => t) False smallEnv _ _ :=
    (((((((Gated.start.on (.inr rfl)).tick).tick).off).tick).tick).tick).tick
  exact ⟨_, g.congr (by decide +kernel), by decide +kernel⟩

end Verif
