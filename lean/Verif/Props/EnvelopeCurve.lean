import Verif.Props.Envelope
import Verif.Spec.EnvelopeCurve

/-! # C103–C106: the samples of each stage, its duration, monotony, and which setting governs which stage -/

namespace Verif
open F32 AudioRateADSR

variable {powf : F32 → F32 → F32}

theorem ticks_snoc (n : ℕ) (e : AudioRateADSR) : ticks powf (n + 1) e =
    (((ticks powf n e).1.tick powf).1, (ticks powf n e).2 ++ [((ticks powf n e).1.tick powf).2]) := by
  induction n generalizing e with
  | zero => rfl
  | succ n ih =>
    have h : ticks powf (n + 1 + 1) e = ((ticks powf (n + 1) (e.tick powf).1).1, (e.tick powf).2 :: (ticks powf (n + 1) (e.tick powf).1).2) := rfl
    rw [h, ih]; rfl

theorem ticks_app (m n : ℕ) (e : AudioRateADSR) : (ticks powf (m + n) e).2 = (ticks powf m e).2 ++ (ticks powf n (ticks powf m e).1).2 := by
  induction m generalizing e with
  | zero => rw [Nat.zero_add]; rfl
  | succ m ih =>
    rw [show m + 1 + n = (m + n) + 1 by omega]
    show (e.tick powf).2 :: (ticks powf (m + n) (e.tick powf).1).2 = _
    rw [ih]; rfl

/-! ## C103 -/

/-- The attack, in full detail. -/
theorem attack_run {e : AudioRateADSR} (hs : e.state = .idle ∨ e.state = .attack) {n : ℕ}
    (hn : ∀ k, k < n → F32.le (lit 1) (attackCurve powf e.attack e.slope (k + 1)) = false) :
    (∃ v, (ticks powf n e.triggerOn).1 = { e with state := .attack, t := ramp e.attack n, envelopeValue := v }) ∧
    (ticks powf n e.triggerOn).2 = (List.range n).map (fun k => attackCurve powf e.attack e.slope (k + 1)) := by
  induction n with
  | zero =>
    refine ⟨⟨e.envelopeValue, ?_⟩, rfl⟩
    rcases hs with h | h <;> simp only [ticks, triggerOn, h, ramp]
  | succ n ih =>
    obtain ⟨⟨v, h1⟩, h2⟩ := ih (fun k hk => hn k (by omega))
    have h3 := hn n (by omega)
    simp only [attackCurve, ramp] at h3
    rw [ticks_snoc, h1, h2, attack_eq rfl, List.range_succ, List.map_append]
    simp only [h3, Bool.false_eq_true, if_false]
    exact ⟨⟨_, rfl⟩, rfl⟩

/-- C103: from trigger_on in Idle or Attack on, the samples are those of the attack curve, -/
theorem C103_attack {e : AudioRateADSR} (hs : e.state = .idle ∨ e.state = .attack) {n : ℕ}
    (hn : ∀ k, k < n → F32.le (lit 1) (attackCurve powf e.attack e.slope (k + 1)) = false) :
    (ticks powf n e.triggerOn).2 = (List.range n).map (fun k => attackCurve powf e.attack e.slope (k + 1)) ∧
    (ticks powf n e.triggerOn).1.state = .attack := by
  obtain ⟨⟨v, h1⟩, h2⟩ := attack_run hs hn
  exact ⟨h2, by rw [h1]⟩

theorem attack_end {e : AudioRateADSR} (hs : e.state = .idle ∨ e.state = .attack) {n : ℕ}
    (hn : ∀ k, k < n → F32.le (lit 1) (attackCurve powf e.attack e.slope (k + 1)) = false)
    (he : F32.le (lit 1) (attackCurve powf e.attack e.slope (n + 1)) = true) :
    ticks powf (n + 1) e.triggerOn = ({ e with state := .decay, t := lit 0, envelopeValue := lit 1 },
      (List.range n).map (fun k => attackCurve powf e.attack e.slope (k + 1)) ++ [lit 1]) := by
  obtain ⟨⟨v, h1⟩, h2⟩ := attack_run hs hn
  simp only [attackCurve, ramp] at he
  rw [ticks_snoc, h1, h2, attack_eq rfl]
  simp only [he, if_true]

/-- C103: ... up to the first that reaches 1, which is returned as exactly 1 and begins the decay. -/
theorem C103_attack_end {e : AudioRateADSR} (hs : e.state = .idle ∨ e.state = .attack) {n : ℕ}
    (hn : ∀ k, k < n → F32.le (lit 1) (attackCurve powf e.attack e.slope (k + 1)) = false)
    (he : F32.le (lit 1) (attackCurve powf e.attack e.slope (n + 1)) = true) :
    (ticks powf (n + 1) e.triggerOn).2 =
      (List.range n).map (fun k => attackCurve powf e.attack e.slope (k + 1)) ++ [lit 1] ∧
    (ticks powf (n + 1) e.triggerOn).1.state = .decay := by
  rw [attack_end hs hn he]; exact ⟨rfl, rfl⟩

theorem decay_run {e : AudioRateADSR} (hs : e.state = .decay) (ht : e.t = lit 0) {n : ℕ}
    (hn : ∀ k, k < n → F32.le (decayCurve powf e.decay e.slope e.sustain (k + 1)) e.sustain = false) :
    (∃ v, (ticks powf n e).1 = { e with t := ramp e.decay n, envelopeValue := v }) ∧
    (ticks powf n e).2 = (List.range n).map (fun k => decayCurve powf e.decay e.slope e.sustain (k + 1)) := by
  induction n with
  | zero => exact ⟨⟨e.envelopeValue, by simp only [ticks, ramp, ← ht]⟩, rfl⟩
  | succ n ih =>
    obtain ⟨⟨v, h1⟩, h2⟩ := ih (fun k hk => hn k (by omega))
    have h3 := hn n (by omega)
    simp only [decayCurve, ramp] at h3
    rw [ticks_snoc, h1, h2, decay_eq (e := { e with t := ramp e.decay n, envelopeValue := v }) hs, List.range_succ, List.map_append]
    simp only [h3, Bool.false_eq_true, if_false]
    exact ⟨⟨_, rfl⟩, rfl⟩

theorem decay_end {e : AudioRateADSR} (hs : e.state = .decay) (ht : e.t = lit 0) {n : ℕ}
    (hn : ∀ k, k < n → F32.le (decayCurve powf e.decay e.slope e.sustain (k + 1)) e.sustain = false)
    (he : F32.le (decayCurve powf e.decay e.slope e.sustain (n + 1)) e.sustain = true) :
    ticks powf (n + 1) e = ({ e with state := .sustain, t := ramp e.decay (n + 1), envelopeValue := e.sustain },
      (List.range n).map (fun k => decayCurve powf e.decay e.slope e.sustain (k + 1)) ++ [e.sustain]) := by
  obtain ⟨⟨v, h1⟩, h2⟩ := decay_run hs ht hn
  simp only [decayCurve, ramp] at he
  rw [ticks_snoc, h1, h2, decay_eq (e := { e with t := ramp e.decay n, envelopeValue := v }) hs]
  simp only [he, if_true, ramp]

/-- A tick that goes from attack to decay leaves the decay at its beginning. -/
theorem enters_decay {e : AudioRateADSR} (hs : e.state = .attack) (hd : (e.tick powf).1.state = .decay) :
    (e.tick powf).1 = { e with state := .decay, t := lit 0, envelopeValue := lit 1 } := by
  revert hd
  rw [attack_eq hs]
  split_ifs with hc
  · exact fun _ => rfl
  · intro h; rw [show ({ e with t := e.t + e.attack, envelopeValue := powf (e.t + e.attack) (lit 1 / e.slope) } : AudioRateADSR).state
      = e.state from rfl, hs] at h; cases h

/-- C103: once the attack has ended the samples are those of the decay curve, up to the first that is not above the sustain
level; it is returned as the sustain level. -/
theorem C103_decay {e : AudioRateADSR} (hs : e.state = .attack) (hd : (e.tick powf).1.state = .decay) {n : ℕ}
    (hn : ∀ k, k < n → F32.le (decayCurve powf e.decay e.slope e.sustain (k + 1)) e.sustain = false) :
    (ticks powf n (e.tick powf).1).2 = (List.range n).map (fun k => decayCurve powf e.decay e.slope e.sustain (k + 1)) ∧
    (ticks powf n (e.tick powf).1).1.state = .decay ∧
    (F32.le (decayCurve powf e.decay e.slope e.sustain (n + 1)) e.sustain = true →
      (ticks powf (n + 1) (e.tick powf).1).2 =
        (List.range n).map (fun k => decayCurve powf e.decay e.slope e.sustain (k + 1)) ++ [e.sustain] ∧
      (ticks powf (n + 1) (e.tick powf).1).1.state = .sustain) := by
  rw [enters_decay hs hd]
  obtain ⟨⟨v, h1⟩, h2⟩ := decay_run (e := { e with state := .decay, t := lit 0, envelopeValue := lit 1 }) rfl rfl hn
  refine ⟨h2, by rw [h1], fun he => ?_⟩
  rw [decay_end (e := { e with state := .decay, t := lit 0, envelopeValue := lit 1 }) rfl rfl hn he]
  exact ⟨rfl, rfl⟩

theorem release_run {e : AudioRateADSR} (hs : e.state = .release) (ht : e.t = lit 0) {n : ℕ}
    (hn : ∀ k, k < n → F32.le (releaseCurve powf e.release e.slope e.releaseVal (k + 1)) (lit (1 / 2 ^ 23)) = false) :
    (∃ v, (ticks powf n e).1 = { e with t := ramp e.release n, envelopeValue := v }) ∧
    (ticks powf n e).2 = (List.range n).map (fun k => releaseCurve powf e.release e.slope e.releaseVal (k + 1)) := by
  induction n with
  | zero => exact ⟨⟨e.envelopeValue, by simp only [ticks, ramp, ← ht]⟩, rfl⟩
  | succ n ih =>
    obtain ⟨⟨v, h1⟩, h2⟩ := ih (fun k hk => hn k (by omega))
    have h3 := hn n (by omega)
    simp only [releaseCurve, ramp] at h3
    rw [ticks_snoc, h1, h2, release_eq (e := { e with t := ramp e.release n, envelopeValue := v }) hs, List.range_succ, List.map_append]
    simp only [epsilon, h3, Bool.false_eq_true, if_false]
    exact ⟨⟨_, rfl⟩, rfl⟩

/-- C103: after trigger_off the samples are those of the release curve from the level reached, up to the first that is not
above 2^-23; it is returned as 0, and the envelope is idle. -/
theorem C103_release {e : AudioRateADSR} (hs : e.state = .attack ∨ e.state = .decay ∨ e.state = .sustain) {n : ℕ}
    (hn : ∀ k, k < n → F32.le (releaseCurve powf e.release e.slope e.envelopeValue (k + 1)) (lit (1 / 2 ^ 23)) = false) :
    (ticks powf n e.triggerOff).2 = (List.range n).map (fun k => releaseCurve powf e.release e.slope e.envelopeValue (k + 1)) ∧
    (ticks powf n e.triggerOff).1.state = .release ∧
    (F32.le (releaseCurve powf e.release e.slope e.envelopeValue (n + 1)) (lit (1 / 2 ^ 23)) = true →
      (ticks powf (n + 1) e.triggerOff).2 =
        (List.range n).map (fun k => releaseCurve powf e.release e.slope e.envelopeValue (k + 1)) ++ [lit 0] ∧
      (ticks powf (n + 1) e.triggerOff).1.state = .idle) := by
  have hoff : e.triggerOff = { e with state := .release, releaseVal := e.envelopeValue, t := lit 0 } := by
    rcases hs with h | h | h <;> simp only [triggerOff, h]
  rw [hoff]
  obtain ⟨⟨v, h1⟩, h2⟩ := release_run (e := { e with state := .release, releaseVal := e.envelopeValue, t := lit 0 }) rfl rfl hn
  refine ⟨h2, by rw [h1], fun he => ?_⟩
  simp only [releaseCurve, ramp] at he
  rw [ticks_snoc, h1, h2, release_eq rfl]
  simp only [epsilon, he, if_true, and_self]

theorem sustain_ticks (n : ℕ) {e : AudioRateADSR} (hs : e.state = .sustain) :
    ticks powf n e = (e, List.replicate n e.sustain) := by
  induction n with
  | zero => rfl
  | succ n ih => rw [ticks_snoc, ih, sustain_eq hs, List.replicate_succ']

theorem setTime_eq {secs sr r : F32} (h : setTimeParameter secs sr = .ok r) : r = rateOf secs sr := by
  unfold setTimeParameter at h
  unfold F32.clamp at h
  unfold rateOf
  split at h
  · rename_i hle
    injection h with h
    rw [← h]
    show _ = if F32.lt (lit 1 / (secs * sr)) (shortestTimeBase / sr) = true then shortestTimeBase / sr else
      if F32.lt F32.maxFin (lit 1 / (secs * sr)) = true then F32.maxFin else lit 1 / (secs * sr)
    by_cases hc : F32.lt (lit 1 / (secs * sr)) (shortestTimeBase / sr) = true
    · have : F32.lt F32.maxFin (shortestTimeBase / sr) = true → False := fun hl => by
        have h1 := lt_iff.1 hl; have h2 := le_iff.1 hle; linarith [h1.2.2, h2.2.2]
      simp only [hc, if_true, if_neg this]
    · simp only [if_neg hc]
  · cases h

/-- The fields set by `new`. -/
theorem new_eq {a d s r sl sr : F32} {e : AudioRateADSR} (h : AudioRateADSR.new a d s r sl sr = .ok e) :
    e = { attack := rateOf a sr, decay := rateOf d sr, sustain := limited s, release := rateOf r sr, slope := sl, t := lit 0,
          state := .idle, envelopeValue := lit 0, releaseVal := lit 0, sr := sr } := by
  unfold AudioRateADSR.new at h
  rw [clamp01_eq, ok_bind] at h
  cases hd : setTimeParameter d sr with
  | error x => rw [hd] at h; cases h
  | ok d' =>
    cases ha : setTimeParameter a sr with
    | error x => rw [hd, ok_bind, ha] at h; cases h
    | ok a' =>
      cases hr : setTimeParameter r sr with
      | error x => rw [hd, ok_bind, ha, ok_bind, hr] at h; cases h
      | ok r' =>
        rw [hd, ok_bind, ha, ok_bind, hr, ok_bind] at h
        injection h with h
        rw [← h, setTime_eq ha, setTime_eq hd, setTime_eq hr]

/-- C103: a whole cycle of a new envelope: attack, decay, sustain for as long as the gate is held, release. -/
theorem C103_cycle {a d s r sl sr : F32} {e : AudioRateADSR} (h : AudioRateADSR.new a d s r sl sr = .ok e) {m n p j : ℕ}
    (hA : ∀ k, k < m → F32.le (lit 1) (attackCurve powf (rateOf a sr) sl (k + 1)) = false)
    (hA' : F32.le (lit 1) (attackCurve powf (rateOf a sr) sl (m + 1)) = true)
    (hD : ∀ k, k < n → F32.le (decayCurve powf (rateOf d sr) sl (limited s) (k + 1)) (limited s) = false)
    (hD' : F32.le (decayCurve powf (rateOf d sr) sl (limited s) (n + 1)) (limited s) = true)
    (hR : ∀ k, k < p → F32.le (releaseCurve powf (rateOf r sr) sl (limited s) (k + 1)) (lit (1 / 2 ^ 23)) = false)
    (hR' : F32.le (releaseCurve powf (rateOf r sr) sl (limited s) (p + 1)) (lit (1 / 2 ^ 23)) = true) :
    let held := ticks powf (m + 1 + (n + 1 + j)) e.triggerOn
    held.2 = (List.range m).map (fun k => attackCurve powf (rateOf a sr) sl (k + 1)) ++ [lit 1] ++
      ((List.range n).map (fun k => decayCurve powf (rateOf d sr) sl (limited s) (k + 1)) ++ [limited s] ++
        List.replicate j (limited s)) ∧
    (ticks powf (p + 1) held.1.triggerOff).2 =
      (List.range p).map (fun k => releaseCurve powf (rateOf r sr) sl (limited s) (k + 1)) ++ [lit 0] ∧
    (ticks powf (p + 1) held.1.triggerOff).1.state = .idle := by
  intro held
  have he := new_eq h
  have h1 : ticks powf (m + 1) e.triggerOn = ({ e with state := .decay, t := lit 0, envelopeValue := lit 1 },
      (List.range m).map (fun k => attackCurve powf e.attack e.slope (k + 1)) ++ [lit 1]) :=
    attack_end (.inl (by rw [he])) (by rw [he]; exact hA) (by rw [he]; exact hA')
  have h2 : ticks powf (n + 1) { e with state := .decay, t := lit 0, envelopeValue := lit 1 } =
      ({ e with state := .sustain, t := ramp e.decay (n + 1), envelopeValue := e.sustain },
      (List.range n).map (fun k => decayCurve powf e.decay e.slope e.sustain (k + 1)) ++ [e.sustain]) :=
    decay_end (e := { e with state := .decay, t := lit 0, envelopeValue := lit 1 }) rfl rfl (by rw [he]; exact hD)
      (by rw [he]; exact hD')
  have h3 := sustain_ticks (powf := powf) j
    (e := { e with state := .sustain, t := ramp e.decay (n + 1), envelopeValue := e.sustain }) rfl
  have h4 : held.1 = { e with state := .sustain, t := ramp e.decay (n + 1), envelopeValue := e.sustain } := by
    show (ticks powf (m + 1 + (n + 1 + j)) e.triggerOn).1 = _
    rw [ticks_add, h1, ticks_add, h2, h3]
  have ea : e.attack = rateOf a sr := by rw [he]
  have ed : e.decay = rateOf d sr := by rw [he]
  have er : e.release = rateOf r sr := by rw [he]
  have es : e.sustain = limited s := by rw [he]
  have el : e.slope = sl := by rw [he]
  refine ⟨?_, ?_⟩
  · show (ticks powf (m + 1 + (n + 1 + j)) e.triggerOn).2 = _
    rw [ticks_app, h1, ticks_app, h2, h3]
    simp only [ea, ed, es, el]
  rw [h4]
  have := (C103_release (powf := powf)
    (e := { e with state := .sustain, t := ramp e.decay (n + 1), envelopeValue := e.sustain }) (.inr (.inr rfl)) (n := p)
    (by simp only [er, es, el]; exact hR)).2.2 (by simp only [er, es, el]; exact hR')
  simp only [er, es, el] at this ⊢
  exact this

-- half a second at rate 8 is four samples: 1/4, 1/2, 3/4, 1; then down to 1/2 and to 0
example : AudioRateADSR.new (lit (1/2)) (lit (1/2)) (lit (1/2)) (lit (1/2)) (lit 1) (lit 8) = .ok smallEnv ∧
    (∀ k, k < 3 → F32.le (lit 1) (attackCurve (fun t _ => t) (rateOf (lit (1/2)) (lit 8)) (lit 1) (k + 1)) = false) ∧
    F32.le (lit 1) (attackCurve (fun t _ => t) (rateOf (lit (1/2)) (lit 8)) (lit 1) (3 + 1)) = true ∧
    (∀ k, k < 3 → F32.le (decayCurve (fun t _ => t) (rateOf (lit (1/2)) (lit 8)) (lit 1) (limited (lit (1/2))) (k + 1))
      (limited (lit (1/2))) = false) ∧
    F32.le (decayCurve (fun t _ => t) (rateOf (lit (1/2)) (lit 8)) (lit 1) (limited (lit (1/2))) (3 + 1))
      (limited (lit (1/2))) = true ∧
    (∀ k, k < 3 → F32.le (releaseCurve (fun t _ => t) (rateOf (lit (1/2)) (lit 8)) (lit 1) (limited (lit (1/2))) (k + 1))
      (lit (1 / 2 ^ 23)) = false) ∧
    F32.le (releaseCurve (fun t _ => t) (rateOf (lit (1/2)) (lit 8)) (lit 1) (limited (lit (1/2))) (3 + 1))
      (lit (1 / 2 ^ 23)) = true := by
  refine ⟨smallEnv_new, ?_, ?_, ?_, ?_, ?_, ?_⟩ <;> decide +kernel

-- the sixth sample of the decay of a larger example
example : (ticks (fun t _ => t) 6 smallEnv.triggerOn).2 = [lit (1/4), lit (1/2), lit (3/4), lit 1, lit (7/8), lit (3/4)] := by
  decide +kernel

/-! ## C104 -/

theorem ramp_bounds {r : F32} (hr : r.isFin = true ∧ 0 ≤ r.val) {n : ℕ} (h : n * (r.val + 1 / 2 ^ 25) ≤ 1) : ∀ k ≤ n,
    (ramp r k).isFin = true ∧ 0 ≤ (ramp r k).val ∧ (ramp r k).val ≤ k * (r.val + 1 / 2 ^ 25) := by
  intro k
  induction k with
  | zero => intro _; exact ⟨lit0_fin, by rw [ramp, lit0_val], by rw [ramp, lit0_val]; norm_num⟩
  | succ k ih =>
    intro hk
    obtain ⟨h1, h2, h3⟩ := ih (by omega)
    have hp : 0 ≤ r.val + 1 / 2 ^ 25 := by have := hr.2; positivity
    have h4 : ((k : ℚ) + 1) * (r.val + 1 / 2 ^ 25) ≤ n * (r.val + 1 / 2 ^ 25) :=
      mul_le_mul_of_nonneg_right (by exact_mod_cast hk) hp
    have h5 : (ramp r k).val + r.val ≤ 1 := by
      have : (0:ℚ) ≤ 1 / 2 ^ 25 := by norm_num
      linarith
    have h6 : |(ramp r k).val + r.val| ≤ 1 := by rw [abs_of_nonneg (by linarith [hr.2])]; exact h5
    rw [ramp, add_fin h1 hr.1]
    have h7 := (abs_le.1 (rnd_error_unit (s := (ramp r k).neg && r.neg) h6)).2
    refine ⟨rnd_fin_of_lt (lt_of_le_of_lt h6 (by norm_num)), rnd_val_nonneg (by linarith [hr.2]), ?_⟩
    push_cast
    linarith

/-- What a ramp that has not come near 1 gives after the power. -/
theorem ramp_power (hp : PowfModerate powf) (hb : PowfBelow powf) {r s : F32} (hr : r.isFin = true ∧ 0 ≤ r.val)
    (hs : s.isNaN = false ∧ 1 / 20 ≤ s.val) {n : ℕ} (h : n * (r.val + 1 / 2 ^ 25) ≤ 1 - 1 / 2 ^ 10) {k : ℕ} (hk : k ≤ n) :
    (powf (ramp r k) s).isFin = true ∧ 0 ≤ (powf (ramp r k) s).val ∧ (powf (ramp r k) s).val ≤ 1 - 1 / 2 ^ 16 := by
  obtain ⟨h1, h2, h3⟩ := ramp_bounds hr (h.trans (by norm_num)) k hk
  have hs0 : 0 ≤ s.val := le_trans (by norm_num) hs.2
  have h4 : (ramp r k).val ≤ 1 - 1 / 2 ^ 10 := by
    refine h3.trans (le_trans (mul_le_mul_of_nonneg_right (by exact_mod_cast hk) ?_) h)
    have := hr.2; positivity
  have h5 := hb _ _ h2 h4 h1 hs.1 hs.2
  have h6 := hp.nonneg _ _ (isFin.not_nan h1) h2 hs.1 hs0
  refine ⟨?_, h6, h5⟩
  have hn := hp.nn _ _ (isFin.not_nan h1) h2 hs.1 hs0
  exact fin_of_val (by rw [abs_of_nonneg h6]; exact lt_of_le_of_lt h5 (by norm_num))

theorem pow16 : (lit (1 / 2 ^ 16) : F32).isNaN = false ∧ (lit (1 / 2 ^ 16) : F32).val = 1 / 2 ^ 16 := by decide +kernel
theorem pow6 : (lit (1 / 2 ^ 6) : F32).isNaN = false ∧ (lit (1 / 2 ^ 6) : F32).val = 1 / 2 ^ 6 := by decide +kernel
theorem pow22 : (lit (1 / 2 ^ 22) : F32).isNaN = false ∧ (lit (1 / 2 ^ 22) : F32).val = 1 / 2 ^ 22 := by decide +kernel

theorem one_sub_ge {w : F32} (hw : w.isFin = true) {y : F32} (hn : y.isNaN = false) (h : w.val ≤ 1 - y.val) :
    y.val ≤ (lit 1 - w).val := by
  rw [sub_fin lit1_fin hw, lit1_val]; exact le_rnd hn (by linarith)

theorem mul_ge22 {u d : F32} (hu : u.isFin = true) (hd : d.isFin = true) (h1 : 1 / 2 ^ 16 ≤ u.val) (h2 : 1 / 2 ^ 6 ≤ d.val) :
    1 / 2 ^ 22 ≤ (u * d).val := by
  rw [mul_fin hu hd, ← pow22.2]
  refine le_rnd pow22.1 ?_
  rw [pow22.2, show (1:ℚ) / 2 ^ 22 = 1 / 2 ^ 16 * (1 / 2 ^ 6) by norm_num]
  exact mul_le_mul h1 h2 (by norm_num) (by linarith [show (0:ℚ) ≤ 1 / 2 ^ 16 by norm_num])

theorem inv_slope_ge {sl : F32} (hs : sl.isFin = true ∧ 0 < sl.val ∧ sl.val ≤ 20) : (1:ℚ) / 20 ≤ (lit 1 / sl).val := by
  rw [div_fin lit1_fin hs.1 hs.2.1.ne', lit1_val]
  have e : (1:ℚ) / 20 ≤ (lit 1 / lit 20 : F32).val := by decide +kernel
  refine e.trans ?_
  rw [div_fin lit1_fin lit20.1 (by rw [lit20.2]; norm_num), lit1_val, lit20.2]
  exact rnd_mono (one_div_le_one_div_of_le hs.2.1 hs.2.2)

theorem attack_long (hp : PowfModerate powf) (hb : PowfBelow powf) {r sl : F32} (hr : r.isFin = true ∧ 0 ≤ r.val)
    (hs : sl.isFin = true ∧ 0 < sl.val ∧ sl.val ≤ 20) {n : ℕ} (h : n * (r.val + 1 / 2 ^ 25) ≤ 1 - 1 / 2 ^ 10) {k : ℕ} (hk : k < n) :
    F32.le (lit 1) (attackCurve powf r sl (k + 1)) = false := by
  have h1 := (ramp_power hp hb hr ⟨(inv_slope hs.1 hs.2.1).1, inv_slope_ge hs⟩ h (k := k + 1) (by omega)).2.2
  rw [Bool.eq_false_iff]
  intro hc
  have := (le_iff.1 hc).2.2
  rw [lit1_val] at this
  have e : (0:ℚ) < 1 / 2 ^ 16 := by norm_num
  unfold attackCurve at this
  linarith

theorem decay_long (hp : PowfModerate powf) (hb : PowfBelow powf) {r sl s : F32} (hr : r.isFin = true ∧ 0 ≤ r.val)
    (hs : sl.isFin = true ∧ 1 / 20 ≤ sl.val) (h0 : Unit01 s) (h1 : s.val ≤ 63 / 64) {n : ℕ}
    (h : n * (r.val + 1 / 2 ^ 25) ≤ 1 - 1 / 2 ^ 10) {k : ℕ} (hk : k < n) :
    F32.le (decayCurve powf r sl s (k + 1)) s = false := by
  obtain ⟨w1, w2, w3⟩ := ramp_power hp hb hr ⟨isFin.not_nan hs.1, hs.2⟩ h (k := k + 1) (by omega)
  obtain ⟨u1, u2, -⟩ := one_sub_val w1 w2
  obtain ⟨d1, d2, -, d4⟩ := one_sub_val h0.fin h0.2.1
  have hu := one_sub_ge w1 pow16.1 (by rw [pow16.2]; exact w3)
  have hd := one_sub_ge h0.fin pow6.1 (by rw [pow6.2]; refine h1.trans (by norm_num))
  rw [pow16.2] at hu
  rw [pow6.2] at hd
  have hm := mul_ge22 u1 d1 hu hd
  obtain ⟨m1, -⟩ := mul_unit u1 d1 (d4 h0.2.2) d2
  rw [Bool.eq_false_iff]
  intro hc
  have hle := (le_iff.1 hc).2.2
  unfold decayCurve at hle
  rw [add_fin m1 h0.fin] at hle
  have h2 : (rnd false (s.val + 1 / 2 ^ 22)).val ≤ (rnd (((lit 1 - powf (ramp r (k + 1)) sl) * (lit 1 - s)).neg && s.neg)
      (((lit 1 - powf (ramp r (k + 1)) sl) * (lit 1 - s)).val + s.val)).val := rnd_mono (by linarith)
  have h3 := (abs_le.1 (rnd_error_unit (s := false) (q := s.val + 1 / 2 ^ 22) (by
    rw [abs_of_nonneg (by linarith [h0.2.1, show (0:ℚ) ≤ 1 / 2 ^ 22 by norm_num])]
    linarith [show (63:ℚ) / 64 + 1 / 2 ^ 22 ≤ 1 by norm_num]))).1
  have h4 : (1:ℚ) / 2 ^ 25 < 1 / 2 ^ 22 := by norm_num
  linarith

theorem release_long (hp : PowfModerate powf) (hb : PowfBelow powf) {r sl v : F32} (hr : r.isFin = true ∧ 0 ≤ r.val)
    (hs : sl.isFin = true ∧ 1 / 20 ≤ sl.val) (h0 : Unit01 v) (h1 : 1 / 64 ≤ v.val) {n : ℕ}
    (h : n * (r.val + 1 / 2 ^ 25) ≤ 1 - 1 / 2 ^ 10) {k : ℕ} (hk : k < n) :
    F32.le (releaseCurve powf r sl v (k + 1)) (lit (1 / 2 ^ 23)) = false := by
  obtain ⟨w1, w2, w3⟩ := ramp_power hp hb hr ⟨isFin.not_nan hs.1, hs.2⟩ h (k := k + 1) (by omega)
  obtain ⟨u1, u2, -⟩ := one_sub_val w1 w2
  have hu := one_sub_ge w1 pow16.1 (by rw [pow16.2]; exact w3)
  rw [pow16.2] at hu
  have hm := mul_ge22 u1 h0.fin hu (le_trans (by norm_num) h1)
  rw [Bool.eq_false_iff]
  intro hc
  have hle := (le_iff.1 hc).2.2
  have he : (lit (1 / 2 ^ 23) : F32).val = 1 / 2 ^ 23 := epsilon_val.1
  rw [he] at hle
  unfold releaseCurve at hle
  have h4 : (1:ℚ) / 2 ^ 23 < 1 / 2 ^ 22 := by norm_num
  linarith

/-- Upper and lower bounds on the number of ticks, as plain arithmetic. -/
theorem rate_arith {S : ℚ} (h1 : 1 ≤ S) (h2 : S ≤ 2 ^ 17) {r : ℚ} (hr : |r - 1 / S| ≤ 1 / 2 ^ 22 * (1 / S)) :
    (∀ n : ℚ, 101 / 100 * S ≤ n → 1 ≤ n * (r - 1 / 2 ^ 25)) ∧
    (∀ n : ℚ, 0 ≤ n → n ≤ 98 / 100 * S → n * (r + 1 / 2 ^ 25) ≤ 1 - 1 / 2 ^ 10) := by
  have hS : 0 < S := by linarith
  have hSi : S * (1 / S) = 1 := by field_simp
  obtain ⟨a, b⟩ := abs_le.1 hr
  have lo : 1 - 1 / 2 ^ 22 - 1 / 2 ^ 8 ≤ S * (r - 1 / 2 ^ 25) := by
    have e1 : S * (-(1 / 2 ^ 22 * (1 / S))) ≤ S * (r - 1 / S) := mul_le_mul_of_nonneg_left a hS.le
    have e2 : S * (1 / 2 ^ 25) ≤ 2 ^ 17 * (1 / 2 ^ 25) := mul_le_mul_of_nonneg_right h2 (by norm_num)
    have e3 : S * (-(1 / 2 ^ 22 * (1 / S))) = - (1 / 2 ^ 22) := by linear_combination (-(1 / 2 ^ 22)) * hSi
    have e4 : S * (r - 1 / S) = S * r - 1 := by rw [mul_sub, hSi]
    have e5 : (2:ℚ) ^ 17 * (1 / 2 ^ 25) = 1 / 2 ^ 8 := by norm_num
    rw [mul_sub]
    linarith
  have hi : S * (r + 1 / 2 ^ 25) ≤ 1 + 1 / 2 ^ 22 + 1 / 2 ^ 8 := by
    have e1 : S * (r - 1 / S) ≤ S * (1 / 2 ^ 22 * (1 / S)) := mul_le_mul_of_nonneg_left b hS.le
    have e2 : S * (1 / 2 ^ 25) ≤ 2 ^ 17 * (1 / 2 ^ 25) := mul_le_mul_of_nonneg_right h2 (by norm_num)
    have e3 : S * (1 / 2 ^ 22 * (1 / S)) = 1 / 2 ^ 22 := by linear_combination (1 / 2 ^ 22) * hSi
    have e4 : S * (r - 1 / S) = S * r - 1 := by rw [mul_sub, hSi]
    have e5 : (2:ℚ) ^ 17 * (1 / 2 ^ 25) = 1 / 2 ^ 8 := by norm_num
    rw [mul_add]
    linarith
  have p1 : 0 ≤ r - 1 / 2 ^ 25 := by
    by_contra hn
    have := mul_neg_of_pos_of_neg hS (not_le.1 hn)
    have e : (0:ℚ) < 1 - 1 / 2 ^ 22 - 1 / 2 ^ 8 := by norm_num
    linarith
  have p2 : 0 ≤ r + 1 / 2 ^ 25 := by linarith [show (0:ℚ) ≤ 1 / 2 ^ 25 by norm_num]
  refine ⟨fun n hn => ?_, fun n _ hn => ?_⟩
  · have e := mul_le_mul_of_nonneg_right hn p1
    have e1 : (101:ℚ) / 100 * S * (r - 1 / 2 ^ 25) = 101 / 100 * (S * (r - 1 / 2 ^ 25)) := by ring
    have e2 : (1:ℚ) ≤ 101 / 100 * (1 - 1 / 2 ^ 22 - 1 / 2 ^ 8) := by norm_num
    linarith
  · have e := mul_le_mul_of_nonneg_right hn p2
    have e1 : (98:ℚ) / 100 * S * (r + 1 / 2 ^ 25) = 98 / 100 * (S * (r + 1 / 2 ^ 25)) := by ring
    have e2 : (98:ℚ) / 100 * (1 + 1 / 2 ^ 22 + 1 / 2 ^ 8) ≤ 1 - 1 / 2 ^ 10 := by norm_num
    linarith

/-- From the two bounds to the number of ticks. -/
theorem stage_duration (hp : PowfModerate powf) {S S' : EnvelopeState} (hne : S ≠ S') {rate : AudioRateADSR → F32}
    (hS : (S = .attack ∧ S' = .decay ∧ rate = AudioRateADSR.attack) ∨ (S = .decay ∧ S' = .sustain ∧ rate = AudioRateADSR.decay) ∨
      (S = .release ∧ S' = .idle ∧ rate = AudioRateADSR.release)) {e : AudioRateADSR} (hi : EnvInv e) (hs : e.state = S)
    {s : ℚ} (h1 : 1 ≤ s) (h2 : s ≤ 2 ^ 17) (hr : RateFor s (rate e))
    (hlong : ∀ n : ℕ, n * ((rate e).val + 1 / 2 ^ 25) ≤ 1 - 1 / 2 ^ 10 → (ticks powf n e).1.state = S) :
    ∃ N : ℕ, (∀ j < N, (ticks powf j e).1.state = S) ∧ (ticks powf N e).1.state = S' ∧
      98 / 100 * s ≤ N ∧ N ≤ 101 / 100 * s + 1 := by
  obtain ⟨a1, a2⟩ := rate_arith h1 h2 hr
  have hc0 : 0 < ⌈101 / 100 * s⌉₊ := Nat.ceil_pos.2 (by linarith)
  obtain ⟨n, hn⟩ : ∃ n, ⌈101 / 100 * s⌉₊ = n + 1 := ⟨_, (Nat.succ_pred_eq_of_pos hc0).symm⟩
  have hnc : (101 / 100 * s : ℚ) ≤ (n : ℚ) + 1 := by
    have := Nat.le_ceil (101 / 100 * s); rw [hn] at this; exact_mod_cast this
  have hnc2 : (n : ℚ) + 1 ≤ 101 / 100 * s + 1 := by
    have := (Nat.ceil_lt_add_one (show 0 ≤ 101 / 100 * s by linarith)).le; rw [hn] at this; exact_mod_cast this
  obtain ⟨k, hk, g0, g1, -⟩ := stage_ends hp hS n hi hs (by linarith [a1 ((n : ℚ) + 1) hnc, hi.t.2.1])
  have hkn : ((k + 1 : ℕ) : ℚ) ≤ n + 1 := by exact_mod_cast (by omega : k + 1 ≤ n + 1)
  refine ⟨k + 1, fun j hj => g0 j (by omega), g1, ?_, hkn.trans hnc2⟩
  by_contra hlt
  have := hlong (k + 1) (a2 _ (by positivity) (not_le.1 hlt).le)
  rw [this] at g1
  exact hne g1

theorem apply_on (hp : PowfModerate powf) {e : AudioRateADSR} (h : EnvInv e) : EnvInv e.triggerOn := by
  obtain ⟨e', x, h1, h2, -⟩ := apply_inv hp h (o := .on) trivial
  cases h1; exact h2

/-- C104: an attack set to `S` samples takes `S` ticks, to 2 per cent and one tick. -/
theorem C104_attack (hp : PowfModerate powf) (hb : PowfBelow powf) {e : AudioRateADSR} {xs : List F32}
    (h : ModeratelyReached powf e xs) (hs : e.state = .idle ∨ e.state = .attack) {S : ℚ} (h1 : 1 ≤ S) (h2 : S ≤ 2 ^ 17)
    (hr : RateFor S e.attack) :
    ∃ N : ℕ, (∀ j < N, (ticks powf j e.triggerOn).1.state = .attack) ∧ (ticks powf N e.triggerOn).1.state = .decay ∧
      98 / 100 * S ≤ N ∧ N ≤ 101 / 100 * S + 1 := by
  have hi := (reached_inv hp h).1
  have hon : e.triggerOn.state = .attack ∧ e.triggerOn.attack = e.attack := by
    rcases hs with h | h <;> simp only [triggerOn, h, and_self]
  refine stage_duration hp (S := .attack) (by decide) (.inl ⟨rfl, rfl, rfl⟩) (apply_on hp hi) hon.1 h1 h2 (by rw [hon.2]; exact hr)
    (fun n hn => ?_)
  rw [hon.2] at hn
  exact (C103_attack hs (fun k hk => attack_long hp hb ⟨hi.attack.1, hi.attack.2.1⟩ hi.slope hn hk)).2

/-- C104: so does a decay, if the sustain level is not above 63/64, -/
theorem C104_decay (hp : PowfModerate powf) (hb : PowfBelow powf) {e : AudioRateADSR} {xs : List F32}
    (h : ModeratelyReached powf e xs) (hs : e.state = .attack) (hd : (e.tick powf).1.state = .decay)
    (hsl : 1 / 20 ≤ e.slope.val) (hsu : e.sustain.val ≤ 63 / 64) {S : ℚ} (h1 : 1 ≤ S) (h2 : S ≤ 2 ^ 17)
    (hr : RateFor S e.decay) :
    ∃ N : ℕ, (∀ j < N, (ticks powf j (e.tick powf).1).1.state = .decay) ∧ (ticks powf N (e.tick powf).1).1.state = .sustain ∧
      98 / 100 * S ≤ N ∧ N ≤ 101 / 100 * S + 1 := by
  have hi := (reached_inv hp h).1
  have hde : (e.tick powf).1.decay = e.decay := by rw [enters_decay hs hd]
  refine stage_duration hp (S := .decay) (by decide) (.inr (.inl ⟨rfl, rfl, rfl⟩)) (tick_inv hp hi).2 hd h1 h2
    (by rw [hde]; exact hr) (fun n hn => ?_)
  rw [hde] at hn
  exact (C103_decay hs hd (fun k hk => decay_long hp hb ⟨hi.decay.1, hi.decay.2.1⟩ ⟨hi.slope.1, hsl⟩ hi.sustain hsu hn hk)).2.1

/-- C104: ... and a release, if it begins at a level of at least 1/64. -/
theorem C104_release (hp : PowfModerate powf) (hb : PowfBelow powf) {e : AudioRateADSR} {xs : List F32}
    (h : ModeratelyReached powf e xs) (hs : e.state = .attack ∨ e.state = .decay ∨ e.state = .sustain)
    (hsl : 1 / 20 ≤ e.slope.val) (hv : 1 / 64 ≤ e.envelopeValue.val) {S : ℚ} (h1 : 1 ≤ S) (h2 : S ≤ 2 ^ 17)
    (hr : RateFor S e.release) :
    ∃ N : ℕ, (∀ j < N, (ticks powf j e.triggerOff).1.state = .release) ∧ (ticks powf N e.triggerOff).1.state = .idle ∧
      98 / 100 * S ≤ N ∧ N ≤ 101 / 100 * S + 1 := by
  have hi := (reached_inv hp h).1
  have hoff : e.triggerOff.state = .release ∧ e.triggerOff.release = e.release := by
    rcases hs with h | h | h <;> simp only [triggerOff, h, and_self]
  refine stage_duration hp (S := .release) (by decide) (.inr (.inr ⟨rfl, rfl, rfl⟩)) (apply_off hp hi) hoff.1 h1 h2
    (by rw [hoff.2]; exact hr) (fun n hn => ?_)
  rw [hoff.2] at hn
  exact (C103_release hs (fun k hk => release_long hp hb ⟨hi.release.1, hi.release.2.1⟩ ⟨hi.slope.1, hsl⟩ hi.env hv hn hk)).2.1

-- four samples, at slope 1
example : PowfModerate (fun t _ => t) ∧ PowfBelow (fun t _ => t) ∧ ModeratelyReached (fun t _ => t) smallEnv [] ∧
    smallEnv.state = .idle ∧ RateFor 4 smallEnv.attack ∧ RateFor 4 smallEnv.decay ∧ RateFor 4 smallEnv.release ∧
    1 / 20 ≤ smallEnv.slope.val ∧ smallEnv.sustain.val ≤ 63 / 64 :=
  ⟨powf_one, powf_one_below, smallEnv_reached [] trivial rfl, rfl, by unfold RateFor; decide +kernel, by unfold RateFor; decide +kernel,
    by unfold RateFor; decide +kernel, by decide +kernel, by decide +kernel⟩

/-! ## C105 -/

theorem attack_stays {e : AudioRateADSR} (hs : e.state = .attack) (h : (e.tick powf).1.state = .attack) : e.tick powf =
    ({ e with t := e.t + e.attack, envelopeValue := powf (e.t + e.attack) (lit 1 / e.slope) }, powf (e.t + e.attack) (lit 1 / e.slope)) := by
  rw [attack_eq hs] at h ⊢
  split_ifs at h with hc
  rw [if_neg hc]

theorem decay_stays {e : AudioRateADSR} (hs : e.state = .decay) (h : (e.tick powf).1.state = .decay) :
    e.tick powf = ({ e with t := e.t + e.decay,
                            envelopeValue := (lit 1 - powf (e.t + e.decay) e.slope) * (lit 1 - e.sustain) + e.sustain },
      (lit 1 - powf (e.t + e.decay) e.slope) * (lit 1 - e.sustain) + e.sustain) ∧
    F32.le ((lit 1 - powf (e.t + e.decay) e.slope) * (lit 1 - e.sustain) + e.sustain) e.sustain = false := by
  rw [decay_eq hs] at h ⊢
  split_ifs at h with hc
  rw [if_neg hc]; exact ⟨rfl, by simpa using hc⟩

theorem release_stays {e : AudioRateADSR} (hs : e.state = .release) (h : (e.tick powf).1.state = .release) :
    e.tick powf = ({ e with t := e.t + e.release, envelopeValue := (lit 1 - powf (e.t + e.release) e.slope) * e.releaseVal },
      (lit 1 - powf (e.t + e.release) e.slope) * e.releaseVal) := by
  rw [release_eq hs] at h ⊢
  split_ifs at h with hc
  rw [if_neg hc]

/-- The power does not fall from one tick to the next. -/
theorem power_grows (hm : PowfMono powf) {t r s : F32} (ht : t.isFin = true ∧ 0 ≤ t.val ∧ t.val ≤ 2)
    (ht' : (t + r).val ≤ 2) (hr : r.isFin = true ∧ 0 ≤ r.val ∧ r.val ≤ 1) (hs : s.isNaN = false ∧ 0 < s.val) :
    (powf (t + r) s).val ≤ (powf (t + r + r) s).val := by
  obtain ⟨a1, a2, -⟩ := t_add ht hr
  obtain ⟨b1, b2, b3, -⟩ := t_add ⟨a1, a2, ht'⟩ hr
  refine hm _ _ _ a2 ?_ b3 a1 b1 hs.2 hs.1
  rw [add_fin a1 hr.1]
  exact le_rnd (isFin.not_nan a1) (by linarith [hr.2.1])

theorem one_sub_anti {w w' : F32} (h1 : w.isFin = true) (h2 : w'.isFin = true) (h : w.val ≤ w'.val) :
    (lit 1 - w').val ≤ (lit 1 - w).val := by
  rw [sub_fin lit1_fin h1, sub_fin lit1_fin h2]; exact rnd_mono (by linarith)

theorem mul_mono_right {u u' d : F32} (h1 : u.isFin = true) (h2 : u'.isFin = true) (hd : d.isFin = true) (h0 : 0 ≤ d.val)
    (h : u'.val ≤ u.val) : (u' * d).val ≤ (u * d).val := by
  rw [mul_fin h1 hd, mul_fin h2 hd]; exact rnd_mono (mul_le_mul_of_nonneg_right h h0)

/-- C105: within an attack no sample is below the one before, -/
theorem C105_attack (hp : PowfModerate powf) (hm : PowfMono powf) {e : AudioRateADSR} {xs : List F32}
    (h : ModeratelyReached powf e xs) (hs : e.state = .attack) (hs' : (e.tick powf).1.state = .attack) :
    (e.tick powf).2.val ≤ ((e.tick powf).1.tick powf).2.val := by
  have hi := (reached_inv hp h).1
  have hi' := (tick_inv hp hi).2
  have u := (tick_inv hp hi).1
  have he := attack_stays hs hs'
  rw [attack_eq hs']
  split_ifs with hc
  · show _ ≤ (lit 1 : F32).val
    rw [lit1_val]; exact u.2.2
  · rw [he] at hi' ⊢
    exact power_grows hm hi.t hi'.t.2.2 hi.attack ⟨(inv_slope hi.slope.1 hi.slope.2.1).1,
      lt_of_lt_of_le (by norm_num) (inv_slope_ge hi.slope)⟩

/-- C105: within a decay none is above the one before, -/
theorem C105_decay (hp : PowfModerate powf) (hm : PowfMono powf) {e : AudioRateADSR} {xs : List F32}
    (h : ModeratelyReached powf e xs) (hs : e.state = .decay) (hs' : (e.tick powf).1.state = .decay) :
    ((e.tick powf).1.tick powf).2.val ≤ (e.tick powf).2.val ∧ e.sustain.val ≤ ((e.tick powf).1.tick powf).2.val := by
  have hi := (reached_inv hp h).1
  have hi' := (tick_inv hp hi).2
  have u := (tick_inv hp hi).1
  obtain ⟨he, hle⟩ := decay_stays hs hs'
  have hu : e.sustain.val < (e.tick powf).2.val := by
    rw [he] at u ⊢
    exact (le_false u.1 hi.sustain.1).1 (by rw [hle]; simp)
  have hsu : (e.tick powf).1.sustain = e.sustain := by rw [he]
  have u' := (tick_inv hp hi').1
  rw [decay_eq hs'] at u' ⊢
  rw [hsu] at u' ⊢
  split_ifs at u' ⊢ with hc
  · exact ⟨hu.le, le_refl _⟩
  · have hlo := ((le_false u'.1 hi.sustain.1).1 hc).le
    refine ⟨?_, hlo⟩
    rw [he] at hi' ⊢
    have hsl := hi.slope
    obtain ⟨a1, a2, a3, -⟩ := t_add hi.t hi.decay
    obtain ⟨b1, b2, b3, -⟩ := t_add hi'.t hi.decay
    have g := power_grows hm hi.t hi'.t.2.2 hi.decay ⟨isFin.not_nan hsl.1, hsl.2.1⟩
    have f1 := hp.fin _ _ (isFin.not_nan a1) a2 a3 (isFin.not_nan hsl.1) hsl.2.1.le hsl.2.2
    have f2 := hp.fin _ _ (isFin.not_nan b1) b2 b3 (isFin.not_nan hsl.1) hsl.2.1.le hsl.2.2
    have n1 := hp.nonneg _ _ (isFin.not_nan a1) a2 (isFin.not_nan hsl.1) hsl.2.1.le
    have n2 := hp.nonneg _ _ (isFin.not_nan b1) b2 (isFin.not_nan hsl.1) hsl.2.1.le
    obtain ⟨d1, d2, -, d4⟩ := one_sub_val hi.sustain.fin hi.sustain.2.1
    have o1 := (one_sub_val f1 n1).1
    have o2 := (one_sub_val f2 n2).1
    have m := mul_mono_right o1 o2 d1 (d4 hi.sustain.2.2) (one_sub_anti f1 f2 g)
    have p1 := (mul_unit o1 d1 (d4 hi.sustain.2.2) d2).1
    have p2 := (mul_unit o2 d1 (d4 hi.sustain.2.2) d2).1
    show ((lit 1 - powf (e.t + e.decay + e.decay) e.slope) * (lit 1 - e.sustain) + e.sustain).val ≤
      ((lit 1 - powf (e.t + e.decay) e.slope) * (lit 1 - e.sustain) + e.sustain).val
    rw [add_fin p1 hi.sustain.fin, add_fin p2 hi.sustain.fin]
    exact rnd_mono (by linarith)

/-- C105: nor within a release. -/
theorem C105_release (hp : PowfModerate powf) (hm : PowfMono powf) {e : AudioRateADSR} {xs : List F32}
    (h : ModeratelyReached powf e xs) (hs : e.state = .release) (hs' : (e.tick powf).1.state = .release) :
    ((e.tick powf).1.tick powf).2.val ≤ (e.tick powf).2.val := by
  have hi := (reached_inv hp h).1
  have hi' := (tick_inv hp hi).2
  have u := (tick_inv hp hi).1
  have he := release_stays hs hs'
  rw [release_eq hs']
  split_ifs with hc
  · show (lit 0 : F32).val ≤ _
    rw [lit0_val]; exact u.2.1
  · rw [he] at hi' ⊢
    have hsl := hi.slope
    obtain ⟨a1, a2, a3, -⟩ := t_add hi.t hi.release
    obtain ⟨b1, b2, b3, -⟩ := t_add hi'.t hi.release
    have g := power_grows hm hi.t hi'.t.2.2 hi.release ⟨isFin.not_nan hsl.1, hsl.2.1⟩
    have f1 := hp.fin _ _ (isFin.not_nan a1) a2 a3 (isFin.not_nan hsl.1) hsl.2.1.le hsl.2.2
    have f2 := hp.fin _ _ (isFin.not_nan b1) b2 b3 (isFin.not_nan hsl.1) hsl.2.1.le hsl.2.2
    have n1 := hp.nonneg _ _ (isFin.not_nan a1) a2 (isFin.not_nan hsl.1) hsl.2.1.le
    have n2 := hp.nonneg _ _ (isFin.not_nan b1) b2 (isFin.not_nan hsl.1) hsl.2.1.le
    exact mul_mono_right (one_sub_val f1 n1).1 (one_sub_val f2 n2).1 hi.rel.fin hi.rel.2.1 (one_sub_anti f1 f2 g)

example : PowfMono (fun t _ => t) ∧ smallEnv.triggerOn.state = .attack ∧
    (smallEnv.triggerOn.tick (fun t _ => t)).1.state = .attack ∧
    ModeratelyReached (fun t _ => t) smallEnv.triggerOn [] ∧
    (ticks (fun t _ => t) 3 smallEnv.triggerOn).2 = [lit (1/4), lit (1/2), lit (3/4)] :=
  ⟨powf_one_mono, rfl, by decide +kernel, smallEnv_reached [.on] ⟨trivial, trivial⟩ rfl, by decide +kernel⟩

/-! ## C106 -/

/-- C106: `new` puts every argument in its place, -/
theorem C106_new {a d s r sl sr : F32} {e : AudioRateADSR} (h : AudioRateADSR.new a d s r sl sr = .ok e) :
    e.attack = rateOf a sr ∧ e.decay = rateOf d sr ∧ e.sustain = limited s ∧ e.release = rateOf r sr ∧ e.slope = sl ∧
    e.sr = sr ∧ e.state = .idle := by
  rw [new_eq h]; exact ⟨rfl, rfl, rfl, rfl, rfl, rfl, rfl⟩

/-- C106: and every setter changes its own setting and nothing else. -/
theorem C106_set {e e' : AudioRateADSR} {x : F32} :
    (e.setAttack x = .ok e' → e' = { e with attack := rateOf x e.sr }) ∧
    (e.setDecay x = .ok e' → e' = { e with decay := rateOf x e.sr }) ∧
    (e.setRelease x = .ok e' → e' = { e with release := rateOf x e.sr }) ∧
    (e.setSustain x = .ok e' → e' = { e with sustain := limited x }) ∧
    (e.setSlope x = .ok e' → e' = { e with slope := slopeLimited x }) ∧
    e.setSr x = { e with sr := x } := by
  refine ⟨fun h => ?_, fun h => ?_, fun h => ?_, fun h => ?_, fun h => ?_, rfl⟩
  · unfold setAttack at h
    cases hr : setTimeParameter x e.sr with
    | error y => rw [hr] at h; cases h
    | ok r => rw [hr, ok_bind] at h; injection h with h; rw [← h, setTime_eq hr]
  · unfold setDecay at h
    cases hr : setTimeParameter x e.sr with
    | error y => rw [hr] at h; cases h
    | ok r => rw [hr, ok_bind] at h; injection h with h; rw [← h, setTime_eq hr]
  · unfold setRelease at h
    cases hr : setTimeParameter x e.sr with
    | error y => rw [hr] at h; cases h
    | ok r => rw [hr, ok_bind] at h; injection h with h; rw [← h, setTime_eq hr]
  · unfold setSustain at h
    rw [clamp01_eq, ok_bind] at h
    injection h with h; rw [← h]
  · unfold setSlope at h
    cases hr : F32.clamp x (lit 1 / biggestSlope) biggestSlope with
    | error y => rw [hr] at h; cases h
    | ok r =>
      rw [hr, ok_bind] at h; injection h with h; rw [← h]
      have : r = slopeLimited x := by
        unfold F32.clamp at hr
        split at hr
        · injection hr with hr
          rw [← hr]
          show _ = if F32.lt x (lit 1 / biggestSlope) = true then lit 1 / biggestSlope else
            if F32.lt biggestSlope x = true then biggestSlope else x
          by_cases hc : F32.lt x (lit 1 / biggestSlope) = true
          · have : ¬ F32.lt biggestSlope (lit 1 / biggestSlope) = true := by decide +kernel
            simp only [hc, if_true, if_neg this]
          · simp only [if_neg hc]
        · cases hr
      rw [this]

theorem state_cases (e : AudioRateADSR) :
    e.state = .idle ∨ e.state = .attack ∨ e.state = .decay ∨ e.state = .release ∨ e.state = .sustain := by
  cases e.state <;> simp

/-- Two envelopes that give the same samples from now on. -/
def SameSamples (powf : F32 → F32 → F32) (e e' : AudioRateADSR) : Prop := ∀ n, (ticks powf n e').2 = (ticks powf n e).2

theorem same_of_step {f : AudioRateADSR → AudioRateADSR} {P : AudioRateADSR → Prop}
    (h : ∀ e, P e → (f e).tick powf = (f (e.tick powf).1, (e.tick powf).2) ∧ P (e.tick powf).1) {e : AudioRateADSR} (he : P e) :
    SameSamples powf e (f e) := by
  intro n
  induction n generalizing e with
  | zero => rfl
  | succ n ih =>
    obtain ⟨h1, h2⟩ := h e he
    show ((f e).tick powf).2 :: (ticks powf n ((f e).tick powf).1).2 = (e.tick powf).2 :: (ticks powf n (e.tick powf).1).2
    rw [h1, ih h2]

/-- C106: a setting of one stage does not disturb the samples of another: attack outside Attack, -/
theorem C106_attack_only {e e' : AudioRateADSR} {x : F32} (h : e.setAttack x = .ok e') (hs : e.state ≠ .attack) :
    SameSamples powf e e' := by
  rw [C106_set.1 h]
  refine same_of_step (f := fun a => { a with attack := rateOf x e.sr }) (P := fun a => a.state ≠ .attack) (fun a ha => ?_) hs
  rcases state_cases a with hh | hh | hh | hh | hh
  · rw [idle_eq hh, idle_eq (e := { a with attack := rateOf x e.sr }) hh]; exact ⟨rfl, ha⟩
  · exact absurd hh ha
  · rw [decay_eq hh, decay_eq (e := { a with attack := rateOf x e.sr }) hh]
    dsimp only
    split_ifs
    · exact ⟨rfl, by simp⟩
    · exact ⟨rfl, ha⟩
  · rw [release_eq hh, release_eq (e := { a with attack := rateOf x e.sr }) hh]
    dsimp only
    split_ifs
    · exact ⟨rfl, by simp⟩
    · exact ⟨rfl, ha⟩
  · rw [sustain_eq hh, sustain_eq (e := { a with attack := rateOf x e.sr }) hh]; exact ⟨rfl, ha⟩

/-- C106: decay once the decay is over, -/
theorem C106_decay_only {e e' : AudioRateADSR} {x : F32} (h : e.setDecay x = .ok e')
    (hs : e.state = .idle ∨ e.state = .sustain ∨ e.state = .release) : SameSamples powf e e' := by
  rw [C106_set.2.1 h]
  refine same_of_step (f := fun a => { a with decay := rateOf x e.sr })
    (P := fun a => a.state = .idle ∨ a.state = .sustain ∨ a.state = .release) (fun a ha => ?_) hs
  rcases ha with hh | hh | hh
  · rw [idle_eq hh, idle_eq (e := { a with decay := rateOf x e.sr }) hh]; exact ⟨rfl, .inl hh⟩
  · rw [sustain_eq hh, sustain_eq (e := { a with decay := rateOf x e.sr }) hh]; exact ⟨rfl, .inr (.inl hh)⟩
  · rw [release_eq hh, release_eq (e := { a with decay := rateOf x e.sr }) hh]
    dsimp only
    split_ifs
    · exact ⟨rfl, .inl rfl⟩
    · exact ⟨rfl, .inr (.inr hh)⟩

/-- C106: release before the release, -/
theorem C106_release_only {e e' : AudioRateADSR} {x : F32} (h : e.setRelease x = .ok e') (hs : e.state ≠ .release) :
    SameSamples powf e e' := by
  rw [C106_set.2.2.1 h]
  refine same_of_step (f := fun a => { a with release := rateOf x e.sr }) (P := fun a => a.state ≠ .release) (fun a ha => ?_) hs
  rcases state_cases a with hh | hh | hh | hh | hh
  · rw [idle_eq hh, idle_eq (e := { a with release := rateOf x e.sr }) hh]; exact ⟨rfl, ha⟩
  · rw [attack_eq hh, attack_eq (e := { a with release := rateOf x e.sr }) hh]
    dsimp only
    split_ifs
    · exact ⟨rfl, by simp⟩
    · exact ⟨rfl, ha⟩
  · rw [decay_eq hh, decay_eq (e := { a with release := rateOf x e.sr }) hh]
    dsimp only
    split_ifs
    · exact ⟨rfl, by simp⟩
    · exact ⟨rfl, ha⟩
  · exact absurd hh ha
  · rw [sustain_eq hh, sustain_eq (e := { a with release := rateOf x e.sr }) hh]; exact ⟨rfl, ha⟩

/-- C106: sustain during the release. -/
theorem C106_sustain_only {e e' : AudioRateADSR} {x : F32} (h : e.setSustain x = .ok e')
    (hs : e.state = .idle ∨ e.state = .release) : SameSamples powf e e' := by
  rw [C106_set.2.2.2.1 h]
  refine same_of_step (f := fun a => { a with sustain := limited x })
    (P := fun a => a.state = .idle ∨ a.state = .release) (fun a ha => ?_) hs
  rcases ha with hh | hh
  · rw [idle_eq hh, idle_eq (e := { a with sustain := limited x }) hh]; exact ⟨rfl, .inl hh⟩
  · rw [release_eq hh, release_eq (e := { a with sustain := limited x }) hh]
    dsimp only
    split_ifs
    · exact ⟨rfl, .inl rfl⟩
    · exact ⟨rfl, .inr hh⟩

-- a different attack set while sustaining
example : (ticks (fun t _ => t) 8 smallEnv.triggerOn).1.setAttack (lit 1) =
    .ok { (ticks (fun t _ => t) 8 smallEnv.triggerOn).1 with attack := lit (1/8) } ∧
    (ticks (fun t _ => t) 8 smallEnv.triggerOn).1.attack = lit (1/4) ∧
    (ticks (fun t _ => t) 8 smallEnv.triggerOn).1.state ≠ .attack := by decide +kernel

end Verif
