import Verif.Lemmas.Envelope

/-! # C82 – C91: the envelope -/

namespace Verif
open F32 AudioRateADSR

variable {powf : F32 → F32 → F32}

/-! ## C82 -/

/-- C82: whatever reasonable calls are made, every sample is in [0,1]. -/
def C82_Full : Prop :=
  ∀ powf, PowfContract powf → ∀ e xs, Reached powf e xs → ∀ x ∈ xs, Unit01 x

theorem powfOverflow_contract : PowfContract powfOverflow := by
  have key : ∀ t : F32, t.isNaN = false → 0 ≤ t.val → (powfOverflow t t).isNaN = false ∧ t.val ≤ (powfOverflow t t).val := by
    intro t hn h0
    unfold powfOverflow
    split_ifs with hc
    · refine ⟨by decide, ?_⟩
      have h1 : (pack false infMag).val = magVal infMag := by rw [val_of_pos (by decide)]; rfl
      rw [h1]
      exact (le_abs_self _).trans (abs_val_le_inf hn)
    · exact ⟨hn, le_refl _⟩
  exact ⟨fun t _ hn h0 _ _ => (key t hn h0).1, fun t _ hn h0 _ _ => h0.trans (key t hn h0).2,
    fun t _ hn h1 _ _ => h1.trans (key t hn (by linarith)).2⟩

/-- the settings of the counterexample: 2^-24 s at 65536 Hz, sustain 1, slope 20 -/
def shortEnv : AudioRateADSR :=
  ⟨lit 256, lit 256, lit 1, lit 256, lit 20, lit 0, .idle, lit 0, lit 0, lit 65536⟩

theorem shortEnv_new : AudioRateADSR.new (lit (1/2^24)) (lit (1/2^24)) (lit 1) (lit (1/2^24)) (lit 20) (lit 65536) =
    .ok shortEnv := by decide +kernel

/-- the state after the trigger and two ticks -/
def stuckEnv : AudioRateADSR := { shortEnv with t := lit 256, state := .decay, envelopeValue := F32.nan }

theorem stuck_reached : Reached powfOverflow stuckEnv [lit 1, F32.nan] := by
  have p1 : Pos (lit (1/2^24)) := by constructor <;> decide +kernel
  refine ⟨lit (1/2^24), lit (1/2^24), lit 1, lit (1/2^24), lit 20, lit 65536, [.on, .tick, .tick], shortEnv, p1, p1,
    by decide +kernel, p1, ⟨by decide +kernel, by decide +kernel⟩, ⟨by decide +kernel, by decide +kernel⟩, shortEnv_new, ?_,
    by decide +kernel⟩
  intro o ho
  simp only [List.mem_cons, List.not_mem_nil, or_false] at ho
  rcases ho with rfl | rfl | rfl <;> trivial

/-- With a time far below one sample the power overflows, and at sustain 1 the decay formula is inf · 0: the output is NaN. -/
theorem C82_refuted : ¬ C82_Full := fun h => by
  have := (h _ powfOverflow_contract _ _ stuck_reached F32.nan (by simp)).1
  revert this; decide

/-- Missing: times shorter than one sample and slopes above 20 (`new` does not limit the slope). For times of at least one
sample nothing panics and every sample of every history is in [0,1]. -/
theorem C82_partial (hp : PowfModerate powf) {a d s r sl sr : F32} {ops : List EnvOp} (ha : AtLeastOneSample a sr)
    (hd : AtLeastOneSample d sr) (hs : s.isNaN = false) (hr : AtLeastOneSample r sr) (hsl : Pos sl) (h20 : sl.val ≤ 20)
    (hf : sr.isFin = true) (h2 : 1 / 2 ≤ sr.val) (ho : Moderates sr ops) :
    ∃ e0 e xs, AudioRateADSR.new a d s r sl sr = .ok e0 ∧ runEnv powf e0 ops = .ok (e, xs) ∧ ∀ x ∈ xs, Unit01 x := by
  obtain ⟨e0, hn, hi, hsr, -⟩ := new_inv ha hd hs hr hsl h20 hf h2
  obtain ⟨e, xs, h1, -, h3⟩ := run_inv hp ops hi (by rw [hsr]; exact ho)
  exact ⟨e0, e, xs, hn, h1, h3⟩

/-- an envelope of 4 samples attack, 4 samples decay, sustain 1/2, 4 samples release at 8 Hz, slope 1 -/
def smallEnv : AudioRateADSR :=
  ⟨lit (1/4), lit (1/4), lit (1/2), lit (1/4), lit 1, lit 0, .idle, lit 0, lit 0, lit 8⟩

theorem smallEnv_new : AudioRateADSR.new (lit (1/2)) (lit (1/2)) (lit (1/2)) (lit (1/2)) (lit 1) (lit 8) = .ok smallEnv := by
  decide +kernel

theorem small_one : AtLeastOneSample (lit (1/2)) (lit 8) := ⟨⟨by decide +kernel, by decide +kernel⟩, by decide +kernel⟩

theorem smallEnv_reached {e : AudioRateADSR} {xs : List F32} (ops : List EnvOp) (h : Moderates (lit 8) ops)
    (hr : runEnv (fun t _ => t) smallEnv ops = .ok (e, xs)) : ModeratelyReached (fun t _ => t) e xs :=
  ⟨lit (1/2), lit (1/2), lit (1/2), lit (1/2), lit 1, lit 8, ops, smallEnv, small_one, small_one, by decide +kernel, small_one,
    ⟨by decide +kernel, by decide +kernel⟩, by decide +kernel, by decide +kernel, by decide +kernel, smallEnv_new, h, hr⟩

/-- a whole cycle: attack, decay, sustain, release, idle -/
example : runEnv (fun t _ => t) smallEnv
    [.on, .tick, .tick, .tick, .tick, .tick, .tick, .tick, .tick, .tick, .off, .tick, .tick, .tick, .tick, .tick] =
    .ok ({ smallEnv with releaseVal := lit (1/2) },
      [lit (1/4), lit (1/2), lit (3/4), lit 1, lit (7/8), lit (3/4), lit (5/8), lit (1/2), lit (1/2),
       lit (3/8), lit (1/4), lit (1/8), lit 0, lit 0]) := by decide +kernel

/-! ## C83 -/

/-- The ADSR graph: where each call may lead. -/
def adsrGraph : EnvelopeState → EnvOp → List EnvelopeState
  | .idle, .tick => [.idle]
  | .attack, .tick => [.attack, .decay]
  | .decay, .tick => [.decay, .sustain]
  | .release, .tick => [.release, .idle]
  | .sustain, .tick => [.sustain]
  | _, .on => [.attack]
  | .idle, .off => [.idle]
  | .release, .off => [.release]
  | _, .off => [.release]
  | _, .reset => [.idle]
  | s, _ => [s]

theorem setter_ok {m : M F32} {f : F32 → AudioRateADSR} {e' : AudioRateADSR} {x : Option F32}
    (h : (m >>= fun a => (pure (f a) : M AudioRateADSR)) >>= (fun e1 => (pure (e1, none) : M (AudioRateADSR × Option F32))) =
      .ok (e', x)) : (∃ r, e' = f r) ∧ x = none := by
  cases m with
  | error _ => cases h
  | ok r => exact ⟨⟨r, (Prod.mk.inj (Except.ok.inj h)).1.symm⟩, (Prod.mk.inj (Except.ok.inj h)).2.symm⟩

/-- C83: every call moves the state along the graph, whatever the arguments and whatever `powf` does; `trigger_off` in Idle and
Release changes nothing at all; a tick that changes the state returns exactly the end level of the stage. -/
theorem C83_state_graph {e e' : AudioRateADSR} {o : EnvOp} {x : Option F32} (h : applyEnv powf e o = .ok (e', x)) :
    e'.state ∈ adsrGraph e.state o ∧
    (o = .off → e.state = .idle ∨ e.state = .release → e' = e) ∧
    (o = .tick → e'.state ≠ e.state →
      x = some (match e.state with | .attack => lit 1 | .decay => e.sustain | _ => lit 0)) := by
  cases o with
  | setAttack s => obtain ⟨⟨r, rfl⟩, -⟩ := setter_ok h; simp [adsrGraph]
  | setDecay s => obtain ⟨⟨r, rfl⟩, -⟩ := setter_ok h; simp [adsrGraph]
  | setSustain s => obtain ⟨⟨r, rfl⟩, -⟩ := setter_ok h; simp [adsrGraph]
  | setRelease s => obtain ⟨⟨r, rfl⟩, -⟩ := setter_ok h; simp [adsrGraph]
  | setSlope s => obtain ⟨⟨r, rfl⟩, -⟩ := setter_ok h; simp [adsrGraph]
  | setSr s => obtain ⟨rfl, -⟩ := Prod.mk.inj (Except.ok.inj h); simp [adsrGraph, AudioRateADSR.setSr]
  | on =>
    obtain ⟨rfl, -⟩ := Prod.mk.inj (Except.ok.inj h)
    rcases hs : e.state with _ | _ | _ | _ | _ <;> simp [adsrGraph, triggerOn, hs]
  | off =>
    obtain ⟨rfl, -⟩ := Prod.mk.inj (Except.ok.inj h)
    rcases hs : e.state with _ | _ | _ | _ | _ <;> simp [adsrGraph, triggerOff, hs]
  | reset =>
    obtain ⟨rfl, -⟩ := Prod.mk.inj (Except.ok.inj h); simp [adsrGraph, AudioRateADSR.reset]
  | tick =>
    obtain ⟨rfl, rfl⟩ := Prod.mk.inj (Except.ok.inj h)
    refine ⟨?_, by simp, ?_⟩
    · rcases hs : e.state with _ | _ | _ | _ | _
      · rw [idle_eq hs, hs]; simp [adsrGraph]
      · rw [attack_eq hs]; split <;> simp [adsrGraph, hs]
      · rw [decay_eq hs]; split <;> simp [adsrGraph, hs]
      · rw [release_eq hs]; split <;> simp [adsrGraph, hs]
      · rw [sustain_eq hs, hs]; simp [adsrGraph]
    · intro _
      rcases hs : e.state with _ | _ | _ | _ | _
      · rw [idle_eq hs, hs]; simp
      · rw [attack_eq hs]; split <;> simp [hs]
      · rw [decay_eq hs]; split <;> simp [hs]
      · rw [release_eq hs]; split <;> simp [hs]
      · rw [sustain_eq hs, hs]; simp

/-- every edge of the graph out of Attack, Decay and Release is taken by some envelope -/
example : ((ticks (fun t _ => t) 3 smallEnv.triggerOn).1.state, (ticks (fun t _ => t) 4 smallEnv.triggerOn).1.state,
    (ticks (fun t _ => t) 7 smallEnv.triggerOn).1.state, (ticks (fun t _ => t) 8 smallEnv.triggerOn).1.state) =
    (.attack, .decay, .decay, .sustain) := by decide +kernel

/-! ## C84 -/

/-- C84: left ticking, each stage ends, provided the rates are at least 2^-22 per sample. -/
def C84_Full : Prop :=
  ∀ powf, PowfContract powf → ∀ e xs, Reached powf e xs → 1 / 2 ^ 22 ≤ e.attack.val → 1 / 2 ^ 22 ≤ e.decay.val →
    1 / 2 ^ 22 ≤ e.release.val →
    (e.state = .attack → ∃ n, (ticks powf n e).1.state = .decay) ∧
    (e.state = .decay → ∃ n, (ticks powf n e).1.state = .sustain) ∧
    (e.state = .release → ∃ n, (ticks powf n e).1.state = .idle)

/-- a phase of at least 128 stays there, infinity included -/
theorem big_add {t : F32} (hn : t.isNaN = false) (h : 128 ≤ t.val) :
    (t + lit 256).isNaN = false ∧ 128 ≤ (t + lit 256).val := by
  have hr : Rep 256 := by have := rep_nat (n := 256) (by norm_num); simpa using this
  have h128 : Rep 128 := by have := rep_nat (n := 128) (by norm_num); simpa using this
  rcases hi : t.isInf with _ | _
  · rw [add_fin (isFin_of_not hn hi) (lit_fin hr), lit_val hr]
    exact ⟨rnd_not_nan _ _, rep_le_rnd h128 (by linarith)⟩
  · have : t + lit 256 = t := by
      show F32.add _ _ = _
      unfold F32.add
      rw [hn, isFin.not_nan (lit_fin hr), hi, isFin.not_inf (lit_fin hr)]; simp
    rw [this]; exact ⟨hn, h⟩

theorem stuck_value (s : F32) {t : F32} (hn : t.isNaN = false) (h : 128 ≤ t.val) :
    ((lit 1 - powfOverflow t s) * (lit 1 - lit 1) + lit 1).isNaN = true := by
  have h128 : Rep 128 := by have := rep_nat (n := 128) (by norm_num); simpa using this
  have : F32.le (lit 128) t = true := le_iff.2 ⟨isFin.not_nan (lit_fin h128), hn, by rw [lit_val h128]; exact h⟩
  unfold powfOverflow
  rw [if_pos this]; decide +kernel

/-- The counterexample stays in Decay for ever, its output NaN. -/
theorem stuck_forever (n : Nat) : ∀ {t v : F32}, t.isNaN = false → 128 ≤ t.val →
    (ticks powfOverflow n { stuckEnv with t := t, envelopeValue := v }).1.state = .decay := by
  induction n with
  | zero => intro t v _ _; rfl
  | succ n ih =>
    intro t v hn ht
    obtain ⟨b1, b2⟩ := big_add hn ht
    have hv := stuck_value (lit 20) b1 b2
    have e1 : AudioRateADSR.tick powfOverflow { stuckEnv with t := t, envelopeValue := v } =
        ({ stuckEnv with t := t + lit 256,
                         envelopeValue := (lit 1 - powfOverflow (t + lit 256) (lit 20)) * (lit 1 - lit 1) + lit 1 },
         (lit 1 - powfOverflow (t + lit 256) (lit 20)) * (lit 1 - lit 1) + lit 1) := by
      rw [decay_eq rfl]
      refine if_neg ?_
      intro hc
      have := (le_iff.1 hc).1
      exact absurd (this.symm.trans hv) (by decide)
    unfold ticks
    dsimp only
    rw [e1]
    exact ih b1 b2

theorem C84_refuted : ¬ C84_Full := fun h => by
  obtain ⟨n, hn⟩ := (h _ powfOverflow_contract _ _ stuck_reached (by decide +kernel) (by decide +kernel)
    (by decide +kernel)).2.1 rfl
  have := stuck_forever n (t := lit 256) (v := F32.nan) (by decide +kernel) (by decide +kernel)
  have e : ({ stuckEnv with t := lit 256, envelopeValue := F32.nan } : AudioRateADSR) = stuckEnv := rfl
  rw [e, hn] at this
  cases this

/-- One tick of a running stage, in the common form: it ends, or the phase moves by the stage's rate and stays below 1. -/
theorem stage_step (hp : PowfModerate powf) {e : AudioRateADSR} (h : EnvInv e) {S S' : EnvelopeState} {rate : AudioRateADSR → F32}
    (hS : (S = .attack ∧ S' = .decay ∧ rate = AudioRateADSR.attack) ∨ (S = .decay ∧ S' = .sustain ∧ rate = AudioRateADSR.decay) ∨
      (S = .release ∧ S' = .idle ∧ rate = AudioRateADSR.release)) (hs : e.state = S) :
    ((e.tick powf).1.state = S' ∨ (e.tick powf).1.state = S ∧ (e.tick powf).1.t = e.t + rate e ∧ (e.t + rate e).val < 1) ∧
    (e.tick powf).1.attack = e.attack ∧ (e.tick powf).1.decay = e.decay ∧ (e.tick powf).1.release = e.release ∧
    (e.tick powf).1.sustain = e.sustain := by
  rcases hS with ⟨rfl, rfl, rfl⟩ | ⟨rfl, rfl, rfl⟩ | ⟨rfl, rfl, rfl⟩
  · have hi := (tick_inv hp h).2
    have : (e.tick powf).1.state = .attack → (e.t + e.attack).val < 1 := by
      rw [attack_eq hs]
      split_ifs with hc
      · intro hh; cases hh
      · intro _
        obtain ⟨a1, a2, -⟩ := t_add h.t h.attack
        obtain ⟨i1, i2⟩ := inv_slope h.slope.1 h.slope.2.1
        by_contra hn
        have h1 := hp.ge_one _ _ (isFin.not_nan a1) (not_lt.1 hn) i1 i2
        exact hc (le_iff.2 ⟨isFin.not_nan lit1_fin, hp.nn _ _ (isFin.not_nan a1) a2 i1 i2, by rw [lit1_val]; exact h1⟩)
    revert this
    rw [attack_eq hs]
    split_ifs with hc
    · intro _; exact ⟨.inl rfl, rfl, rfl, rfl, rfl⟩
    · intro hh; exact ⟨.inr ⟨hs, rfl, hh hs⟩, rfl, rfl, rfl, rfl⟩
  · have hi := (tick_inv hp h).2.t1
    revert hi
    rw [decay_eq hs]
    split_ifs with hc
    · intro _; exact ⟨.inl rfl, rfl, rfl, rfl, rfl⟩
    · intro hh; exact ⟨.inr ⟨hs, rfl, hh (.inl hs)⟩, rfl, rfl, rfl, rfl⟩
  · have hi := (tick_inv hp h).2.t1
    revert hi
    rw [release_eq hs]
    split_ifs with hc
    · intro _; exact ⟨.inl rfl, rfl, rfl, rfl, rfl⟩
    · intro hh; exact ⟨.inr ⟨hs, rfl, hh (.inr hs)⟩, rfl, rfl, rfl, rfl⟩

theorem ticks_succ (n : Nat) (e : AudioRateADSR) : (ticks powf (n + 1) e).1 = (ticks powf n (e.tick powf).1).1 := rfl

theorem stage_ends (hp : PowfModerate powf) {S S' : EnvelopeState} {rate : AudioRateADSR → F32}
    (hS : (S = .attack ∧ S' = .decay ∧ rate = AudioRateADSR.attack) ∨ (S = .decay ∧ S' = .sustain ∧ rate = AudioRateADSR.decay) ∨
      (S = .release ∧ S' = .idle ∧ rate = AudioRateADSR.release)) (n : Nat) :
    ∀ {e : AudioRateADSR}, EnvInv e → e.state = S → 1 ≤ e.t.val + (n + 1) * ((rate e).val - 1 / 2 ^ 25) →
    ∃ k ≤ n, (∀ j ≤ k, (ticks powf j e).1.state = S) ∧ (ticks powf (k + 1) e).1.state = S' ∧ EnvInv (ticks powf (k + 1) e).1 ∧
      (ticks powf (k + 1) e).1.attack = e.attack ∧ (ticks powf (k + 1) e).1.decay = e.decay ∧
      (ticks powf (k + 1) e).1.release = e.release ∧ (ticks powf (k + 1) e).1.sustain = e.sustain := by
  have hrate : ∀ {e : AudioRateADSR}, EnvInv e → (rate e).isFin = true ∧ 0 ≤ (rate e).val ∧ (rate e).val ≤ 1 := by
    intro e h
    rcases hS with ⟨-, -, rfl⟩ | ⟨-, -, rfl⟩ | ⟨-, -, rfl⟩
    · exact h.attack
    · exact h.decay
    · exact h.release
  have hsame : ∀ {e e' : AudioRateADSR}, e'.attack = e.attack → e'.decay = e.decay → e'.release = e.release → rate e' = rate e := by
    intro e e' h1 h2 h3
    rcases hS with ⟨-, -, rfl⟩ | ⟨-, -, rfl⟩ | ⟨-, -, rfl⟩
    · exact h1
    · exact h2
    · exact h3
  induction n with
  | zero =>
    intro e h hs h1
    obtain ⟨hc, e1, e2, e3, e4⟩ := stage_step hp h hS hs
    refine ⟨0, le_refl _, ?_, ?_, (tick_inv hp h).2, e1, e2, e3, e4⟩
    · intro j hj; obtain rfl : j = 0 := by omega
      exact hs
    · rcases hc with hc | ⟨-, -, hlt⟩
      · exact hc
      · obtain ⟨-, -, -, -, -, h6⟩ := t_add h.t (hrate h)
        have : 1 ≤ (e.t + rate e).val := h6 (by norm_num at h1; linarith)
        linarith
  | succ n ih =>
    intro e h hs h1
    obtain ⟨hc, e1, e2, e3, e4⟩ := stage_step hp h hS hs
    rcases hc with hc | ⟨hs', ht', hlt⟩
    · refine ⟨0, by omega, ?_, hc, (tick_inv hp h).2, e1, e2, e3, e4⟩
      intro j hj; obtain rfl : j = 0 := by omega
      exact hs
    · obtain ⟨-, -, -, -, h5, h6⟩ := t_add h.t (hrate h)
      have hle : e.t.val + (rate e).val ≤ 1 := by
        by_contra hn; linarith [h6 (not_le.1 hn).le]
      obtain ⟨k, hk, g0, g1, g2, g3, g4, g5, g6⟩ := ih (tick_inv hp h).2 hs' (by
        rw [hsame e1 e2 e3, ht']
        have := h5 hle
        push_cast at h1
        linarith)
      refine ⟨k + 1, by omega, ?_, g1, g2, g3.trans e1, g4.trans e2, g5.trans e3, g6.trans e4⟩
      intro j hj
      cases j with
      | zero => exact hs
      | succ j => exact g0 j (by omega)

theorem bound_ok {r : ℚ} {N : Nat} (h : 1 / 2 ^ 22 ≤ r) (hN : 8 ≤ 7 * N * r) : ∃ n, N = n + 1 ∧ 1 ≤ ((n : ℚ) + 1) * (r - 1 / 2 ^ 25) := by
  cases N with
  | zero => norm_num at hN
  | succ n =>
    refine ⟨n, rfl, ?_⟩
    push_cast at hN
    have h1 : 7 / 8 * r ≤ r - 1 / 2 ^ 25 := by
      have : (1:ℚ) / 2 ^ 25 = 1 / 8 * (1 / 2 ^ 22) := by norm_num
      rw [this]; linarith
    have h2 : ((n : ℚ) + 1) * (7 / 8 * r) ≤ ((n : ℚ) + 1) * (r - 1 / 2 ^ 25) := mul_le_mul_of_nonneg_left h1 (by positivity)
    linarith

/-- Missing: times shorter than one sample. For every envelope reached by calls with moderate arguments, from any phase on: if a
stage's rate is at least 2^-22, the stage ends within `N` ticks as soon as `N ≥ 8 / (7 · rate)`; until then the state does not
change. -/
theorem C84_partial (hp : PowfModerate powf) {e : AudioRateADSR} {xs : List F32} (h : ModeratelyReached powf e xs) (N : Nat) :
    (e.state = .attack → 1 / 2 ^ 22 ≤ e.attack.val → 8 ≤ 7 * N * e.attack.val →
      ∃ k < N, (∀ j ≤ k, (ticks powf j e).1.state = .attack) ∧ (ticks powf (k + 1) e).1.state = .decay) ∧
    (e.state = .decay → 1 / 2 ^ 22 ≤ e.decay.val → 8 ≤ 7 * N * e.decay.val →
      ∃ k < N, (∀ j ≤ k, (ticks powf j e).1.state = .decay) ∧ (ticks powf (k + 1) e).1.state = .sustain) ∧
    (e.state = .release → 1 / 2 ^ 22 ≤ e.release.val → 8 ≤ 7 * N * e.release.val →
      ∃ k < N, (∀ j ≤ k, (ticks powf j e).1.state = .release) ∧ (ticks powf (k + 1) e).1.state = .idle) := by
  have hi := (reached_inv hp h).1
  refine ⟨fun hs h1 h2 => ?_, fun hs h1 h2 => ?_, fun hs h1 h2 => ?_⟩ <;> obtain ⟨n, rfl, hn⟩ := bound_ok h1 h2
  · obtain ⟨k, hk, g0, g1, -⟩ := stage_ends hp (.inl ⟨rfl, rfl, rfl⟩) n hi hs (by linarith [hi.t.2.1])
    exact ⟨k, by omega, g0, g1⟩
  · obtain ⟨k, hk, g0, g1, -⟩ := stage_ends hp (.inr (.inl ⟨rfl, rfl, rfl⟩)) n hi hs (by linarith [hi.t.2.1])
    exact ⟨k, by omega, g0, g1⟩
  · obtain ⟨k, hk, g0, g1, -⟩ := stage_ends hp (.inr (.inr ⟨rfl, rfl, rfl⟩)) n hi hs (by linarith [hi.t.2.1])
    exact ⟨k, by omega, g0, g1⟩

theorem ticks_add (m n : Nat) (e : AudioRateADSR) : (ticks powf (m + n) e).1 = (ticks powf n (ticks powf m e).1).1 := by
  induction m generalizing e with
  | zero => rw [Nat.zero_add]; rfl
  | succ m ih => rw [show m + 1 + n = (m + n) + 1 by omega, ticks_succ, ticks_succ, ih]

/-- From the trigger to Sustain: within `A + D` ticks. -/
theorem C84_cycle_partial (hp : PowfModerate powf) {e : AudioRateADSR} {xs : List F32} (h : ModeratelyReached powf e xs)
    (hs : e.state = .attack) {A D : Nat} (ha : 1 / 2 ^ 22 ≤ e.attack.val) (hA : 8 ≤ 7 * A * e.attack.val)
    (hd : 1 / 2 ^ 22 ≤ e.decay.val) (hD : 8 ≤ 7 * D * e.decay.val) :
    ∃ k ≤ A + D, (ticks powf k e).1.state = .sustain ∧ (ticks powf k e).1.sustain = e.sustain := by
  have hi := (reached_inv hp h).1
  obtain ⟨a, rfl, h1⟩ := bound_ok ha hA
  obtain ⟨d, rfl, h2⟩ := bound_ok hd hD
  obtain ⟨k, hk, -, g1, g2, g3, g4, g5, g6⟩ := stage_ends hp (.inl ⟨rfl, rfl, rfl⟩) a hi hs (by linarith [hi.t.2.1])
  obtain ⟨l, hl, -, f1, f2, f3, f4, f5, f6⟩ := stage_ends hp (.inr (.inl ⟨rfl, rfl, rfl⟩)) d g2 g1
    (by rw [g4]; linarith [g2.t.2.1])
  refine ⟨(k + 1) + (l + 1), by omega, ?_, ?_⟩
  · rw [ticks_add]; exact f1
  · rw [ticks_add]; exact f6.trans g6

/-- the hypotheses hold for the small envelope after its trigger: rate 1/4, 5 ticks suffice -/
example : ModeratelyReached (fun t _ => t) smallEnv.triggerOn [] ∧ smallEnv.triggerOn.state = .attack ∧
    1 / 2 ^ 22 ≤ smallEnv.attack.val ∧ 8 ≤ 7 * (5 : Nat) * smallEnv.attack.val :=
  ⟨smallEnv_reached [.on] (by simp [Moderates, EnvOp.Moderate]) rfl, rfl, by decide +kernel, by decide +kernel⟩

/-! ## C85 -/

/-- the value a sustain argument stands for -/
def limited (x : F32) : F32 := if F32.lt x (lit 0) then lit 0 else if F32.lt (lit 1) x then lit 1 else x

/-- What a sustaining envelope has to output during calls that do not trigger: the level in force at each tick. -/
def sustainTrace : F32 → List EnvOp → List F32
  | _, [] => []
  | s, .tick :: os => s :: sustainTrace s os
  | _, .setSustain x :: os => sustainTrace (limited x) os
  | s, _ :: os => sustainTrace s os

theorem clamp01_eq (x : F32) : F32.clamp x (lit 0) (lit 1) = .ok (limited x) := by
  have h0 : F32.le (lit 0) (lit 1) = true := by decide +kernel
  unfold F32.clamp limited
  rw [if_pos h0]
  by_cases h1 : F32.lt x (lit 0) = true
  · rw [if_pos h1, if_pos h1]
    exact congrArg Except.ok (if_neg (by decide +kernel))
  · rw [if_neg h1, if_neg h1]

theorem setSustain_ok {e e' : AudioRateADSR} {z : F32} {x : Option F32} (h : applyEnv powf e (.setSustain z) = .ok (e', x)) :
    e' = { e with sustain := limited z } ∧ x = none := by
  have h1 : applyEnv powf e (.setSustain z) = .ok ({ e with sustain := limited z }, none) := by
    simp only [applyEnv, setSustain, clamp01_eq]; rfl
  rw [h1] at h
  obtain ⟨rfl, rfl⟩ := Prod.mk.inj (Except.ok.inj h)
  exact ⟨rfl, rfl⟩

theorem run_cons {e : AudioRateADSR} {o : EnvOp} {os : List EnvOp} {r : AudioRateADSR × List F32}
    (h : runEnv powf e (o :: os) = .ok r) :
    ∃ e1 x xs, applyEnv powf e o = .ok (e1, x) ∧ runEnv powf e1 os = .ok (r.1, xs) ∧ r.2 = x.toList ++ xs := by
  unfold runEnv at h
  rcases ha : applyEnv powf e o with f | ⟨e1, x⟩
  · rw [ha] at h; cases h
  · rw [ha, ok_bind] at h
    dsimp only at h
    rcases hb : runEnv powf e1 os with f | ⟨e2, xs⟩
    · rw [hb] at h; cases h
    · rw [hb, ok_bind] at h
      have := Except.ok.inj h
      subst this
      exact ⟨e1, x, xs, rfl, hb, rfl⟩

/-- C85, idle: from Idle, whatever is called short of `trigger_on`, every sample is 0 and the envelope stays idle. -/
theorem C85_idle_silent : ∀ (ops : List EnvOp) {e e' : AudioRateADSR} {xs : List F32}, e.state = .idle → (∀ o ∈ ops, o ≠ .on) →
    runEnv powf e ops = .ok (e', xs) → e'.state = .idle ∧ ∀ x ∈ xs, x = lit 0
  | [], e, e', xs, hs, _, h => by
    obtain ⟨rfl, rfl⟩ := Prod.mk.inj (Except.ok.inj h); exact ⟨hs, by simp⟩
  | o :: os, e, e', xs, hs, ho, h => by
    obtain ⟨e1, x, ys, h1, h2, h3⟩ := run_cons h
    have hg := (C83_state_graph h1).1
    rw [hs] at hg
    have hs1 : e1.state = .idle := by
      have hne := ho o (by simp)
      cases o <;> simp_all [adsrGraph]
    obtain ⟨h4, h5⟩ := C85_idle_silent os hs1 (fun o' h' => ho o' (by simp [h'])) h2
    refine ⟨h4, ?_⟩
    intro y hy
    have h3' : xs = x.toList ++ ys := h3
    rw [h3'] at hy
    rcases List.mem_append.1 hy with hy | hy
    · cases o with
      | tick =>
        obtain ⟨-, rfl⟩ := Prod.mk.inj (Except.ok.inj h1)
        rw [idle_eq hs] at hy; simpa using hy
      | setAttack z =>
        obtain ⟨⟨r, rfl⟩, rfl⟩ := setter_ok h1; simp at hy
      | setDecay z =>
        obtain ⟨⟨r, rfl⟩, rfl⟩ := setter_ok h1; simp at hy
      | setRelease z =>
        obtain ⟨⟨r, rfl⟩, rfl⟩ := setter_ok h1; simp at hy
      | setSustain z =>
        obtain ⟨rfl, rfl⟩ := setSustain_ok h1; simp at hy
      | setSlope z =>
        obtain ⟨⟨r, rfl⟩, rfl⟩ := setter_ok h1; simp at hy
      | setSr z => cases h1; simp at hy
      | on => cases h1; simp at hy
      | off => cases h1; simp at hy
      | reset => cases h1; simp at hy
    · exact h5 y hy

/-- C85, reset: from any state. -/
theorem C85_reset_silent {ops : List EnvOp} {e e' : AudioRateADSR} {xs : List F32} (ho : ∀ o ∈ ops, o ≠ .on)
    (h : runEnv powf e (.reset :: ops) = .ok (e', xs)) : e'.state = .idle ∧ ∀ x ∈ xs, x = lit 0 := by
  obtain ⟨e1, x, ys, h1, h2, h3⟩ := run_cons h
  cases h1
  obtain ⟨h4, h5⟩ := C85_idle_silent ops (e := e.reset) rfl ho h2
  exact ⟨h4, by rw [show xs = ys from h3]; exact h5⟩

/-- C85, sustain: from Sustain, during any calls other than triggers and reset, every tick returns the sustain level in force. -/
theorem C85_sustain_holds : ∀ (ops : List EnvOp) {e e' : AudioRateADSR} {xs : List F32}, e.state = .sustain →
    (∀ o ∈ ops, o ≠ .on ∧ o ≠ .off ∧ o ≠ .reset) → runEnv powf e ops = .ok (e', xs) →
    e'.state = .sustain ∧ xs = sustainTrace e.sustain ops
  | [], e, e', xs, hs, _, h => by
    obtain ⟨rfl, rfl⟩ := Prod.mk.inj (Except.ok.inj h); exact ⟨hs, rfl⟩
  | o :: os, e, e', xs, hs, ho, h => by
    obtain ⟨e1, x, ys, h1, h2, h3⟩ := run_cons h
    have h3' : xs = x.toList ++ ys := h3
    have hg := (C83_state_graph h1).1
    rw [hs] at hg
    have hs1 : e1.state = .sustain := by
      have hne := ho o (by simp)
      cases o <;> simp_all [adsrGraph]
    obtain ⟨h4, h5⟩ := C85_sustain_holds os hs1 (fun o' h' => ho o' (by simp [h'])) h2
    refine ⟨h4, ?_⟩
    rw [h3', h5]
    cases o with
    | tick =>
      obtain ⟨rfl, rfl⟩ := Prod.mk.inj (Except.ok.inj h1)
      rw [sustain_eq hs]; simp [sustainTrace]
    | setAttack z =>
      obtain ⟨⟨r, rfl⟩, rfl⟩ := setter_ok h1; rfl
    | setDecay z =>
      obtain ⟨⟨r, rfl⟩, rfl⟩ := setter_ok h1; rfl
    | setRelease z =>
      obtain ⟨⟨r, rfl⟩, rfl⟩ := setter_ok h1; rfl
    | setSustain z =>
      obtain ⟨rfl, rfl⟩ := setSustain_ok h1; rfl
    | setSlope z =>
      obtain ⟨⟨r, rfl⟩, rfl⟩ := setter_ok h1; rfl
    | setSr z => cases h1; rfl
    | on => exact absurd rfl (ho .on (by simp)).1
    | off => exact absurd rfl (ho .off (by simp)).2.1
    | reset => exact absurd rfl (ho .reset (by simp)).2.2

/-- sustaining at 1/2, then at 1/4 (a changed level), then at 1 (an argument of 7) -/
example : runEnv (fun t _ => t) (ticks (fun t _ => t) 8 smallEnv.triggerOn).1
      [.tick, .setSustain (lit (1/4)), .tick, .setAttack (lit 1), .tick, .setSustain (lit 7), .tick] =
    .ok ({ (ticks (fun t _ => t) 8 smallEnv.triggerOn).1 with sustain := lit 1, attack := lit (1/8) },
      [lit (1/2), lit (1/4), lit (1/4), lit 1]) := by decide +kernel

example : runEnv (fun t _ => t) (ticks (fun t _ => t) 3 smallEnv.triggerOn).1 [.tick, .reset, .tick, .off, .tick] =
    .ok ({ smallEnv with t := lit 0 }, [lit 1, lit 0, lit 0]) := by decide +kernel

/-! ## C86 -/

/-- C86: after a tick and `trigger_off` every sample is between 0 and what that tick returned. -/
def C86_Full : Prop :=
  ∀ powf, PowfModerate powf → ∀ e xs, ModeratelyReached powf e xs → (e.tick powf).1.state ≠ .release →
    ∀ n, ∀ y ∈ (ticks powf n (e.tick powf).1.triggerOff).2, Unit01 y ∧ y.val ≤ (e.tick powf).2.val

/-- the small envelope sustaining, its level then lowered to 1/4 -/
def loweredEnv : AudioRateADSR := { (ticks (fun t _ => t) 8 smallEnv.triggerOn).1 with sustain := lit (1/4) }

theorem lowered_reached : ModeratelyReached (fun t _ => t) loweredEnv
    [lit (1/4), lit (1/2), lit (3/4), lit 1, lit (7/8), lit (3/4), lit (5/8), lit (1/2)] := by
  refine smallEnv_reached [.on, .tick, .tick, .tick, .tick, .tick, .tick, .tick, .tick, .setSustain (lit (1/4))] ?_ (by decide +kernel)
  simp only [Moderates, EnvOp.Moderate]; decide +kernel

/-- Lowering the sustain level while sustaining leaves the stored level behind: 1/4 is heard, and the release starts at 3/8. -/
theorem C86_refuted : ¬ C86_Full := fun h => by
  have := (h _ powf_one loweredEnv _ lowered_reached (by decide +kernel) 1 (lit (3/8)) (by decide +kernel)).2
  revert this; decide +kernel

/-- releasing: samples between 0 and the stored level -/
theorem release_outputs (hp : PowfModerate powf) (n : Nat) : ∀ {e : AudioRateADSR}, EnvInv e →
    e.state = .release ∨ e.state = .idle → ∀ y ∈ (ticks powf n e).2, Unit01 y ∧ y.val ≤ e.releaseVal.val := by
  induction n with
  | zero => intro e _ _ y hy; simp [ticks] at hy
  | succ n ih =>
    intro e h hs y hy
    obtain ⟨u, hi⟩ := tick_inv hp h
    have key : (e.tick powf).2.val ≤ e.releaseVal.val ∧ ((e.tick powf).1.state = .release ∨ (e.tick powf).1.state = .idle) ∧
        (e.tick powf).1.releaseVal = e.releaseVal := by
      rcases hs with hs | hs
      · obtain ⟨a1, a2, a3, -⟩ := t_add h.t h.release
        have w1 := hp.fin _ _ (isFin.not_nan a1) a2 a3 (isFin.not_nan h.slope.1) h.slope.2.1.le h.slope.2.2
        have w2 := hp.nonneg _ _ (isFin.not_nan a1) a2 (isFin.not_nan h.slope.1) h.slope.2.1.le
        obtain ⟨v1, v2, -⟩ := release_val w1 w2 h.rel
        rw [release_eq hs]
        split_ifs
        · exact ⟨by rw [lit0_val]; exact h.rel.2.1, .inr rfl, rfl⟩
        · exact ⟨v2, .inl hs, rfl⟩
      · rw [idle_eq hs]; exact ⟨by rw [lit0_val]; exact h.rel.2.1, .inr hs, rfl⟩
    have : y = (e.tick powf).2 ∨ y ∈ (ticks powf n (e.tick powf).1).2 := by
      simpa [ticks] using hy
    rcases this with rfl | hy
    · exact ⟨u, key.1⟩
    · have := ih hi key.2.1 y hy
      rw [key.2.2] at this; exact this

theorem apply_off (hp : PowfModerate powf) {e : AudioRateADSR} (h : EnvInv e) : EnvInv e.triggerOff := by
  obtain ⟨e', x, h1, h2, -⟩ := apply_inv hp h (o := .off) trivial
  cases h1; exact h2

/-- What holds without exception: the samples after `trigger_off` are between 0 and the stored level. -/
theorem C86_actual (hp : PowfModerate powf) {e : AudioRateADSR} {xs : List F32} (h : ModeratelyReached powf e xs)
    (hs : e.state ≠ .release) (hi : e.state ≠ .idle) (n : Nat) :
    ∀ y ∈ (ticks powf n e.triggerOff).2, Unit01 y ∧ y.val ≤ e.envelopeValue.val := by
  have hi' := apply_off hp (reached_inv hp h).1
  rcases hh : e.state with _ | _ | _ | _ | _
  · exact absurd hh hi
  · have : e.triggerOff = { e with state := .release, releaseVal := e.envelopeValue, t := lit 0 } := by simp [triggerOff, hh]
    rw [this] at hi' ⊢; exact release_outputs hp n hi' (.inl rfl)
  · have : e.triggerOff = { e with state := .release, releaseVal := e.envelopeValue, t := lit 0 } := by simp [triggerOff, hh]
    rw [this] at hi' ⊢; exact release_outputs hp n hi' (.inl rfl)
  · exact absurd hh hs
  · have : e.triggerOff = { e with state := .release, releaseVal := e.envelopeValue, t := lit 0 } := by simp [triggerOff, hh]
    rw [this] at hi' ⊢; exact release_outputs hp n hi' (.inl rfl)

/-- `set_sustain` is never called while sustaining. -/
def NoLateSustain (powf : F32 → F32 → F32) : AudioRateADSR → List EnvOp → Prop
  | _, [] => True
  | e, o :: os => (∀ x, o = .setSustain x → e.state ≠ .sustain) ∧ ∀ e' x, applyEnv powf e o = .ok (e', x) → NoLateSustain powf e' os

/-- the stored level is the one heard -/
def Heard (e : AudioRateADSR) : Prop :=
  (e.state = .sustain → e.envelopeValue = e.sustain) ∧ (e.state = .idle → e.envelopeValue = lit 0)

theorem tick_heard {e : AudioRateADSR} (h : Heard e) : Heard (e.tick powf).1 ∧ (e.tick powf).1.envelopeValue = (e.tick powf).2 := by
  rcases hs : e.state with _ | _ | _ | _ | _
  · rw [idle_eq hs]; exact ⟨h, h.2 hs⟩
  · rw [attack_eq hs]; split <;> exact ⟨⟨fun hh => by simp_all, fun hh => by simp_all⟩, rfl⟩
  · rw [decay_eq hs]; split <;> exact ⟨⟨fun hh => by simp_all, fun hh => by simp_all⟩, rfl⟩
  · rw [release_eq hs]; split <;> exact ⟨⟨fun hh => by simp_all, fun hh => by simp_all⟩, rfl⟩
  · rw [sustain_eq hs]; exact ⟨h, h.1 hs⟩

theorem apply_heard {e e' : AudioRateADSR} {o : EnvOp} {x : Option F32} (h : Heard e)
    (hno : ∀ y, o = .setSustain y → e.state ≠ .sustain) (ha : applyEnv powf e o = .ok (e', x)) : Heard e' := by
  cases o with
  | tick => cases ha; exact (tick_heard h).1
  | setAttack z => obtain ⟨⟨r, rfl⟩, rfl⟩ := setter_ok ha; exact h
  | setDecay z => obtain ⟨⟨r, rfl⟩, rfl⟩ := setter_ok ha; exact h
  | setRelease z => obtain ⟨⟨r, rfl⟩, rfl⟩ := setter_ok ha; exact h
  | setSustain z =>
    obtain ⟨rfl, rfl⟩ := setSustain_ok ha
    exact ⟨fun hh => absurd hh (hno z rfl), h.2⟩
  | setSlope z =>
    obtain ⟨⟨r, rfl⟩, rfl⟩ := setter_ok ha; exact h
  | setSr z => cases ha; exact h
  | on => cases ha; rcases hs : e.state with _ | _ | _ | _ | _ <;> simp [Heard, triggerOn, hs]
  | off =>
    cases ha
    rcases hs : e.state with _ | _ | _ | _ | _ <;> simp [Heard, triggerOff, hs]
    exact h.2 hs
  | reset => cases ha; simp [Heard, AudioRateADSR.reset]

theorem run_heard : ∀ (ops : List EnvOp) {e e' : AudioRateADSR} {xs : List F32}, Heard e → NoLateSustain powf e ops →
    runEnv powf e ops = .ok (e', xs) → Heard e'
  | [], e, e', xs, h, _, hr => by cases hr; exact h
  | o :: os, e, e', xs, h, hn, hr => by
    obtain ⟨e1, x, ys, h1, h2, h3⟩ := run_cons hr
    exact run_heard os (apply_heard h hn.1 h1) (hn.2 e1 x h1) h2

/-- Missing: histories in which `set_sustain` was called while sustaining. For all others with moderate arguments: the samples
after tick, `trigger_off` are between 0 and what that tick returned. -/
theorem C86_partial (hp : PowfModerate powf) {a d s r sl sr : F32} {ops : List EnvOp} {e0 e : AudioRateADSR} {xs : List F32}
    (ha : AtLeastOneSample a sr) (hd : AtLeastOneSample d sr) (hs : s.isNaN = false) (hr : AtLeastOneSample r sr) (hsl : Pos sl)
    (h20 : sl.val ≤ 20) (hf : sr.isFin = true) (h2 : 1 / 2 ≤ sr.val) (ho : Moderates sr ops)
    (hn : AudioRateADSR.new a d s r sl sr = .ok e0) (hl : NoLateSustain powf e0 ops) (hrun : runEnv powf e0 ops = .ok (e, xs))
    (hst : (e.tick powf).1.state ≠ .release) (n : Nat) :
    ∀ y ∈ (ticks powf n (e.tick powf).1.triggerOff).2, Unit01 y ∧ y.val ≤ (e.tick powf).2.val := by
  obtain ⟨e0', hn', hi, hsr, hs0, hv0⟩ := new_inv ha hd hs hr hsl h20 hf h2
  rw [hn] at hn'; obtain rfl := Except.ok.inj hn'
  obtain ⟨e', xs', h1, hi', -⟩ := run_inv hp ops hi (by rw [hsr]; exact ho)
  rw [hrun] at h1; obtain ⟨rfl, rfl⟩ := Prod.mk.inj (Except.ok.inj h1)
  have hh := run_heard ops ⟨fun h => (by rw [hs0] at h; cases h), fun _ => hv0⟩ hl hrun
  obtain ⟨t1, t2⟩ := tick_heard (powf := powf) hh
  have hit := (tick_inv hp hi').2
  have hoff := apply_off hp hit
  rw [← t2]
  generalize (e.tick powf).1 = g at *
  rcases hg : g.state with _ | _ | _ | _ | _
  · have : g.triggerOff = g := by simp [triggerOff, hg]
    rw [this]
    intro y hy
    have hsil : ∀ n, (ticks powf n g).2 = List.replicate n (lit 0) := by
      intro n
      induction n with
      | zero => rfl
      | succ n ih => simp only [ticks, idle_eq hg, ih]; rfl
    rw [hsil] at hy
    obtain rfl := (List.mem_replicate.1 hy).2
    exact ⟨unit_zero, by rw [lit0_val]; exact hit.env.2.1⟩
  · have : g.triggerOff = { g with state := .release, releaseVal := g.envelopeValue, t := lit 0 } := by simp [triggerOff, hg]
    rw [this] at hoff ⊢; exact release_outputs hp n hoff (.inl rfl)
  · have : g.triggerOff = { g with state := .release, releaseVal := g.envelopeValue, t := lit 0 } := by simp [triggerOff, hg]
    rw [this] at hoff ⊢; exact release_outputs hp n hoff (.inl rfl)
  · exact absurd hg hst
  · have : g.triggerOff = { g with state := .release, releaseVal := g.envelopeValue, t := lit 0 } := by simp [triggerOff, hg]
    rw [this] at hoff ⊢; exact release_outputs hp n hoff (.inl rfl)

/-- the hypothesis holds for the small envelope in mid-decay: output 3/4, then 9/16, 3/8, 3/16, 0 -/
example : NoLateSustain (fun t _ => t) smallEnv [.setSustain (lit (1/2)), .on, .tick] ∧
    (ticks (fun t _ => t) 6 smallEnv.triggerOn).2.getLast? = some (lit (3/4)) ∧
    (ticks (fun t _ => t) 4 (ticks (fun t _ => t) 6 smallEnv.triggerOn).1.triggerOff).2 =
      [lit (9/16), lit (3/8), lit (3/16), lit 0] := by
  refine ⟨⟨fun x _ => by decide, fun e' x _ => ⟨fun y h => (by cases h), fun _ _ _ => ⟨fun y h => (by cases h), fun _ _ _ => trivial⟩⟩⟩,
    by decide +kernel, by decide +kernel⟩

/-! ## C87 -/

/-- C87: a tick in Decay returns at least the sustain level and at most 1. -/
def C87_Full : Prop :=
  ∀ powf, PowfContract powf → ∀ e xs, Reached powf e xs → e.state = .decay →
    (e.tick powf).2.isNaN = false ∧ e.sustain.val ≤ (e.tick powf).2.val ∧ (e.tick powf).2.val ≤ 1

theorem C87_refuted : ¬ C87_Full := fun h => by
  have := (h _ powfOverflow_contract _ _ stuck_reached rfl).1
  revert this; decide +kernel

/-- Missing: times shorter than one sample. -/
theorem C87_partial (hp : PowfModerate powf) {e : AudioRateADSR} {xs : List F32} (h : ModeratelyReached powf e xs)
    (hs : e.state = .decay) :
    (e.tick powf).2.isNaN = false ∧ e.sustain.val ≤ (e.tick powf).2.val ∧ (e.tick powf).2.val ≤ 1 := by
  have hi := (reached_inv hp h).1
  obtain ⟨u, -⟩ := tick_inv hp hi
  refine ⟨u.1, ?_, u.2.2⟩
  have hu := u.1
  revert hu
  rw [decay_eq hs]
  split_ifs with hc
  · intro _; exact le_refl _
  · intro hn
    exact ((le_false hn hi.sustain.1).1 hc).le

/-- the small envelope in Decay: 7/8 is between 1/2 and 1 -/
example : ModeratelyReached (fun t _ => t) (ticks (fun t _ => t) 4 smallEnv.triggerOn).1 [lit (1/4), lit (1/2), lit (3/4), lit 1] ∧
    (ticks (fun t _ => t) 4 smallEnv.triggerOn).1.state = .decay ∧
    ((ticks (fun t _ => t) 4 smallEnv.triggerOn).1.tick (fun t _ => t)).2 = lit (7/8) :=
  ⟨smallEnv_reached [.on, .tick, .tick, .tick, .tick] (by simp [Moderates, EnvOp.Moderate]) (by decide +kernel),
    by decide +kernel, by decide +kernel⟩

/-! ## C88 -/

/-- C88: `trigger_on` in Decay, Sustain or Release puts the attack curve at the current level. -/
def C88_Full : Prop :=
  ∀ powf, PowfModerate powf → ∀ e xs, ModeratelyReached powf e xs → e.state = .decay ∨ e.state = .sustain ∨ e.state = .release →
    (powf e.triggerOn.t (lit 1 / e.slope)).val = e.envelopeValue.val

/-- The small envelope sustains at 1/2, and the retriggered attack starts at 1. -/
theorem C88_refuted : ¬ C88_Full := fun h => by
  have := h _ powf_one (ticks (fun t _ => t) 8 smallEnv.triggerOn).1 _
    (smallEnv_reached (xs := [lit (1/4), lit (1/2), lit (3/4), lit 1, lit (7/8), lit (3/4), lit (5/8), lit (1/2)])
      [.on, .tick, .tick, .tick, .tick, .tick, .tick, .tick, .tick] (by simp [Moderates, EnvOp.Moderate]) (by decide +kernel))
    (by decide +kernel)
  revert this; decide +kernel

/-- Missing: continuity. Retriggering keeps the phase of the interrupted stage and nothing else changes. -/
theorem C88_partial {e : AudioRateADSR} (hs : e.state = .decay ∨ e.state = .sustain ∨ e.state = .release) :
    e.triggerOn = { e with state := .attack } := by
  rcases hs with hs | hs | hs <;> simp [triggerOn, hs]

/-- What the code does: the first sample is the attack curve at the old stage's phase plus one step, whatever was heard before; if
that stage had run to its end (phase at least 1, as after a full decay), the output jumps to 1 in one sample and Decay starts. -/
theorem C88_actual (hp : PowfModerate powf) {e : AudioRateADSR} {xs : List F32} (h : ModeratelyReached powf e xs)
    (hs : e.state = .decay ∨ e.state = .sustain ∨ e.state = .release) :
    (e.triggerOn.tick powf).2 = (if F32.le (lit 1) (powf (e.t + e.attack) (lit 1 / e.slope)) then lit 1
      else powf (e.t + e.attack) (lit 1 / e.slope)) ∧
    (1 ≤ e.t.val → (e.triggerOn.tick powf).2 = lit 1 ∧ (e.triggerOn.tick powf).1.state = .decay) := by
  have hi := (reached_inv hp h).1
  rw [C88_partial hs, attack_eq rfl]
  refine ⟨by split <;> rfl, fun h1 => ?_⟩
  obtain ⟨a1, a2, -, -, -, a6⟩ := t_add hi.t hi.attack
  obtain ⟨i1, i2⟩ := inv_slope hi.slope.1 hi.slope.2.1
  have hge := hp.ge_one _ _ (isFin.not_nan a1) (a6 (by linarith [hi.attack.2.1])) i1 i2
  rw [if_pos (le_iff.2 ⟨isFin.not_nan lit1_fin, hp.nn _ _ (isFin.not_nan a1) a2 i1 i2, by rw [lit1_val]; exact hge⟩)]
  exact ⟨rfl, rfl⟩

/-- sustaining at 1/2 with phase 1, retriggered: 1 at once -/
example : (ticks (fun t _ => t) 8 smallEnv.triggerOn).1.t = lit 1 ∧
    ((ticks (fun t _ => t) 8 smallEnv.triggerOn).1.triggerOn.tick (fun t _ => t)).2 = lit 1 := by decide +kernel

/-! ## C89 -/

/-- C89: a time of `T` seconds of at least one sample means a rate of `1/(T·sr)`. -/
def C89_Full : Prop :=
  ∀ secs sr : F32, Pos secs → Pos sr → 1 ≤ secs.val * sr.val → secs.val * sr.val ≤ 2 ^ 100 →
    ∃ r, setTimeParameter secs sr = .ok r ∧
      |r.val - 1 / (secs.val * sr.val)| ≤ 1 / 2 ^ 22 * (1 / (secs.val * sr.val))

/-- Four seconds at 48 kHz are treated as two: the "shortest time" limit is applied on the wrong side. -/
theorem C89_refuted : ¬ C89_Full := fun h => by
  obtain ⟨r, hr, he⟩ := h (lit 4) (lit 48000) ⟨by decide +kernel, by decide +kernel⟩ ⟨by decide +kernel, by decide +kernel⟩
    (by decide +kernel) (by decide +kernel)
  have : setTimeParameter (lit 4) (lit 48000) = .ok ⟨0x372EC33E#32⟩ := by decide +kernel
  rw [this] at hr
  obtain rfl := Except.ok.inj hr
  revert he; decide +kernel

/-- Missing: times above 2 s. Up to 2 s the rate is `1/(T·sr)` to a relative error of 2^-22, also for times far below one sample. -/
theorem C89_partial {secs sr : F32} (hs : Pos secs) (hr : Pos sr) (h2 : secs.val ≤ 2) (hsr : sr.val ≤ 2 ^ 100)
    (hlo : 1 / 2 ^ 100 ≤ secs.val * sr.val) :
    ∃ r, setTimeParameter secs sr = .ok r ∧ |r.val - 1 / (secs.val * sr.val)| ≤ 1 / 2 ^ 22 * (1 / (secs.val * sr.val)) := by
  have h100 : (1:ℚ) / 2 ^ 126 ≤ 1 / 2 ^ 102 := by norm_num
  have h102 : (1:ℚ) / 2 ^ 102 ≤ 1 / 2 ^ 100 := by norm_num
  have h101 : (2:ℚ) ^ 101 ≤ 2 ^ 127 := by norm_num
  have e101 : (2:ℚ) * 2 ^ 100 = 2 ^ 101 := by norm_num
  have hpos : 0 < secs.val * sr.val := mul_pos hs.2 hr.2
  have hup : secs.val * sr.val ≤ 2 * sr.val := mul_le_mul_of_nonneg_right h2 hr.2.le
  have hT : secs.val * sr.val ≤ 2 ^ 101 := by linarith
  obtain ⟨f1, δ, hδ, v1⟩ := rnd_rel (s := secs.neg != sr.neg) (q := secs.val * sr.val)
    (by rw [abs_of_pos hpos]; linarith) (by rw [abs_of_pos hpos]; linarith)
  have hb := abs_le.1 hδ
  have hδ1 : (1:ℚ) / 2 ≤ 1 + δ := by
    have : (1:ℚ) / 2 ^ 24 ≤ 1 / 2 := by norm_num
    linarith [hb.1]
  have hδ2 : 1 + δ ≤ 2 := by
    have : (1:ℚ) / 2 ^ 24 ≤ 1 := by norm_num
    linarith [hb.2]
  have hx := mul_fin hs.1 hr.1
  rw [← hx] at f1 v1
  set x := secs * sr with hxd
  have xpos : 0 < x.val := by rw [v1]; exact mul_pos hpos (by linarith)
  have xhi : x.val ≤ 2 ^ 102 := by
    rw [v1]
    have : secs.val * sr.val * (1 + δ) ≤ 2 ^ 101 * 2 := mul_le_mul hT hδ2 (by linarith) (by positivity)
    linarith [show (2:ℚ) ^ 101 * 2 = 2 ^ 102 by norm_num]
  have xlo : 1 / 2 ^ 101 ≤ x.val := by
    rw [v1]
    have : 1 / 2 ^ 100 * (1 / 2) ≤ secs.val * sr.val * (1 + δ) := mul_le_mul hlo hδ1 (by norm_num) hpos.le
    linarith [show (1:ℚ) / 2 ^ 100 * (1 / 2) = 1 / 2 ^ 101 by norm_num]
  have ipos : 0 < 1 / x.val := by positivity
  have i1 : 1 / 2 ^ 102 ≤ 1 / x.val := one_div_le_one_div_of_le xpos xhi
  have i2 : 1 / x.val ≤ 2 ^ 101 := by rw [div_le_iff₀ xpos]; rw [div_le_iff₀ (by positivity)] at xlo; linarith
  obtain ⟨f2, ε, hε, v2⟩ := rnd_rel (s := (lit 1 : F32).neg != x.neg) (q := 1 / x.val)
    (by rw [abs_of_pos ipos]; linarith) (by rw [abs_of_pos ipos]; linarith)
  have hd := div_fin lit1_fin f1 xpos.ne'
  rw [lit1_val] at hd
  rw [← hd] at f2 v2
  have x2 : x.val ≤ 2 * sr.val := by
    have hrep : Rep (2 * sr.val) := by
      have := rep_scale hr.1 1 (by
        rw [abs_of_pos (by linarith [hr.2])]
        have : (2:ℚ) ^ 101 < 2 ^ 128 := by norm_num
        linarith)
      rw [pow_one, mul_comm] at this; exact this
    rw [hx]; exact rnd_le_rep hrep hup
  have hq : 1 / 2 / sr.val ≤ 1 / x.val := by
    rw [div_div]; exact one_div_le_one_div_of_le xpos x2
  have hlod := div_fin (x := shortestTimeBase) (y := sr) lithalf_fin hr.1 hr.2.ne'
  rw [show shortestTimeBase.val = 1 / 2 from lithalf_val] at hlod
  have q0 : 0 ≤ 1 / 2 / sr.val := by have := hr.2; positivity
  have flo : (shortestTimeBase / sr).isFin = true := by
    rw [hlod]; refine rnd_fin_of_lt ?_
    rw [abs_of_nonneg q0]
    have : (2:ℚ) ^ 101 < 2 ^ 128 - 2 ^ 103 := by norm_num
    linarith
  have hle : (shortestTimeBase / sr).val ≤ (lit 1 / x).val := by rw [hlod, hd]; exact rnd_mono hq
  have hmax : (lit 1 / x).val ≤ F32.maxFin.val := by
    rw [maxFin_val]; exact (le_abs_self _).trans (fin_le_max f2)
  obtain ⟨r, hr', -, -, -, c3⟩ := clamp_cases (x := lit 1 / x) (isFin.not_nan flo) (isFin.not_nan maxFin_fin) (hle.trans hmax)
  refine ⟨r, hr', ?_⟩
  rw [c3 (isFin.not_nan f2) hle hmax, v2, v1]
  have hε' := abs_le.1 hε
  have e1 : 1 / (secs.val * sr.val * (1 + δ)) * (1 + ε) - 1 / (secs.val * sr.val) =
      (ε - δ) / (1 + δ) * (1 / (secs.val * sr.val)) := by
    have : 1 + δ ≠ 0 := by linarith
    field_simp; ring
  rw [e1, abs_mul, abs_of_pos (by positivity : 0 < 1 / (secs.val * sr.val))]
  refine mul_le_mul_of_nonneg_right ?_ (by positivity)
  rw [abs_div, abs_of_pos (by linarith : 0 < 1 + δ), div_le_iff₀ (by linarith), abs_le]
  have : (1:ℚ) / 2 ^ 24 = 1 / 4 * (1 / 2 ^ 22) := by norm_num
  rw [this] at hb hε'
  have hp22 : (0:ℚ) < 1 / 2 ^ 22 := by positivity
  constructor <;> nlinarith [hb.1, hb.2, hε'.1, hε'.2]

/-- 3 ms at 48 kHz meets the hypotheses -/
example : Pos (lit (3/1000)) ∧ Pos (lit 48000) ∧ (lit (3/1000) : F32).val ≤ 2 ∧ (lit 48000 : F32).val ≤ 2 ^ 100 ∧
    1 / 2 ^ 100 ≤ (lit (3/1000) : F32).val * (lit 48000 : F32).val := by
  refine ⟨⟨?_, ?_⟩, ⟨?_, ?_⟩, ?_, ?_, ?_⟩ <;> decide +kernel

/-- What the code does above 2 s: every such time gives the very same rate, that of 2 s. -/
theorem C89_actual {secs sr : F32} (hs : secs.isFin = true) (h2 : 2 ≤ secs.val) (hr : sr.isFin = true)
    (hlo : 1 / 2 ^ 100 ≤ sr.val) (hhi : sr.val ≤ 2 ^ 100) :
    setTimeParameter secs sr = .ok (shortestTimeBase / sr) ∧ setTimeParameter (lit 2) sr = .ok (shortestTimeBase / sr) := by
  have hsr : 0 < sr.val := lt_of_lt_of_le (by positivity) hlo
  have hlod := div_fin (x := shortestTimeBase) (y := sr) lithalf_fin hr hsr.ne'
  rw [show shortestTimeBase.val = 1 / 2 from lithalf_val] at hlod
  have q0 : 0 < 1 / 2 / sr.val := by positivity
  have q1 : 1 / 2 / sr.val ≤ 2 ^ 99 := by
    rw [div_le_iff₀ hsr]; rw [div_le_iff₀ (by positivity)] at hlo
    have : (2:ℚ) ^ 100 = 2 * 2 ^ 99 := by norm_num
    rw [this] at hlo; linarith
  have q2 : 1 / 2 ^ 101 ≤ 1 / 2 / sr.val := by
    rw [div_div]; refine one_div_le_one_div_of_le (by positivity) ?_
    have : (2:ℚ) ^ 101 = 2 * 2 ^ 100 := by norm_num
    rw [this]; linarith
  have flo : (shortestTimeBase / sr).isFin = true := by
    rw [hlod]; refine rnd_fin_of_lt ?_
    rw [abs_of_pos q0]; exact lt_of_le_of_lt q1 (by norm_num)
  have plo : 0 < (shortestTimeBase / sr).val := by
    rw [hlod]; exact lt_of_lt_of_le (by positivity) (rep_le_rnd (rep_of_pos_pow (k := 101) (by norm_num)) q2)
  have mlo : (shortestTimeBase / sr).val ≤ F32.maxFin.val := by
    rw [maxFin_val]; exact (le_abs_self _).trans (fin_le_max flo)
  have key : ∀ s : F32, s.isFin = true → 2 ≤ s.val → setTimeParameter s sr = .ok (shortestTimeBase / sr) := by
    intro s hf h2
    have hrep : Rep (2 * sr.val) := by
      have := rep_scale hr 1 (by
        rw [abs_of_pos (by linarith)]
        have h1 : (2:ℚ) ^ 101 < 2 ^ 128 := by norm_num
        have h3 : (2:ℚ) ^ 101 = 2 * 2 ^ 100 := by norm_num
        rw [pow_one]; linarith)
      rw [pow_one, mul_comm] at this; exact this
    have hx : (s * sr).isNaN = false ∧ 2 * sr.val ≤ (s * sr).val := by
      rw [mul_fin hf hr]
      exact ⟨rnd_not_nan _ _, rep_le_rnd hrep (mul_le_mul_of_nonneg_right h2 hsr.le)⟩
    have hq : (lit 1 / (s * sr)).isFin = true ∧ (lit 1 / (s * sr)).val ≤ (shortestTimeBase / sr).val := by
      have xpos : 0 < (s * sr).val := by linarith [hx.2]
      rcases hi : (s * sr).isInf with _ | _
      · have hd := div_fin lit1_fin (isFin_of_not hx.1 hi) xpos.ne'
        rw [lit1_val] at hd
        have hle : 1 / (s * sr).val ≤ 1 / 2 / sr.val := by
          rw [div_div]; exact one_div_le_one_div_of_le (by linarith) hx.2
        have h0 : 0 ≤ 1 / (s * sr).val := by positivity
        rw [hd, hlod]
        refine ⟨rnd_fin_of_lt ?_, rnd_mono hle⟩
        rw [abs_of_nonneg h0]; exact lt_of_le_of_lt (hle.trans q1) (by norm_num)
      · have h1 : 1 ≤ (s * sr).val := by
          have := abs_val_inf hi
          rw [abs_of_pos xpos, magVal_infMag] at this
          rw [this]; norm_num
        have hdef : (lit 1 / (s * sr) : F32) = pack ((lit 1 : F32).neg != (s * sr).neg) 0 := by
          show F32.div _ _ = _
          unfold F32.div
          rw [isFin.not_nan lit1_fin, hx.1, isFin.not_inf lit1_fin, hi]; rfl
        refine ⟨(one_div_big hx.1 h1).1, ?_⟩
        have hm : (pack ((lit 1 : F32).neg != (s * sr).neg) 0).mag = 0 := mag_pack_le (by norm_num [infMag])
        have hv : (pack ((lit 1 : F32).neg != (s * sr).neg) 0).val = 0 := by rw [val_eq_zero]; exact hm
        rw [hdef, hv]; exact plo.le
    obtain ⟨r, hr', -, c1, -, c3⟩ := clamp_cases (x := lit 1 / (s * sr)) (isFin.not_nan flo) (isFin.not_nan maxFin_fin) mlo
    unfold setTimeParameter
    rw [hr']
    refine congrArg Except.ok ?_
    rcases lt_or_eq_of_le hq.2 with hlt | heq
    · exact c1 (isFin.not_nan hq.1) hlt
    · rw [c3 (isFin.not_nan hq.1) heq.ge (by rw [heq]; exact mlo)]
      exact eq_of_val_eq heq (by rw [heq]; exact plo.ne')
  exact ⟨key secs hs h2, key (lit 2) lit2_fin (by rw [lit2_val])⟩

/-- ten seconds at 48 kHz: the rate of two seconds -/
example : setTimeParameter (lit 10) (lit 48000) = setTimeParameter (lit 2) (lit 48000) := by decide +kernel

/-! ## C90 -/

/-- C90: `set_sr` keeps the durations `1/(rate·sr)` in seconds (to a thousandth). -/
def C90_Full : Prop :=
  ∀ powf, PowfModerate powf → ∀ e xs, ModeratelyReached powf e xs → ∀ sr : F32, sr.isFin = true → 1 / 2 ≤ sr.val →
    |(e.setSr sr).attack.val * (e.setSr sr).sr.val - e.attack.val * e.sr.val| ≤ 1 / 1000 * (e.attack.val * e.sr.val) ∧
    |(e.setSr sr).decay.val * (e.setSr sr).sr.val - e.decay.val * e.sr.val| ≤ 1 / 1000 * (e.decay.val * e.sr.val) ∧
    |(e.setSr sr).release.val * (e.setSr sr).sr.val - e.release.val * e.sr.val| ≤ 1 / 1000 * (e.release.val * e.sr.val)

/-- Doubling the sample rate halves the durations. -/
theorem C90_refuted : ¬ C90_Full := fun h => by
  have := (h _ powf_one smallEnv [] (smallEnv_reached [] trivial rfl) (lit 16) (by decide +kernel) (by decide +kernel)).1
  revert this; decide +kernel

/-- `set_sr` does not touch what `tick` uses. -/
theorem tick_setSr (sr : F32) (e : AudioRateADSR) :
    (e.setSr sr).tick powf = ((e.tick powf).1.setSr sr, (e.tick powf).2) := by
  rcases hs : e.state with _ | _ | _ | _ | _
  · rw [idle_eq hs, idle_eq (e := e.setSr sr) hs]
  · rw [attack_eq hs, attack_eq (e := e.setSr sr) hs]; unfold AudioRateADSR.setSr; dsimp only; split <;> rfl
  · rw [decay_eq hs, decay_eq (e := e.setSr sr) hs]; unfold AudioRateADSR.setSr; dsimp only; split <;> rfl
  · rw [release_eq hs, release_eq (e := e.setSr sr) hs]; unfold AudioRateADSR.setSr; dsimp only; split <;> rfl
  · rw [sustain_eq hs, sustain_eq (e := e.setSr sr) hs]; rfl

/-- What the code does (and all that is left of C90): times set before keep their length in samples, not in seconds; every
later sample is the one that would have come without `set_sr`. -/
theorem C90_partial (sr : F32) (n : Nat) : ∀ e : AudioRateADSR, (ticks powf n (e.setSr sr)).2 = (ticks powf n e).2 ∧
    (ticks powf n (e.setSr sr)).1 = (ticks powf n e).1.setSr sr := by
  induction n with
  | zero => intro e; exact ⟨rfl, rfl⟩
  | succ n ih =>
    intro e
    unfold ticks
    dsimp only
    rw [tick_setSr]
    exact ⟨by rw [(ih _).1], (ih _).2⟩

example : (ticks (fun t _ => t) 3 (smallEnv.triggerOn.setSr (lit 16))).2 = [lit (1/4), lit (1/2), lit (3/4)] := by decide +kernel

/-! ## C91 -/

/-- Sample rates with 0.5/sr not a number up to f32::MAX: NaN, and +0 … 2^-129. (−0 and negative rates are not among them.) -/
def DegenerateRate (sr : F32) : Prop := sr.isNaN = true ∨ sr.neg = false ∧ sr.val ≤ 1 / 2 ^ 129

theorem magVal_2_20 : magVal (2 ^ 20) = 1 / 2 ^ 129 := by
  have h : magInt (2 ^ 20) = 2 ^ 20 := by decide
  unfold magVal unit; rw [h]; norm_num

theorem magVal_2_20_succ : magVal (2 ^ 20 + 1) = (2 ^ 20 + 1) / 2 ^ 149 := by
  have h : magInt (2 ^ 20 + 1) = 2 ^ 20 + 1 := by decide
  unfold magVal unit; rw [h]; norm_num

theorem lower_le_max {sr : F32} : F32.le (shortestTimeBase / sr) F32.maxFin = true ↔ ¬ DegenerateRate sr := by
  have hsb : shortestTimeBase.isFin = true := lithalf_fin
  have hsv : shortestTimeBase.val = 1 / 2 := lithalf_val
  have hneg : shortestTimeBase.neg = false := by decide +kernel
  have hmp : (0:ℚ) < F32.maxFin.val := lt_of_lt_of_le one_pos maxFin_ge_one
  have ok : ∀ {y : F32}, y.isNaN = false → y.val ≤ F32.maxFin.val → F32.le y F32.maxFin = true :=
    fun h1 h2 => le_iff.2 ⟨h1, isFin.not_nan maxFin_fin, h2⟩
  unfold DegenerateRate
  rcases hn : sr.isNaN with _ | _
  · rcases hi : sr.isInf with _ | _
    · have hf := isFin_of_not hn hi
      by_cases h0 : sr.val = 0
      · have hm := val_eq_zero.1 h0
        have hd : (shortestTimeBase / sr : F32) = pack (shortestTimeBase.neg != sr.neg) infMag := by
          show F32.div _ _ = _
          unfold F32.div
          rw [isFin.not_nan hsb, hn, isFin.not_inf hsb, hi, hm]
          have : shortestTimeBase.mag ≠ 0 := by decide +kernel
          simp [this]
        rw [hd, hneg, h0]
        rcases hs : sr.neg with _ | _
        · simp only [bne_self_eq_false, Bool.false_eq_true, false_or, true_and]
          have h1 : F32.le (pack false infMag) F32.maxFin = false := by decide +kernel
          rw [h1]; simp
        · simp only [Bool.false_bne, Bool.true_eq_false, false_and, or_self, not_false_eq_true, iff_true, Bool.false_eq_true]
          decide +kernel
      · rw [div_fin hsb hf h0, hsv]
        rcases hs : sr.neg with _ | _
        · have hp : 0 < sr.val := lt_of_le_of_ne (by rw [val_of_pos hs]; exact magVal_nonneg _) (Ne.symm h0)
          simp only [Bool.false_eq_true, false_or, true_and, not_le]
          constructor
          · intro hle
            by_contra hc
            have hq : magVal infMag ≤ 1 / 2 / sr.val := by
              rw [magVal_infMag, div_div, le_div_iff₀ (by linarith)]
              have h1 : (2:ℚ) ^ 128 * (2 * (1 / 2 ^ 129)) = 1 := by norm_num
              have h2 : (2:ℚ) ^ 128 * (2 * sr.val) ≤ 2 ^ 128 * (2 * (1 / 2 ^ 129)) :=
                mul_le_mul_of_nonneg_left (by linarith) (by positivity)
              linarith
            have h1 := le_rnd_val_pos (s := shortestTimeBase.neg != false) (le_refl _) hq
            have h2 := (le_iff.1 hle).2.2
            rw [maxFin_val] at h2; rw [magVal_infMag] at h1
            have h3 : ((2:ℚ) ^ 24 - 1) * 2 ^ 104 < 2 ^ 128 := by norm_num
            linarith
          · intro hc
            have hge : magVal (2 ^ 20 + 1) ≤ sr.val := by
              rw [val_of_pos hs] at hc ⊢
              rw [← magVal_2_20, magVal_lt] at hc
              exact magVal_le.2 hc
            rw [magVal_2_20_succ] at hge
            have hlt : |1 / 2 / sr.val| < 2 ^ 128 - 2 ^ 103 := by
              rw [abs_of_pos (by positivity), div_div, div_lt_iff₀ (by linarith)]
              have h1 : (1:ℚ) < (2 ^ 128 - 2 ^ 103) * (2 * ((2 ^ 20 + 1) / 2 ^ 149)) := by norm_num
              have h2 : ((2:ℚ) ^ 128 - 2 ^ 103) * (2 * ((2 ^ 20 + 1) / 2 ^ 149)) ≤ (2 ^ 128 - 2 ^ 103) * (2 * sr.val) :=
                mul_le_mul_of_nonneg_left (by linarith) (by norm_num)
              linarith
            have hff := rnd_fin_of_lt (s := shortestTimeBase.neg != false) hlt
            refine ok (isFin.not_nan hff) ?_
            rw [maxFin_val]; exact (le_abs_self _).trans (fin_le_max hff)
        · simp only [Bool.false_eq_true, Bool.true_eq_false, false_and, or_self, not_false_eq_true, iff_true]
          refine ok (rnd_not_nan _ _) ((rnd_val_nonpos ?_).trans hmp.le)
          have : sr.val ≤ 0 := by rw [val_of_neg hs]; linarith [magVal_nonneg sr.mag]
          exact div_nonpos_of_nonneg_of_nonpos (by norm_num) this
    · have hd : (shortestTimeBase / sr : F32) = pack (shortestTimeBase.neg != sr.neg) 0 := by
        show F32.div _ _ = _
        unfold F32.div
        rw [isFin.not_nan hsb, hn, isFin.not_inf hsb, hi]; rfl
      have hbig : ¬ (sr.neg = false ∧ sr.val ≤ 1 / 2 ^ 129) := by
        rintro ⟨h1, h2⟩
        rw [val_of_pos h1, isInf_iff.1 hi, magVal_infMag] at h2
        revert h2; norm_num
      have : F32.le (shortestTimeBase / sr) F32.maxFin = true := by
        rw [hd]; cases (shortestTimeBase.neg != sr.neg) <;> decide +kernel
      exact ⟨fun _ => by simpa only [Bool.false_eq_true, false_or] using hbig, fun _ => this⟩
  · have : F32.le (shortestTimeBase / sr) F32.maxFin = false := by
      rw [Bool.eq_false_iff]; intro hh
      have h1 := (le_iff.1 hh).1
      rw [div_nan_right hn] at h1
      revert h1; decide
    simp [this]

theorem setTime_panics {secs sr : F32} :
    (DegenerateRate sr → setTimeParameter secs sr = .error .panic) ∧
    (¬ DegenerateRate sr → ∃ r, setTimeParameter secs sr = .ok r) := by
  unfold setTimeParameter F32.clamp
  constructor
  · intro h
    rw [if_neg (fun hh => lower_le_max.1 hh h)]
  · intro h
    rw [if_pos (lower_le_max.2 h)]; exact ⟨_, rfl⟩

/-- C91, constructor: it panics exactly for degenerate sample rates, whatever the other arguments (NaN included). -/
theorem C91_new_panics (a d s r sl sr : F32) :
    (DegenerateRate sr → AudioRateADSR.new a d s r sl sr = .error .panic) ∧
    (¬ DegenerateRate sr → ∃ e, AudioRateADSR.new a d s r sl sr = .ok e) := by
  unfold AudioRateADSR.new
  rw [clamp01_eq, ok_bind]
  constructor
  · intro h
    rw [setTime_panics.1 h]; rfl
  · intro h
    obtain ⟨d', hd⟩ := (setTime_panics (secs := d)).2 h
    obtain ⟨a', ha⟩ := (setTime_panics (secs := a)).2 h
    obtain ⟨r', hr⟩ := (setTime_panics (secs := r)).2 h
    rw [hd, ok_bind, ha, ok_bind, hr, ok_bind]; exact ⟨_, rfl⟩

/-- C91, the calls: the time setters panic exactly when the current rate is degenerate, no other call ever panics. -/
theorem C91_calls_panic (e : AudioRateADSR) (o : EnvOp) :
    ((∃ x, o = .setAttack x ∨ o = .setDecay x ∨ o = .setRelease x) → DegenerateRate e.sr → applyEnv powf e o = .error .panic) ∧
    (((∃ x, o = .setAttack x ∨ o = .setDecay x ∨ o = .setRelease x) → ¬ DegenerateRate e.sr) → ∃ r, applyEnv powf e o = .ok r) := by
  have ht : ∀ x, (DegenerateRate e.sr → setTimeParameter x e.sr = .error .panic) ∧
      (¬ DegenerateRate e.sr → ∃ r, setTimeParameter x e.sr = .ok r) := fun x => setTime_panics
  cases o with
  | setAttack x =>
    refine ⟨fun _ h => ?_, fun h => ?_⟩
    · simp only [applyEnv, setAttack, (ht x).1 h]; rfl
    · obtain ⟨r, hr⟩ := (ht x).2 (h ⟨x, .inl rfl⟩)
      simp only [applyEnv, setAttack, hr]; exact ⟨_, rfl⟩
  | setDecay x =>
    refine ⟨fun _ h => ?_, fun h => ?_⟩
    · simp only [applyEnv, setDecay, (ht x).1 h]; rfl
    · obtain ⟨r, hr⟩ := (ht x).2 (h ⟨x, .inr (.inl rfl)⟩)
      simp only [applyEnv, setDecay, hr]; exact ⟨_, rfl⟩
  | setRelease x =>
    refine ⟨fun _ h => ?_, fun h => ?_⟩
    · simp only [applyEnv, setRelease, (ht x).1 h]; rfl
    · obtain ⟨r, hr⟩ := (ht x).2 (h ⟨x, .inr (.inr rfl)⟩)
      simp only [applyEnv, setRelease, hr]; exact ⟨_, rfl⟩
  | setSustain x =>
    refine ⟨fun h => by simp at h, fun _ => ?_⟩
    simp only [applyEnv, setSustain, clamp01_eq]; exact ⟨_, rfl⟩
  | setSlope x =>
    refine ⟨fun h => by simp at h, fun _ => ?_⟩
    have : F32.le (lit 1 / biggestSlope) biggestSlope = true := by decide +kernel
    simp only [applyEnv, setSlope, F32.clamp, this, if_true]; exact ⟨_, rfl⟩
  | setSr x => exact ⟨fun h => by simp at h, fun _ => ⟨_, rfl⟩⟩
  | on => exact ⟨fun h => by simp at h, fun _ => ⟨_, rfl⟩⟩
  | off => exact ⟨fun h => by simp at h, fun _ => ⟨_, rfl⟩⟩
  | reset => exact ⟨fun h => by simp at h, fun _ => ⟨_, rfl⟩⟩
  | tick => exact ⟨fun h => by simp at h, fun _ => ⟨_, rfl⟩⟩

/-- zero is degenerate, 48 kHz is not; −0 is not -/
example : DegenerateRate (lit 0) ∧ ¬ DegenerateRate (lit 48000) ∧ ¬ DegenerateRate (-(lit 0)) := by
  refine ⟨.inr ?_, ?_, ?_⟩
  · decide +kernel
  · rintro (h | h) <;> revert h <;> decide +kernel
  · rintro (h | h) <;> revert h <;> decide +kernel

end Verif
