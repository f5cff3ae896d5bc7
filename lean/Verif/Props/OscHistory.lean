import Verif.Props.SinAccuracy
import Verif.Props.Conversion

/-! # C96 – C98: oscillators over whole histories of calls

C70, C69 and C95 say what one call returns from any state. Here the state itself is followed through every sequence of
calls and settings. -/

namespace Verif
open F32 FunctionalOscillator

/-- The calls a user of an oscillator can make. `setWave` exists for `FunctionalOscillator` only. -/
inductive OscOp where
  | next
  | setFreq (f : F32)
  | setSr (sr : F32)
  | setShift (s : F32)
  | setWave (w : Waveform)
  deriving DecidableEq

/-- Specification: a phase shift given as a fraction of a turn, in units of `2^-32` turn. Negative numbers and NaN count
as 0, one turn or more as the largest `u32`. -/
def turnShift (s : F32) : Nat :=
  if s.isNaN = true ∨ s.val < 0 then 0 else min (2 ^ 32 - 1) ⌊s.val * 2 ^ 32⌋.toNat

namespace OscOp
/-- What each call means for the accumulator inside. -/
def toPhase : OscOp → Option PhaseOp
  | next => some .nextNormalized
  | setFreq f => some (.setFreq f)
  | setSr sr => some (.setSr sr)
  | setShift s => some (.setShift (turnShift s))
  | setWave _ => none
def wave? : OscOp → Option Waveform | setWave w => some w | _ => none
end OscOp

/-- One call on a `FunctionalOscillator`. -/
def applyOsc (checks : Bool) (floor : F32 → F32) (rem : F32 → F32 → F32) (o : FunctionalOscillator SoftPhaseAccumulator) :
    OscOp → M (FunctionalOscillator SoftPhaseAccumulator)
  | .next => do let r ← o.next checks floor rem; return r.1
  | .setFreq f => .ok (o.setFreqUnchecked f)
  | .setSr f => .ok (o.setSrUnchecked f)
  | .setShift s => .ok (o.setPhaseShiftUnchecked s)
  | .setWave w => .ok (o.setWave w)

def runOsc (checks : Bool) (floor : F32 → F32) (rem : F32 → F32 → F32) (o : FunctionalOscillator SoftPhaseAccumulator)
    (ops : List OscOp) : M (FunctionalOscillator SoftPhaseAccumulator) :=
  ops.foldlM (fun o op => applyOsc checks floor rem o op) o

/-! ## Helper lemmas -/

theorem inf_cases {s : F32} (h : s.isInf = true) : s = inf ∨ s = negInf := by
  cases hs : s.neg with
  | true => right; exact ext_neg_mag (by rw [hs]; decide) (by rw [isInf_iff.1 h]; decide)
  | false => left; exact ext_neg_mag (by rw [hs]; decide) (by rw [isInf_iff.1 h]; decide)

/-- The shift the code computes is the specified one. -/
theorem f2u32_shift (s : F32) : f2u32 (s * u32MaxF) = turnShift s := by
  rcases class_cases s with h | h | h
  · rw [f2u32_eq]
    unfold turnShift
    rw [mul_nan_left h, if_pos (Or.inl isNaN_nan), if_pos (Or.inl h)]
  · rcases inf_cases h with rfl | rfl <;> decide +kernel
  · rw [f2u32_eq]
    unfold turnShift
    have hn := isFin.not_nan h
    have hm := mul_fin h u32MaxF_fin
    rw [u32MaxF_val] at hm
    have hmn : (s * u32MaxF).isNaN = false := by rw [hm]; exact rnd_not_nan _ _
    have r32 : Rep (2 ^ 32) := ⟨u32MaxF, u32MaxF_fin, u32MaxF_val⟩
    by_cases hb : |s.val| < 1
    · have hv : (s * u32MaxF).val = s.val * 2 ^ 32 := by
        rw [hm]
        refine (rep_scale h 32 ?_).rnd_val _
        rw [abs_mul, abs_of_nonneg (by norm_num : (0:ℚ) ≤ 2 ^ 32)]
        exact lt_of_lt_of_le (mul_lt_mul_of_pos_right hb (by norm_num)) (by norm_num)
      rw [hv, hmn, hn]
      have : s.val * 2 ^ 32 < 0 ↔ s.val < 0 := by constructor <;> intro h' <;> linarith
      simp only [this]
    · rw [not_lt] at hb
      by_cases h0 : s.val < 0
      · rw [abs_of_neg h0] at hb
        have : (s * u32MaxF).val < 0 := by
          rw [hm]; exact lt_of_le_of_lt (rnd_le_rep r32.neg (by linarith)) (by norm_num)
        rw [if_pos (Or.inr this), if_pos (Or.inr h0)]
      · rw [not_lt] at h0
        rw [abs_of_nonneg h0] at hb
        have hge : 2 ^ 32 ≤ (s * u32MaxF).val := by rw [hm]; exact rep_le_rnd r32 (by linarith)
        have f1 : (2 ^ 32 : Int) ≤ ⌊(s * u32MaxF).val⌋ := Int.le_floor.2 (by push_cast; exact hge)
        have f2 : (2 ^ 32 : Int) ≤ ⌊s.val * 2 ^ 32⌋ := Int.le_floor.2 (by push_cast; linarith)
        rw [if_neg (by rw [hmn]; simp; linarith), if_neg (by rw [hn]; simp; exact h0)]
        omega

variable {checks : Bool} {floor : F32 → F32} {rem : F32 → F32 → F32}

theorem wave_cases (o : FunctionalOscillator SoftPhaseAccumulator) :
    o.wave = .sine ∨ o.wave = .rectangle ∨ o.wave = .sawtooth ∨ o.wave = .triangle := by
  cases o.wave <;> simp

/-- Whatever the waveform, `next` succeeds and advances the accumulator once. -/
theorem osc_next (hrem : RemContract rem) (o : FunctionalOscillator SoftPhaseAccumulator) :
    ∃ x, o.next checks floor rem = .ok ({ o with acc := o.acc.nextValue.1 }, x) := by
  rcases wave_cases o with hw | hw | hw | hw
  · obtain ⟨x, h, -⟩ := C95_sine_oscillator hrem checks floor o hw; exact ⟨x, h⟩
  · exact ⟨_, next_rect checks floor rem o hw⟩
  · exact ⟨_, next_saw checks floor rem o hw⟩
  · exact ⟨_, next_tri checks floor rem o hw⟩

theorem runOsc_snoc (o : FunctionalOscillator SoftPhaseAccumulator) (ops : List OscOp) (op : OscOp) :
    runOsc checks floor rem o (ops ++ [op]) = (do let o' ← runOsc checks floor rem o ops; applyOsc checks floor rem o' op) := by
  unfold runOsc
  rw [List.foldlM_append]
  simp

/-! ## C96 -/

/-- The waveform in force after `ops`. -/
def waveInForce (w : Waveform) (ops : List OscOp) : Waveform := ((ops.filterMap OscOp.wave?).getLast?).getD w

/-- C96: no history of calls fails; the accumulator inside goes through exactly the corresponding calls, changes of waveform
leave it alone, and nothing but `set_wave` changes the waveform. -/
theorem C96_state (hrem : RemContract rem) (o : FunctionalOscillator SoftPhaseAccumulator) (ops : List OscOp) :
    runOsc checks floor rem o ops = .ok ⟨runPhase o.acc (ops.filterMap OscOp.toPhase), waveInForce o.wave ops⟩ := by
  induction ops using List.reverseRecOn with
  | nil => rfl
  | append_singleton ops op ih =>
    rw [runOsc_snoc, ih, List.filterMap_append, ok_bind]
    cases op with
    | next =>
      obtain ⟨x, hx⟩ := osc_next (checks := checks) (floor := floor) hrem
        ⟨runPhase o.acc (ops.filterMap OscOp.toPhase), waveInForce o.wave ops⟩
      show (do let r ← FunctionalOscillator.next checks floor rem _; return r.1) = _
      rw [hx, ok_bind]
      simp [waveInForce, OscOp.wave?, OscOp.toPhase, runPhase_snoc, applyPhase, pure, Except.pure,
        C65_same_advance]
    | setFreq f => simp [waveInForce, OscOp.wave?, OscOp.toPhase, runPhase_snoc, applyPhase, applyOsc,
        FunctionalOscillator.setFreqUnchecked, PhaseAccumulator.setFreqUnchecked]
    | setSr f => simp [waveInForce, OscOp.wave?, OscOp.toPhase, runPhase_snoc, applyPhase, applyOsc,
        FunctionalOscillator.setSrUnchecked, PhaseAccumulator.setSrUnchecked]
    | setShift f => simp [waveInForce, OscOp.wave?, OscOp.toPhase, runPhase_snoc, applyPhase, applyOsc,
        FunctionalOscillator.setPhaseShiftUnchecked, PhaseAccumulator.setPhaseShift, f2u32_shift]
    | setWave f =>
      rw [show List.filterMap OscOp.toPhase [OscOp.setWave f] = [] from rfl, List.append_nil]
      simp [waveInForce, OscOp.wave?, applyOsc, FunctionalOscillator.setWave]

/-- Specification: one period of each ideal waveform, over a phase in [0,1). -/
noncomputable def idealWave : Waveform → ℝ → ℝ
  | .sine, t => Real.sin (2 * Real.pi * t)
  | .sawtooth, t => 2 * t - 1
  | .triangle, t => if t ≤ 1 / 2 then 4 * t - 1 else 3 - 4 * t
  | .rectangle, t => if t < 1 / 2 then -1 else 1

/-- The phase at which the call after the history `ops` is made: the distance travelled by all calls including this one,
plus the shift in force, modulo one turn. -/
def phaseOfCall (a : SoftPhaseAccumulator) (sr : F32) (ops : List OscOp) : Nat :=
  (a.counter + travelled a.freq sr (ops.filterMap OscOp.toPhase ++ [.next]) +
    inForce PhaseOp.shift? a.shift (ops.filterMap OscOp.toPhase)) % 2 ^ 32

/-- C96: after every history of calls, `next` returns (to within 0.0004) the ideal waveform in force at the phase given by
the settings in force at each earlier call. For the rectangle the phases within 256 units of `2^-32` turn of an edge are
left out: there rounding of the phase moves the edge (and C69 says what happens at the end of the turn). -/
theorem C96_output (hrem : RemContract rem) (hfl : FloorContract floor) (o : FunctionalOscillator SoftPhaseAccumulator)
    {sr : F32} (hc : o.acc.counter < 2 ^ 32) (hm : o.acc.minStep = u32MaxF / sr) (ops : List OscOp) :
    let k := phaseOfCall o.acc sr ops
    (waveInForce o.wave ops = .rectangle → k + 256 < 2 ^ 31 ∨ 2 ^ 31 ≤ k ∧ k + 256 < 2 ^ 32) →
    ∃ o' o'' x, runOsc checks floor rem o ops = .ok o' ∧ o'.next checks floor rem = .ok (o'', x) ∧ x.isFin = true ∧
      |(x.val : ℝ) - idealWave (waveInForce o.wave ops) (k / 2 ^ 32)| ≤ 4 / 10 ^ 4 := by
  intro k hrect
  have hk : (runPhase o.acc (ops.filterMap OscOp.toPhase)).nextValue.2 = k := by
    have := (C66_output hc hm (ops.filterMap OscOp.toPhase)).1
    injection this
  obtain ⟨o', ho'⟩ : ∃ o' : FunctionalOscillator SoftPhaseAccumulator,
    o' = ⟨runPhase o.acc (ops.filterMap OscOp.toPhase), waveInForce o.wave ops⟩ := ⟨_, rfl⟩
  have hk' : o'.acc.nextValue.2 = k := by rw [ho']; exact hk
  have hw' : o'.wave = waveInForce o.wave ops := by rw [ho']
  rw [← hw'] at hrect ⊢
  have hgo : ∀ q : ℚ, ∀ r : ℝ, ∀ x : F32, |x.val - q| ≤ 1 / 2 ^ 20 → (q : ℝ) = r → |(x.val : ℝ) - r| ≤ 4 / 10 ^ 4 := by
    intro q r x h1 h2
    have := (Rat.cast_le (K := ℝ)).2 h1
    push_cast at this
    rw [h2] at this
    exact this.trans (by norm_num)
  suffices ∃ o'' x, o'.next checks floor rem = .ok (o'', x) ∧ x.isFin = true ∧
      |(x.val : ℝ) - idealWave o'.wave (k / 2 ^ 32)| ≤ 4 / 10 ^ 4 by
    obtain ⟨o'', x, h⟩ := this
    exact ⟨o', o'', x, by rw [C96_state hrem]; exact congrArg _ ho'.symm, h⟩
  rcases wave_cases o' with hw | hw | hw | hw
  · obtain ⟨x, h1, h2, -, -, h3⟩ := C95_sine_oscillator hrem checks floor o' hw
    rw [hk'] at h3
    exact ⟨_, x, h1, h2, by rw [hw]; exact h3⟩
  · have hr := hrect hw
    obtain ⟨o'', x, h1, h2, h3⟩ := C69_partial checks rem hfl o' hw (by omega)
    refine ⟨o'', x, h1, ?_, ?_⟩
    · rcases h2 with rfl | rfl
      · exact litm1_fin
      · exact lit1_fin
    · rw [hw]
      have hhalf : 1 / 2 ≤ o'.acc.nextValueNormalized.2.val ↔ ¬ ((k : ℝ) / 2 ^ 32 < 1 / 2) := by
        rw [not_lt]
        constructor
        · intro h
          have he := phase_err o'.acc
          rw [hk'] at he
          rcases hr with hr | hr
          · exfalso
            have hkq : (k : ℚ) + 256 < 2 ^ 31 := by exact_mod_cast hr
            have := (abs_le.1 he).2
            rw [div_eq_mul_inv (k : ℚ)] at this
            norm_num at this hkq h
            linarith
          · have : (2 ^ 31 : ℝ) ≤ k := by exact_mod_cast hr.1
            rw [le_div_iff₀ (by norm_num)]; norm_num at this ⊢; exact this
        · intro h
          rw [le_div_iff₀ (by norm_num)] at h
          refine phase_half_ge ?_
          rw [hk']
          have : (2 ^ 31 : ℝ) ≤ k := by norm_num at h ⊢; exact h
          exact_mod_cast this
      rw [hhalf] at h3
      unfold idealWave
      rcases h2 with h2 | h2
      · have hne : ¬ x = lit 1 := by rw [h2]; intro h; have := congrArg F32.val h; rw [lit1_val, litm1_val] at this; norm_num at this
        rw [h3, not_not] at hne
        simp only [if_pos hne]
        rw [h2, litm1_val]; norm_num
      · simp only [if_neg (h3.1 h2)]
        rw [h2, lit1_val]; norm_num
  · obtain ⟨o'', x, h1, h2, h3⟩ := C68_range checks floor rem o' (Or.inl hw)
    obtain ⟨o2, x2, g1, -, g2⟩ := C70_saw checks floor rem o' hw
    rw [h1] at g1; cases g1
    refine ⟨o'', x, h1, h2, ?_⟩
    rw [hk'] at g2
    rw [hw]
    exact hgo _ _ x (g2.trans (by norm_num)) (by unfold idealWave; push_cast; rfl)
  · obtain ⟨o'', x, h1, h2, h3⟩ := C68_range checks floor rem o' (Or.inr hw)
    obtain ⟨o2, x2, g1, g2⟩ := C70_tri checks floor rem o' hw
    rw [h1] at g1; cases g1
    refine ⟨o'', x, h1, h2, ?_⟩
    rw [hk'] at g2
    rw [hw]
    refine hgo _ _ x g2 ?_
    unfold idealWave idealTriangle
    have : (k : ℚ) / 2 ^ 32 ≤ 1 / 2 ↔ (k : ℝ) / 2 ^ 32 ≤ 1 / 2 := by
      rw [← Rat.cast_le (K := ℝ)]; push_cast; rfl
    by_cases h : (k : ℚ) / 2 ^ 32 ≤ 1 / 2
    · simp only [if_pos h, if_pos (this.1 h)]; push_cast; rfl
    · simp only [if_neg h, if_neg (mt this.2 h)]; push_cast; rfl

/-- An oscillator at 440 Hz, then retuned, shifted and switched to a rectangle in mid flight. -/
example : RemContract mmRem ∧ FloorContract mmFloor ∧
    (SoftPhaseAccumulator.new (lit 440) (lit 48000)).counter < 2 ^ 32 ∧
    (SoftPhaseAccumulator.new (lit 440) (lit 48000)).minStep = u32MaxF / lit 48000 ∧
    waveInForce .sine [.next, .setFreq (lit 880), .next, .setShift (lit (1 / 2)), .setWave .rectangle] = .rectangle ∧
    phaseOfCall (SoftPhaseAccumulator.new (lit 440) (lit 48000)) (lit 48000)
      [.next, .setFreq (lit 880), .next, .setShift (lit (1 / 2)), .setWave .rectangle] =
      39370532 + 78741064 + 78741064 + 2 ^ 31 ∧
    ((runOsc true mmFloor mmRem (FunctionalOscillator.new (SoftPhaseAccumulator.new (lit 440) (lit 48000)))
      [.next, .setFreq (lit 880), .next, .setShift (lit (1 / 2)), .setWave .rectangle]).bind
        (fun o => o.next true mmFloor mmRem)).toOption.map (·.2) = some (lit 1) :=
  ⟨mmRem_contract, mmFloor_contract, by decide +kernel, by decide +kernel, by decide +kernel, by decide +kernel,
    by decide +kernel⟩

/-! ## C97 -/

/-- C97 in full: a shift by `s` turns moves every later phase by `s` turns, modulo one, to within `2^-32` turn. -/
def C97_Full : Prop := ∀ (o : FunctionalOscillator SoftPhaseAccumulator) (s : F32), s.isFin = true →
  ∃ d : Nat, (d : Int) = ⌊s.val * 2 ^ 32⌋ % 2 ^ 32 ∧
    (o.setPhaseShiftUnchecked s).acc.nextValue.2 = (o.acc.counter + phaseStepOf o.acc + d) % 2 ^ 32
where
  /-- the step of an accumulator state -/
  phaseStepOf (a : SoftPhaseAccumulator) : Nat :=
    let q := a.freq * a.minStep
    if q.isNaN = true ∨ q.val < 0 then 0 else min (2 ^ 32 - 1) ⌊q.val⌋.toNat

theorem shifted_phase (o : FunctionalOscillator SoftPhaseAccumulator) (s : F32) :
    (o.setPhaseShiftUnchecked s).acc.nextValue.2 =
      (o.acc.counter + C97_Full.phaseStepOf o.acc + turnShift s) % 2 ^ 32 := by
  have h : (o.setPhaseShiftUnchecked s).acc = o.acc.setPhaseShift (turnShift s) := by
    rw [← f2u32_shift]; rfl
  rw [h]
  have : f2u32 (o.acc.freq * o.acc.minStep) = C97_Full.phaseStepOf o.acc := by rw [f2u32_eq]; rfl
  simp [SoftPhaseAccumulator.setPhaseShift, SoftPhaseAccumulator.nextValue, SoftPhaseAccumulator.tick, wrappingAdd32, this]

/-- C97 fails: a shift by minus a quarter turn is no shift at all. -/
theorem C97_refuted : ¬ C97_Full := by
  intro h
  obtain ⟨d, hd, hp⟩ := h ⟨SoftPhaseAccumulator.new (lit 0) (lit 48000), .sine⟩ (lit (-1 / 4)) (by decide +kernel)
  have e : (lit (-1 / 4) : F32).val = -1 / 4 := by decide +kernel
  rw [e] at hd
  norm_num at hd
  have hv : (FunctionalOscillator.setPhaseShiftUnchecked ⟨SoftPhaseAccumulator.new (lit 0) (lit 48000), .sine⟩
    (lit (-1 / 4))).acc.nextValue.2 = 0 := by decide +kernel
  have hz : C97_Full.phaseStepOf (SoftPhaseAccumulator.new (lit 0) (lit 48000)) = 0 := by decide +kernel
  rw [hv, hz] at hp
  simp only [SoftPhaseAccumulator.new] at hp
  omega

/-- C97, what holds: it is so for shifts from 0 up to (excluding) one turn. Missing: negative shifts and shifts of a turn
or more. -/
theorem C97_partial (o : FunctionalOscillator SoftPhaseAccumulator) {s : F32} (h0 : 0 ≤ s.val) (h1 : s.val < 1) :
    ∃ d : Nat, (d : Int) = ⌊s.val * 2 ^ 32⌋ % 2 ^ 32 ∧
    (o.setPhaseShiftUnchecked s).acc.nextValue.2 = (o.acc.counter + C97_Full.phaseStepOf o.acc + d) % 2 ^ 32 := by
  refine ⟨turnShift s, ?_, shifted_phase o s⟩
  have hn : s.isNaN = false := isFin.not_nan (fin_of_val (by rw [abs_of_nonneg h0]; exact lt_trans h1 (by norm_num)))
  have f0 : 0 ≤ ⌊s.val * 2 ^ 32⌋ := Int.floor_nonneg.2 (by positivity)
  have f1 : ⌊s.val * 2 ^ 32⌋ < 2 ^ 32 := Int.floor_lt.2 (by push_cast; linarith)
  unfold turnShift
  rw [if_neg (by rw [hn]; simp; exact h0)]
  omega

/-- C97, what the code does with the rest: negative shifts (and NaN) are no shift, a turn or more is the largest shift
below one turn. -/
theorem C97_actual (o : FunctionalOscillator SoftPhaseAccumulator) (s : F32) :
    (s.isNaN = true ∨ s.val < 0 → (o.setPhaseShiftUnchecked s).acc.nextValue.2 =
      (o.acc.counter + C97_Full.phaseStepOf o.acc) % 2 ^ 32) ∧
    (s.isNaN = false → 1 ≤ s.val → (o.setPhaseShiftUnchecked s).acc.nextValue.2 =
      (o.acc.counter + C97_Full.phaseStepOf o.acc + (2 ^ 32 - 1)) % 2 ^ 32) := by
  rw [shifted_phase]
  constructor
  · intro h; unfold turnShift; rw [if_pos h]; rfl
  · intro hn h1
    have f2 : (2 ^ 32 : Int) ≤ ⌊s.val * 2 ^ 32⌋ := Int.le_floor.2 (by push_cast; linarith)
    have : turnShift s = 2 ^ 32 - 1 := by
      unfold turnShift
      rw [if_neg (by rw [hn]; simp; linarith)]
      omega
    rw [this]

/-- a third of a turn, minus a quarter, and one and a half turns -/
example : turnShift (lit (1 / 3)) = 1431655808 ∧ turnShift (lit (-1 / 4)) = 0 ∧ turnShift (lit (3 / 2)) = 2 ^ 32 - 1 ∧
    turnShift nan = 0 ∧ turnShift (lit (1 / 4)) = 2 ^ 30 := by decide +kernel

/-! ## C98 -/

/-- One call on a `WavetableOscillator` (which has no `set_wave`). -/
def applyWave (c : Cfg) (mem : Mem F32) (o : WavetableOscillator SoftPhaseAccumulator) :
    OscOp → M (WavetableOscillator SoftPhaseAccumulator)
  | .next => do let r ← o.next c mem; return r.1
  | .setFreq f => .ok (o.setFreqUnchecked f)
  | .setSr f => .ok (o.setSrUnchecked f)
  | .setShift s => .ok (o.setPhaseShiftUnchecked s)
  | .setWave _ => .ok o

def runWaveOps (c : Cfg) (mem : Mem F32) (o : WavetableOscillator SoftPhaseAccumulator) (ops : List OscOp) :
    M (WavetableOscillator SoftPhaseAccumulator) :=
  ops.foldlM (fun o op => applyWave c mem o op) o

theorem runWaveOps_snoc (c : Cfg) (mem : Mem F32) (o : WavetableOscillator SoftPhaseAccumulator) (ops : List OscOp)
    (op : OscOp) :
    runWaveOps c mem o (ops ++ [op]) = (do let o' ← runWaveOps c mem o ops; applyWave c mem o' op) := by
  unfold runWaveOps
  rw [List.foldlM_append]
  simp

/-- C98: over every history of calls that does not fail, the table stays the same and the accumulator goes through exactly
the corresponding calls. -/
theorem C98_state (c : Cfg) (mem : Mem F32) (o : WavetableOscillator SoftPhaseAccumulator) (ops : List OscOp)
    {o' : WavetableOscillator SoftPhaseAccumulator} (h : runWaveOps c mem o ops = .ok o') :
    o' = ⟨o.lookupTable, runPhase o.acc (ops.filterMap OscOp.toPhase)⟩ := by
  induction ops using List.reverseRecOn generalizing o' with
  | nil => cases h; rfl
  | append_singleton ops op ih =>
    rw [runWaveOps_snoc] at h
    cases hr : runWaveOps c mem o ops with
    | error e => rw [hr] at h; cases h
    | ok o₁ =>
      rw [hr, ok_bind] at h
      have h1 := ih hr
      subst h1
      rw [List.filterMap_append]
      cases op with
      | next =>
        have h2 : (do let r ← WavetableOscillator.next c mem _; return r.1) = Except.ok o' := h
        unfold WavetableOscillator.next at h2
        simp only [bind, Except.bind] at h2
        split at h2
        · cases h2
        · rename_i r hr2
          split at hr2
          · cases hr2
          · simp only [pure, Except.pure] at hr2 h2
            cases hr2
            cases h2
            rw [show List.filterMap OscOp.toPhase [OscOp.next] = [PhaseOp.nextNormalized] from rfl, runPhase_snoc]
            rfl
      | setFreq f => cases h; rw [show List.filterMap OscOp.toPhase [OscOp.setFreq f] = [PhaseOp.setFreq f] from rfl,
          runPhase_snoc]; rfl
      | setSr f => cases h; rw [show List.filterMap OscOp.toPhase [OscOp.setSr f] = [PhaseOp.setSr f] from rfl,
          runPhase_snoc]; rfl
      | setShift f =>
        rw [show List.filterMap OscOp.toPhase [OscOp.setShift f] = [PhaseOp.setShift (turnShift f)] from rfl,
          runPhase_snoc, ← f2u32_shift]; cases h; rfl
      | setWave f => cases h; rw [show List.filterMap OscOp.toPhase [OscOp.setWave f] = [] from rfl, List.append_nil]

/-- C98: `next` on a live table is the only call that can fail, and only by reading past the table. -/
theorem C98_fault {c : Cfg} {mem : Mem F32} {xs : List F32} {s : MemorySlice} (h : OwnBlock c mem s xs)
    (hn : xs.length ≤ 2 ^ 24) (a : SoftPhaseAccumulator) (ops : List OscOp) {e : Fault}
    (hr : runWaveOps c mem ⟨s, a⟩ ops = .error e) :
    e = .ub ∧ ∃ before rest, ops = before ++ .next :: rest ∧
      xs.length ≤ waveIndex xs.length (runPhase a (before.filterMap OscOp.toPhase)).nextValueNormalized.2 + 1 := by
  induction ops using List.reverseRecOn with
  | nil => cases hr
  | append_singleton ops op ih =>
    rw [runWaveOps_snoc] at hr
    cases hr1 : runWaveOps c mem ⟨s, a⟩ ops with
    | error e' =>
      rw [hr1] at hr
      cases hr
      obtain ⟨h1, b, r, h2, h3⟩ := ih hr1
      exact ⟨h1, b, r ++ [op], by rw [h2]; simp, h3⟩
    | ok o' =>
      rw [hr1, ok_bind] at hr
      have h1 := C98_state c mem _ ops hr1
      subst h1
      cases op with
      | next =>
        have h2 : (do let r ← WavetableOscillator.next c mem _; return r.1) = Except.error e := hr
        by_cases hk : waveIndex xs.length (runPhase a (ops.filterMap OscOp.toPhase)).nextValueNormalized.2 + 1 < xs.length
        · obtain ⟨t, ht, -⟩ := wave_next_in (o := ⟨s, runPhase a (ops.filterMap OscOp.toPhase)⟩) h.views hn hk
          rw [ht] at h2; cases h2
        · rw [wave_next_out (o := ⟨s, runPhase a (ops.filterMap OscOp.toPhase)⟩) h hn (not_lt.1 hk)] at h2
          cases h2
          exact ⟨rfl, ops, [], rfl, not_lt.1 hk⟩
      | setFreq f => cases hr
      | setSr f => cases hr
      | setShift f => cases hr
      | setWave f => cases hr

def waveSamples : List F32 := [lit 0, lit 10, lit 20, lit 30]

/-- A four-sample table: a history that stays inside, and one that runs off its end. -/
example : OwnBlock Cfg.debug64 (fun _ => some waveSamples) ⟨⟨some 0, 0⟩, 4⟩ waveSamples ∧
    (runWaveOps Cfg.debug64 (fun _ => some waveSamples) ⟨⟨⟨some 0, 0⟩, 4⟩, SoftPhaseAccumulator.new (lit 440) (lit 48000)⟩
      [.next, .setShift (lit (1 / 2)), .setFreq (lit 880), .next]).toOption.map (·.acc.counter) =
        some (39370532 + 78741064) ∧
    (runWaveOps Cfg.debug64 (fun _ => some waveSamples) ⟨⟨⟨some 0, 0⟩, 4⟩, SoftPhaseAccumulator.new (lit 440) (lit 48000)⟩
      [.setShift (lit (3 / 4)), .next]).toOption.map (·.acc.counter) = none :=
  ⟨⟨0, rfl, rfl, rfl, by decide⟩, by decide +kernel, by decide +kernel⟩

end Verif
