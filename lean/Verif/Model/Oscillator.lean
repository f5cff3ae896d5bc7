import Verif.Model.Math

/-! # /repo/src/oscillator/phase_accumulator.rs, osc_functional.rs, osc_wavetable.rs, mod.rs

`u32` counters are natural numbers below `2^32`. `floor` and `rem_euclid` are micromath's: parameters. -/

namespace Verif

/-- `x as u32` for `x : f32` -/
def f2u32 (x : F32) : Nat := (F32.toIntSat 0 (2 ^ 32 - 1) x).toNat
/-- `a.wrapping_add(b) : u32` -/
def wrappingAdd32 (a b : Nat) : Nat := (a + b) % 2 ^ 32
/-- `u32::MAX as f32` (which rounds to `2^32`) -/
def u32MaxF : F32 := F32.ofInt (2 ^ 32 - 1)

/-- src/oscillator/phase_accumulator.rs:53-59 `SoftPhaseAccumulator` -/
structure SoftPhaseAccumulator where
  counter : Nat
  freq : F32
  shift : Nat
  minStep : F32
  deriving DecidableEq, Repr

/-- src/oscillator/phase_accumulator.rs:61-65 `FrequencyError` -/
inductive FrequencyError where
  | zero | negative | biggerThanNyquist
  deriving DecidableEq, Repr

namespace SoftPhaseAccumulator

/-- src/oscillator/phase_accumulator.rs:16-23 `new` -/
def new (freq sr : F32) : SoftPhaseAccumulator :=
  { counter := 0, freq := freq, shift := 0, minStep := u32MaxF / sr }

/-- src/oscillator/phase_accumulator.rs:26-28 `set_sr_unchecked` -/
def setSrUnchecked (a : SoftPhaseAccumulator) (sr : F32) : SoftPhaseAccumulator :=
  { a with minStep := u32MaxF / sr }

/-- src/oscillator/phase_accumulator.rs:31-33 `set_freq_unchecked` -/
def setFreqUnchecked (a : SoftPhaseAccumulator) (freq : F32) : SoftPhaseAccumulator := { a with freq := freq }

/-- src/oscillator/phase_accumulator.rs:36-38 `set_phase_shift` -/
def setPhaseShift (a : SoftPhaseAccumulator) (shift : Nat) : SoftPhaseAccumulator := { a with shift := shift }

/-- src/oscillator/phase_accumulator.rs:69-73 `tick` -/
def tick (a : SoftPhaseAccumulator) : SoftPhaseAccumulator :=
  { a with counter := wrappingAdd32 a.counter (f2u32 (a.freq * a.minStep)) }

/-- src/oscillator/phase_accumulator.rs:41-44 `next_value` -/
def nextValue (a : SoftPhaseAccumulator) : SoftPhaseAccumulator × Nat :=
  let a := a.tick
  (a, wrappingAdd32 a.counter a.shift)

/-- src/oscillator/phase_accumulator.rs:47-50 `next_value_normalized` -/
def nextValueNormalized (a : SoftPhaseAccumulator) : SoftPhaseAccumulator × F32 :=
  let a := a.tick
  (a, F32.ofInt (wrappingAdd32 a.counter a.shift) / (u32MaxF + lit 1))

/-- src/oscillator/phase_accumulator.rs:75-85 `set_freq`. The receiver is `mut self`: the accumulator is moved in and
dropped at the end, the caller gets back only the `Result`. -/
def setFreq (_a : SoftPhaseAccumulator) (freq : F32) : Except FrequencyError Unit :=
  if F32.feq freq (lit 0) then .error .zero
  else if F32.lt freq (lit 0) then .error .negative
  else .ok ()

end SoftPhaseAccumulator

/-- src/oscillator/phase_accumulator.rs:3-11, the part of the trait `PhaseAccumulator` the oscillators call -/
class PhaseAccumulator (PA : Type) where
  setSrUnchecked : PA → F32 → PA
  setFreqUnchecked : PA → F32 → PA
  setPhaseShift : PA → Nat → PA
  nextValueNormalized : PA → PA × F32

/-- src/oscillator/phase_accumulator.rs:13-51, the only implementation in the crate -/
instance : PhaseAccumulator SoftPhaseAccumulator where
  setSrUnchecked := SoftPhaseAccumulator.setSrUnchecked
  setFreqUnchecked := SoftPhaseAccumulator.setFreqUnchecked
  setPhaseShift := SoftPhaseAccumulator.setPhaseShift
  nextValueNormalized := SoftPhaseAccumulator.nextValueNormalized

/-- src/oscillator/mod.rs:11-16 `Waveform` -/
inductive Waveform where
  | sine | rectangle | sawtooth | triangle
  deriving DecidableEq, Repr

/-- src/oscillator/osc_functional.rs:14-20 `FunctionalOscillator` -/
structure FunctionalOscillator (PA : Type) where
  acc : PA
  wave : Waveform
  deriving DecidableEq, Repr

namespace FunctionalOscillator
variable {PA : Type} [PhaseAccumulator PA]

/-- src/oscillator/osc_functional.rs:23-28 `new` -/
def new (acc : PA) : FunctionalOscillator PA := { acc := acc, wave := .sine }

/-- The value computed by src/oscillator/osc_functional.rs:40-42 `next_saw` from a phase in [0,1] -/
def sawOf (p : F32) : F32 := p * lit 2 - lit 1
/-- osc_functional.rs:45-47 `next_rect` from a phase -/
def rectOf (floor : F32 → F32) (p : F32) : F32 := (floor (sawOf p + lit 1)) * lit 2 - lit 1
/-- osc_functional.rs:50-52 `next_sine` from a phase -/
def sineOf (checks : Bool) (rem : F32 → F32 → F32) (p : F32) : M F32 :=
  FMath.fixedPointSin checks rem (Interpolation.lerpUnchecked (lit 0) (lit FMath.tauQ) p)
/-- osc_functional.rs:55-62 `next_tri` from a phase -/
def triOf (p : F32) : F32 :=
  let x := sawOf p
  if x.isSignPositive then (lit 1 - x) * lit 2 - lit 1 else (lit 1 - (-x)) * lit 2 - lit 1

/-- src/oscillator/osc_functional.rs:30-37 `next`; every branch advances the accumulator once -/
def next (checks : Bool) (floor : F32 → F32) (rem : F32 → F32 → F32) (o : FunctionalOscillator PA) :
    M (FunctionalOscillator PA × F32) :=
  let r := PhaseAccumulator.nextValueNormalized o.acc
  let o' := { o with acc := r.1 }
  match o.wave with
  | .sine => do return (o', ← sineOf checks rem r.2)
  | .rectangle => .ok (o', rectOf floor r.2)
  | .sawtooth => .ok (o', sawOf r.2)
  | .triangle => .ok (o', triOf r.2)

/-- src/oscillator/osc_functional.rs:65-67 `set_freq_unchecked` -/
def setFreqUnchecked (o : FunctionalOscillator PA) (freq : F32) : FunctionalOscillator PA :=
  { o with acc := PhaseAccumulator.setFreqUnchecked o.acc freq }

/-- src/oscillator/osc_functional.rs:70-72 `set_phase_shift_unchecked` -/
def setPhaseShiftUnchecked (o : FunctionalOscillator PA) (shift : F32) : FunctionalOscillator PA :=
  { o with acc := PhaseAccumulator.setPhaseShift o.acc (f2u32 (shift * u32MaxF)) }

/-- src/oscillator/osc_functional.rs:75-77 `set_wave` -/
def setWave (o : FunctionalOscillator PA) (w : Waveform) : FunctionalOscillator PA := { o with wave := w }

/-- src/oscillator/osc_functional.rs:80-82 `set_sr_unchecked` -/
def setSrUnchecked (o : FunctionalOscillator PA) (sr : F32) : FunctionalOscillator PA :=
  { o with acc := PhaseAccumulator.setSrUnchecked o.acc sr }

end FunctionalOscillator

/-- src/oscillator/osc_wavetable.rs:6-12 `WavetableOscillator` -/
structure WavetableOscillator (PA : Type) where
  lookupTable : MemorySlice
  acc : PA

namespace WavetableOscillator
variable {PA : Type} [PhaseAccumulator PA]

/-- src/oscillator/osc_wavetable.rs:15-17 `new` -/
def new (lookupTable : MemorySlice) (acc : PA) : WavetableOscillator PA := { lookupTable, acc }

/-- src/oscillator/osc_wavetable.rs:19-28 `next` -/
def next (c : Cfg) (mem : Mem F32) (o : WavetableOscillator PA) : M (WavetableOscillator PA × F32) := do
  let r := PhaseAccumulator.nextValueNormalized o.acc
  let v ← o.lookupTable.lerpUnchecked c mem (c.u2f o.lookupTable.len * r.2)
  return ({ o with acc := r.1 }, v)

/-- src/oscillator/osc_wavetable.rs:31-33 `set_freq_unchecked` -/
def setFreqUnchecked (o : WavetableOscillator PA) (freq : F32) : WavetableOscillator PA :=
  { o with acc := PhaseAccumulator.setFreqUnchecked o.acc freq }

/-- src/oscillator/osc_wavetable.rs:36-38 `set_phase_shift_unchecked` -/
def setPhaseShiftUnchecked (o : WavetableOscillator PA) (shift : F32) : WavetableOscillator PA :=
  { o with acc := PhaseAccumulator.setPhaseShift o.acc (f2u32 (shift * u32MaxF)) }

/-- src/oscillator/osc_wavetable.rs:41-43 `set_sr_unchecked` -/
def setSrUnchecked (o : WavetableOscillator PA) (sr : F32) : WavetableOscillator PA :=
  { o with acc := PhaseAccumulator.setSrUnchecked o.acc sr }

end WavetableOscillator
end Verif
