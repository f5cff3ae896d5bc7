import Verif.Model.Level

/-! # /repo/src/envelope.rs

`powf` is micromath's (external): a parameter. -/

namespace Verif

/-- src/envelope.rs:11-17 `EnvelopeState` -/
inductive EnvelopeState where
  | idle | attack | decay | release | sustain
  deriving DecidableEq, Repr

/-- src/envelope.rs:20-34 `AudioRateADSR` -/
structure AudioRateADSR where
  attack : F32
  decay : F32
  sustain : F32
  release : F32
  slope : F32
  t : F32
  state : EnvelopeState
  envelopeValue : F32
  releaseVal : F32
  sr : F32
  deriving DecidableEq, Repr

namespace AudioRateADSR

/-- src/envelope.rs:6 `SHORTEST_TIME_BASE` -/
def shortestTimeBase : F32 := lit (1/2)
/-- src/envelope.rs:7 `BIGGEST_SLOPE` -/
def biggestSlope : F32 := lit 20
/-- `f32::EPSILON` = 2^-23 -/
def epsilon : F32 := lit (1 / 2 ^ 23)

/-- src/envelope.rs:179-181 `set_time_parameter` -/
def setTimeParameter (secs sr : F32) : M F32 :=
  (lit 1 / (secs * sr)).clamp (shortestTimeBase / sr) F32.maxFin

/-- src/envelope.rs:37-58 `new` -/
def new (attackSecs decaySecs sustain releaseSecs slope sr : F32) : M AudioRateADSR := do
  let s ← sustain.clamp (lit 0) (lit 1)
  let d ← setTimeParameter decaySecs sr
  let a ← setTimeParameter attackSecs sr
  let r ← setTimeParameter releaseSecs sr
  return { attack := a, decay := d, sustain := s, release := r, slope := slope, t := lit 0, state := .idle,
           envelopeValue := lit 0, releaseVal := lit 0, sr := sr }

/-- src/envelope.rs:64-66 `set_attack` -/
def setAttack (e : AudioRateADSR) (secs : F32) : M AudioRateADSR := do
  return { e with attack := ← setTimeParameter secs e.sr }
/-- src/envelope.rs:68-70 `set_decay` -/
def setDecay (e : AudioRateADSR) (secs : F32) : M AudioRateADSR := do
  return { e with decay := ← setTimeParameter secs e.sr }
/-- src/envelope.rs:72-74 `set_sustain` -/
def setSustain (e : AudioRateADSR) (sustain : F32) : M AudioRateADSR := do
  return { e with sustain := ← sustain.clamp (lit 0) (lit 1) }
/-- src/envelope.rs:76-78 `set_release` -/
def setRelease (e : AudioRateADSR) (secs : F32) : M AudioRateADSR := do
  return { e with release := ← setTimeParameter secs e.sr }
/-- src/envelope.rs:80-82 `set_slope` -/
def setSlope (e : AudioRateADSR) (slope : F32) : M AudioRateADSR := do
  return { e with slope := ← slope.clamp (lit 1 / biggestSlope) biggestSlope }
/-- src/envelope.rs:84-86 `set_sr` -/
def setSr (e : AudioRateADSR) (sr : F32) : AudioRateADSR := { e with sr := sr }
/-- src/envelope.rs:88-90 `get_state` -/
def getState (e : AudioRateADSR) : EnvelopeState := e.state

/-- src/envelope.rs:138-149 `next_attack` -/
def nextAttack (powf : F32 → F32 → F32) (e : AudioRateADSR) : AudioRateADSR × F32 :=
  let e := { e with t := e.t + e.attack }
  let e := { e with envelopeValue := powf e.t (lit 1 / e.slope) }
  let e := if F32.le (lit 1) e.envelopeValue then
    { e with state := .decay, envelopeValue := lit 1, t := lit 0 } else e
  (e, e.envelopeValue)

/-- src/envelope.rs:151-162 `next_decay` -/
def nextDecay (powf : F32 → F32 → F32) (e : AudioRateADSR) : AudioRateADSR × F32 :=
  let e := { e with t := e.t + e.decay }
  let e := { e with envelopeValue := ((lit 1 - powf e.t e.slope) * (lit 1 - e.sustain)) + e.sustain }
  let e := if F32.le e.envelopeValue e.sustain then
    { e with state := .sustain, envelopeValue := e.sustain } else e
  (e, e.envelopeValue)

/-- src/envelope.rs:164-176 `next_release` -/
def nextRelease (powf : F32 → F32 → F32) (e : AudioRateADSR) : AudioRateADSR × F32 :=
  let e := { e with t := e.t + e.release }
  let e := { e with envelopeValue := (lit 1 - powf e.t e.slope) * e.releaseVal }
  let e := if F32.le e.envelopeValue epsilon then
    { e with state := .idle, envelopeValue := lit 0, t := lit 0 } else e
  (e, e.envelopeValue)

/-- src/envelope.rs:96-104 `tick` -/
def tick (powf : F32 → F32 → F32) (e : AudioRateADSR) : AudioRateADSR × F32 :=
  match e.state with
  | .idle => (e, lit 0)
  | .sustain => (e, e.sustain)
  | .attack => e.nextAttack powf
  | .decay => e.nextDecay powf
  | .release => e.nextRelease powf

/-- src/envelope.rs:106-109 `reset` -/
def reset (e : AudioRateADSR) : AudioRateADSR := { e with envelopeValue := lit 0, state := .idle }

/-- src/envelope.rs:111-121 `trigger_on` -/
def triggerOn (e : AudioRateADSR) : AudioRateADSR :=
  match e.state with
  | .idle | .attack => { e with state := .attack, t := lit 0 }
  | .decay | .sustain | .release => { e with state := .attack }

/-- src/envelope.rs:123-132 `trigger_off` -/
def triggerOff (e : AudioRateADSR) : AudioRateADSR :=
  match e.state with
  | .attack | .decay | .sustain => { e with state := .release, releaseVal := e.envelopeValue, t := lit 0 }
  | _ => e

end AudioRateADSR
end Verif
