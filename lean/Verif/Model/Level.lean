import Verif.Model.Base

/-! # /repo/src/stereo.rs, /repo/src/clipping.rs, /repo/src/decibels.rs

`sqrt`, `log10`, `powf` are micromath's (external): parameters. -/

namespace Verif

/-- `core::f32::clamp` (external, from core's documentation): panics unless `min <= max`;
`if x < min {min}`, then `if x > max {max}`; NaN stays. -/
def F32.clamp (x lo hi : F32) : M F32 :=
  if F32.le lo hi then
    let x := if F32.lt x lo then lo else x
    .ok (if F32.lt hi x then hi else x)
  else .error .panic

namespace Stereo

/-- src/stereo.rs:7-10 `PanningError` -/
inductive PanningError where
  | tooLeft | tooRight
  deriving DecidableEq, Repr

/-- src/stereo.rs:13-23 `check_pan_error` -/
def checkPanError (amount : F32) : Except PanningError F32 :=
  if F32.lt amount (lit (-1)) then .error .tooLeft
  else if F32.lt (lit 1) amount then .error .tooRight
  else .ok amount

section
variable {α : Type} [Add α] [Sub α] [Mul α] [Lit α]

/-- src/stereo.rs:60-62 `equal_amplitude_pan_unchecked` -/
def equalAmplitudePan (amount : α) : α × α := ((lit 1 - amount) * lit (1/2), (lit 1 + amount) * lit (1/2))

/-- src/stereo.rs:65-68 `equal_power_pan_unchecked` -/
def equalPowerPan (sqrt : α → α) (amount : α) : α × α :=
  let linear := equalAmplitudePan amount
  (sqrt linear.1, sqrt linear.2)

/-- src/stereo.rs:42-45 `stereo_pan_unchecked` -/
def stereoPanUnchecked (sqrt : α → α) (amount : α) (samples : α × α) : α × α :=
  let pan := equalPowerPan sqrt amount
  (samples.1 * pan.1, samples.2 * pan.2)

/-- src/stereo.rs:48-51 `mono_pan_unchecked` -/
def monoPanUnchecked (amount sample : α) : α × α :=
  let pan := equalAmplitudePan amount
  (sample * pan.1, sample * pan.2)

/-- src/stereo.rs:54-57 `crossfade_correlated_unchecked` -/
def crossfadeCorrelatedUnchecked (amount : α) (sample : α × α) : α :=
  let pan := equalAmplitudePan amount
  sample.1 * pan.1 + sample.2 * pan.2
end

/-- src/stereo.rs:29-31 `stereo_pan` -/
def stereoPan (sqrt : F32 → F32) (amount : F32) (samples : F32 × F32) : Except PanningError (F32 × F32) := do
  return stereoPanUnchecked sqrt (← checkPanError amount) samples

/-- src/stereo.rs:33-35 `mono_pan` -/
def monoPan (amount sample : F32) : Except PanningError (F32 × F32) := do
  return monoPanUnchecked (← checkPanError amount) sample

end Stereo

namespace Clipping

/-- src/clipping.rs:4-6 `digital_clip` -/
def digitalClip (x : F32) : M F32 := x.clamp (lit (-1)) (lit 1)

/-- src/clipping.rs:8-16 `tanh_clip`; `todo!()` panics -/
def tanhClip (x : F32) : M F32 :=
  if F32.lt (lit 1) x then .ok (lit 1)
  else if F32.lt x (lit (-1)) then .ok (lit (-1))
  else .error .panic

/-- src/clipping.rs:18-26 `poly_clip` -/
def polyClip (x _n : F32) : M F32 :=
  if F32.lt (lit 1) x then .ok (lit 1)
  else if F32.lt x (lit (-1)) then .ok (lit (-1))
  else .error .panic

/-- src/clipping.rs:28-36 `sigmoid_clip` -/
def sigmoidClip (x _k : F32) : M F32 :=
  if F32.lt (lit 1) x then .ok (lit 1)
  else if F32.lt x (lit (-1)) then .ok (lit (-1))
  else .error .panic

end Clipping

namespace Decibels

/-- `core::num::FpCategory`, the two values used by src/decibels.rs:28-45 -/
inductive FpCategory where
  | nan | infinite
  deriving DecidableEq, Repr

/-- src/decibels.rs:22-24 `to_decibels_unchecked` -/
def toDecibelsUnchecked {α : Type} [Mul α] [Lit α] (log10 : α → α) (x : α) : α := lit 20 * log10 x

/-- src/decibels.rs:27-33 `to_decibels` -/
def toDecibels (log10 : F32 → F32) (x : F32) : Except FpCategory F32 :=
  if F32.lt x (lit 0) then .error .nan else .ok (toDecibelsUnchecked log10 x)

/-- src/decibels.rs:36-46 `to_decibels_checked` -/
def toDecibelsChecked (log10 : F32 → F32) (x : F32) : Except FpCategory F32 :=
  if F32.lt x (lit 0) then .error .nan
  else if F32.feq x (lit 0) then .error .infinite
  else .ok (toDecibelsUnchecked log10 x)

/-- src/decibels.rs:49-51 `to_volt_ratio` -/
def toVoltRatio {α : Type} [Div α] [Lit α] (powf : α → α → α) (x : α) : α := powf (lit 10) (x / lit 20)

end Decibels
end Verif
