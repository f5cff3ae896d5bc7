import Verif.Model.Conversion
import Verif.Model.DelayLine
import Verif.Model.Envelope
import Verif.Model.Level
import Verif.Model.Math
import Verif.Model.Oscillator
import Verif.Spec.External

/-! # The repository's own unit tests and doc examples, run on the model

Not proofs of anything: the assertions of the `#[cfg(test)]` modules of /repo/src, evaluated on the model by the kernel, as a check that
the model computes what the authors expect of the code. `==` of floats is `F32.feq`. Left out, because micromath's own results decide
them: `squared_panning` (src/stereo.rs:81-86) and `conversion` (src/decibels.rs:58-65). -/

namespace Verif.RepoTests

open F32

/-- All results are there and equal to the expected floats. -/
def agree (xs : M (List F32)) (ys : List F32) : Bool :=
  match xs with
  | .ok xs => xs.length == ys.length && (xs.zip ys).all fun p => F32.feq p.1 p.2
  | .error _ => false

/-- A call succeeded with a result satisfying `p`. -/
def okWith {α : Type} (p : α → Bool) : M α → Bool
  | .ok x => p x
  | .error _ => false

/-- A memory with one live block, number 0. -/
def block (xs : List F32) : Mem F32 := fun b => if b = 0 then some xs else none

def whole (xs : List F32) : MemorySlice := MemorySlice.fromSlice 0 0 xs.length

def zeros (n : ℕ) : List F32 := List.replicate n (lit 0)
/-- `0.0, 1.0, …` -/
def ramp (n : ℕ) : List F32 := (List.range n).map fun i => F32.ofInt i

def c : Cfg := Cfg.debug64

/-! ## src/all_pass.rs:47-58 and src/comb.rs:63-75 `basic_ticking` -/

def runComb (m : Mem F32) (k : Comb F32) : List F32 → M (List F32)
  | [] => .ok []
  | x :: xs => do
    let (m, k, y) ← k.tick c m x
    return y :: (← runComb m k xs)

def runAllPass (m : Mem F32) (k : AllPass) : List F32 → M (List F32)
  | [] => .ok []
  | x :: xs => do
    let (m, k, y) ← k.tick c m x
    return y :: (← runAllPass m k xs)

example : agree (runAllPass (block (zeros 2)) (AllPass.new (whole (zeros 2))) (lit 1 :: zeros 6))
    [lit (-1), lit 0, lit 1, lit 0, lit (1 / 2), lit 0, lit (1 / 4)] = true := by decide +kernel

example : agree (runComb (block (zeros 2)) (Comb.new (whole (zeros 2))) (lit 1 :: zeros 7))
    [lit 0, lit 0, lit 1, lit 0, lit (1 / 4), lit (1 / 8), lit (1 / 8), lit (9375 / 100000)] = true := by decide +kernel

/-! ## src/float/interpolation.rs:88-103 -/

example : F32.feq (Interpolation.lerpUnchecked (lit 0) (lit 1) (lit (1 / 2))) (lit (1 / 2)) = true := by decide +kernel

example : Interpolation.lerp nan (lit 0) (lit 0) = .error .inputNaN ∧ Interpolation.lerp (lit 0) nan (lit 0) = .error .inputNaN ∧
    Interpolation.lerp inf (lit 0) (lit 0) = .error .inputInfinite ∧ Interpolation.lerp (lit 0) inf (lit 0) = .error .inputInfinite ∧
    Interpolation.lerp (lit 0) (lit 0) (lit (-1)) = .error .interpolationRange ∧
    Interpolation.lerp (lit 0) (lit 0) (lit 2) = .error .interpolationRange ∧
    Interpolation.lerp (lit 0) (lit 1) (lit (1 / 2)) = .ok (lit (1 / 2)) := by decide +kernel

/-! ## src/float/bit_manipulation.rs:85-92 and src/float/conversion.rs:109-123 -/

/-- `core::f32::consts::PI`, the literal `3.14159265358979323846264338327950288_f32` -/
def pi32 : F32 := lit (314159265358979323846264338327950288 / 10 ^ 35)

example : BitReduction.bitReduceExpUnchecked true pi32 0 = .ok pi32 ∧
    BitReduction.bitReduceExpUnchecked true pi32 4 = .ok (Conversion.fromRawWord 0x40490fd0) := by decide +kernel

example : Conversion.toRawWord true pi32 = .ok 0x40490fdb ∧ Conversion.fromRawWord 0x40490fdb = pi32 ∧
    Conversion.toComponents true pi32 = .ok ⟨false, 128, 4788187⟩ ∧ Conversion.fromComponents true ⟨false, 128, 4788187⟩ = .ok pi32 := by
  decide +kernel

/-! ## src/stereo.rs:74-79, 88-95 -/

example : Stereo.equalAmplitudePan (lit (-1) : F32) = (lit 1, lit 0) ∧ Stereo.equalAmplitudePan (lit 0 : F32) = (lit (1 / 2), lit (1 / 2)) ∧
    Stereo.equalAmplitudePan (lit 1 : F32) = (lit 0, lit 1) := by decide +kernel

example (sqrt : F32 → F32) : Stereo.monoPan (lit (-5)) (lit 1) = .error .tooLeft ∧ Stereo.monoPan (lit 5) (lit 1) = .error .tooRight ∧
    Stereo.stereoPan sqrt (lit (-5)) (lit 1, lit 1) = .error .tooLeft ∧ Stereo.stereoPan sqrt (lit 5) (lit 1, lit 1) = .error .tooRight := by
  have a : Stereo.checkPanError (lit (-5)) = .error .tooLeft := by decide +kernel
  have b : Stereo.checkPanError (lit 5) = .error .tooRight := by decide +kernel
  refine ⟨by decide +kernel, by decide +kernel, ?_, ?_⟩
  · unfold Stereo.stereoPan; rw [a]; rfl
  · unfold Stereo.stereoPan; rw [b]; rfl

/-! ## src/decibels.rs:67-74, with a `log10` that is right about zero -/

example (log10 : F32 → F32) (h : lit 20 * log10 (lit 0) = negInf) : Decibels.toDecibels log10 (lit 0) = .ok negInf ∧
    Decibels.toDecibels log10 (lit (-1)) = .error .nan ∧ Decibels.toDecibelsChecked log10 (lit 0) = .error .infinite ∧
    Decibels.toDecibelsChecked log10 (lit (-1)) = .error .nan := by
  have a : F32.lt (lit 0) (lit 0) = false := by decide +kernel
  have b : F32.lt (lit (-1)) (lit 0) = true := by decide +kernel
  have d : F32.feq (lit 0) (lit 0) = true := by decide +kernel
  simp [Decibels.toDecibels, Decibels.toDecibelsChecked, Decibels.toDecibelsUnchecked, a, b, d, h]

/-! ## src/delay_line.rs:74-98 -/

/-- After each write the cell in question holds the value written. -/
def writeAll (m : Mem F32) (d : DelayLine) : List ℕ → M Bool
  | [] => .ok true
  | i :: is => do
    let (m, d) ← d.writeAndAdvance c m (F32.ofInt i)
    return (m 0 == some ((ramp (i + 1)) ++ zeros (23 - i))) && (← writeAll m d is)

example : writeAll (block (zeros 24)) (DelayLine.new (whole (zeros 24))) (List.range 24) = .ok true := by decide +kernel

example : (List.range 24).all (fun i =>
    (({ DelayLine.new (whole (ramp 24)) with index := i } : DelayLine).read (block (ramp 24))) == .ok (F32.ofInt i)) = true := by decide +kernel

/-! ## src/memory/memory_slice.rs:366-491 -/

-- assign_value
def assignThree : M (Option (List F32)) := do
  let s := whole (zeros 24)
  let put (m : Mem F32) (i : ℕ) : M (Mem F32) := do
    match ← s.assign m i (lit 42) with
    | .ok m => return m
    | .error _ => .error .panic
  let m ← put (block (zeros 24)) 10
  let m ← put m 11
  let m ← put m 12
  return m 0

example : assignThree = .ok (some (zeros 10 ++ List.replicate 3 (lit 42) ++ zeros 11)) := by decide +kernel
example : (match (whole (zeros 24)).assign (block (zeros 24)) 25 (lit 42) with
    | .ok (.error e) => e == .indexOutOfBound | _ => false) = true := by decide +kernel

-- get_value
example : (whole (ramp 24)).get (block (ramp 24)) 0 = .ok (.ok (lit 0)) ∧ (whole (ramp 24)).get (block (ramp 24)) 5 = .ok (.ok (lit 5)) ∧
    (whole (ramp 24)).get (block (ramp 24)) 25 = .ok (.error .indexOutOfBound) := by decide +kernel

-- get_value_wrapped
example : (List.range 144).all (fun i => (whole (ramp 24)).getWrapped c (block (ramp 24)) (i - 72) == .ok (F32.ofInt (i % 24 : ℕ))) = true := by
  decide +kernel

-- unchecked_lerp
example : okWith (F32.feq · (lit (55 / 10))) ((whole (ramp 24)).lerpUnchecked c (block (ramp 24)) (lit (55 / 10))) = true := by decide +kernel

-- checked_lerp
def eps : F32 := MemorySlice.epsilon
def closeUnder : F32 := lit 23 - lit 10 * eps

example : (whole (ramp 24)).lerp c (block (ramp 24)) (-eps) = .ok (.error .indexOutOfBound) ∧
    (whole (ramp 24)).lerp c (block (ramp 24)) (lit 0) = .ok (.ok (lit 0)) ∧ F32.feq closeUnder (lit 23) = false ∧
    (whole (ramp 24)).lerp c (block (ramp 24)) closeUnder = .ok (.ok closeUnder) ∧
    (whole (ramp 24)).lerp c (block (ramp 24)) (lit 23) = .ok (.ok (lit 23)) ∧
    (whole (ramp 24)).lerp c (block (ramp 24)) (lit 23 + lit 9 * eps) = .ok (.error .indexOutOfBound) := by decide +kernel

-- lerp_wrapped
example : [(lit (-1), lit 23), (lit (-1 / 2), lit 23 / lit 2), (lit 0, lit 0), (lit (1 / 2), lit (1 / 2)), (lit 24 - lit (1 / 2), lit 23 / lit 2),
    (lit 24, lit 0), (lit 24 + lit (1 / 2), lit (1 / 2))].all (fun p : F32 × F32 =>
      okWith (F32.feq · p.2) ((whole (ramp 24)).lerpWrapped c (block (ramp 24)) mmFloor p.1)) = true := by decide +kernel

-- lagrange_wrapped
def four : List F32 := [lit 0, lit (-1), lit 1, lit (4 / 10)]
example : (List.range 20).all (fun i => okWith F32.isFin ((whole four).lagrangeWrapped c (block four) mmFloor (F32.ofInt (i - 10)) 4)) = true := by
  decide +kernel

/-! ## src/oscillator/osc_functional.rs:94-145, two cycles of 1 kHz at 48 kHz -/

def play (o : FunctionalOscillator SoftPhaseAccumulator) : ℕ → M (List F32)
  | 0 => .ok []
  | n + 1 => do
    let (o, x) ← o.next true mmFloor mmRem
    return x :: (← play o n)

def bounded (lo hi : F32) (w : Waveform) : Bool :=
  okWith (fun xs => xs.length == 96 && xs.all fun x => F32.le lo x && F32.le x hi)
    (play ((FunctionalOscillator.new (SoftPhaseAccumulator.new (lit 1000) (lit 48000))).setWave w) 96)

example : bounded (lit (-1)) (lit 1) .sawtooth = true := by decide +kernel
example : bounded (lit (-1)) (lit 1) .rectangle = true := by decide +kernel
example : bounded (lit (-101 / 100) - eps) (lit (101 / 100)) .sine = true := by decide +kernel
example : bounded (lit (-1)) (lit 1) .triangle = true := by decide +kernel

/-! ## src/envelope.rs:187-317, with exact multiplication for the square and the identity for the square root -/

def pw (x y : F32) : F32 := if F32.feq y (lit 2) then x * x else x

/-- `n` ticks; the results and the last state. -/
def ticks (e : AudioRateADSR) : ℕ → AudioRateADSR × List F32
  | 0 => (e, [])
  | n + 1 => let r := e.tick pw; let s := ticks r.1 n; (s.1, r.2 :: s.2)

def between (lo hi : F32) (xs : List F32) : Bool := xs.all fun x => F32.le lo x && F32.le x hi

def staticADSR : M Bool := do
  let time : F32 := lit (3 / 1000)
  let len := (toIntSat 0 1000 (time * lit 48000)).toNat
  let e ← AudioRateADSR.new time time (lit (8 / 10)) time (lit (1 / 2)) (lit 48000)
  let su : F32 := lit (8 / 10)
  let (e0, x0) := e.tick pw
  let r := (e0.triggerOn.tick pw).1
  let (a, xs) := ticks r (len - 1)
  let (d, y1) := a.tick pw
  let (d', ys) := ticks d len
  let (s1, z1) := d'.tick pw
  let (s2, z2) := s1.tick pw
  let (s3, z3) := s2.tick pw
  let (rel, w) := s3.triggerOff.tick pw
  let (rel', ws) := ticks rel (len - 1)
  let (i, v) := rel'.tick pw
  return len == 144 && F32.feq x0 (lit 0) && e0.state == .idle && r.state == .attack && between (lit 0) (lit 1) xs && a.state == .attack &&
    F32.feq y1 (lit 1) && d.state == .decay && between su (lit 1) ys && d'.state == .decay && F32.feq z1 su && s1.state == .sustain &&
    F32.feq z2 su && s2.state == .sustain && F32.feq z3 su && s3.state == .sustain && !F32.feq w su && rel.state == .release &&
    between (lit 0) su ws && rel'.state == .release && F32.feq v (lit 0) && i.state == .idle

example : staticADSR = .ok true := by decide +kernel

def earlyRelease : M Bool := do
  let time : F32 := lit (3 / 1000)
  let len := (toIntSat 0 1000 (time * lit 48000)).toNat
  let e ← AudioRateADSR.new time time (lit (8 / 10)) time (lit (1 / 2)) (lit 48000)
  let (a, _) := ticks e.triggerOn (len / 2)
  let r := a.triggerOff
  let (r', xs) := ticks r len
  let (i, v) := r'.tick pw
  return a.state == .attack && r.state == .release && F32.feq r.envelopeValue r.releaseVal && between (lit 0) r.releaseVal xs &&
    r'.state == .release && F32.feq v (lit 0) && i.state == .idle

example : earlyRelease = .ok true := by decide +kernel

/-! ## The examples in the doc comments of src/float/math.rs:82-84, 127-129, 147-149 and src/float/dsp_util.rs:19, 32, 45, 58

The standard library's `tan`, `sin` and `cos` of the floats in question are put in as the floats nearest to their real values; `powi` is
repeated multiplication. Left out: `sinh` and `cosh` (src/float/math.rs:52, 64), which the standard library's `exp` decides. -/

def powiMul (x : F32) : ℕ → F32
  | 0 => lit 1
  | 1 => x
  | n + 1 => powiMul x n * x

def halfPi32 : F32 := lit FMath.fracPi2Q

example : F32.feq (FMath.fastTan powiMul (lit 0)) (lit 0) = true ∧
    F32.lt (lit (546302489843790 / 10 ^ 15) - FMath.fastTan powiMul (lit (1 / 2))).abs eps = true ∧
    F32.feq (lit (1557407724654902 / 10 ^ 15) - FMath.fastTan powiMul (lit 1)).abs (lit (9920597 / 10 ^ 10)) = true := by decide +kernel

example : okWith (F32.feq · (lit 0)) (FMath.fixedPointSin true mmRem (lit 0)) = true ∧
    okWith (fun y => F32.feq (lit 1 - y).abs (lit (30517578 / 10 ^ 12))) (FMath.fixedPointSin true mmRem halfPi32) = true ∧
    okWith (fun y => F32.feq (lit (-8742278 / 10 ^ 14) - y).abs (lit (8742278 / 10 ^ 14))) (FMath.fixedPointSin true mmRem pi32) = true := by
  decide +kernel

example : okWith (F32.feq · (lit (9999695 / 10 ^ 7))) (FMath.fixedPointCos true mmRem (lit 0)) = true ∧
    okWith (fun y => F32.feq (lit (-4371139 / 10 ^ 14) - y).abs (lit (4371139 / 10 ^ 14))) (FMath.fixedPointCos true mmRem halfPi32) = true ∧
    okWith (fun y => F32.feq (lit (-1) - y).abs (lit (30517578 / 10 ^ 12))) (FMath.fixedPointCos true mmRem pi32) = true := by decide +kernel

example : F32.feq (FMath.samplesToSeconds (lit 48) (lit 48000)) (lit (1 / 1000)) = true ∧
    F32.feq (FMath.samplesToMillis (lit 48) (lit 48000)) (lit 1) = true ∧
    F32.feq (FMath.secondsToSamples (lit 1) (lit 48000)) (lit 48000) = true ∧
    F32.feq (FMath.millisToSamples (lit 1) (lit 48000)) (lit 48) = true := by decide +kernel

end Verif.RepoTests
