import Verif.Model.Math

/-! # /repo/src/biquad/mod.rs and /repo/src/biquad/butterworth.rs

`PhantomData` fields carry no data and are dropped. `sqrt` and `powi` are micromath's (external): parameters. -/

namespace Verif

/-- src/biquad/mod.rs:6-14 `BiquadCoeffs` -/
structure BiquadCoeffs (α : Type) where
  b0 : α
  b1 : α
  b2 : α
  a1 : α
  a2 : α

/-- src/biquad/mod.rs:34-39 `Biquad` -/
structure Biquad (α : Type) where
  z1 : α
  z2 : α
  coeffs : BiquadCoeffs α

namespace Biquad
variable {α : Type} [Add α] [Sub α] [Mul α] [Lit α]

/-- src/biquad/mod.rs:42-49 `new` -/
def new (coeffs : BiquadCoeffs α) : Biquad α := { z1 := lit 0, z2 := lit 0, coeffs := coeffs }

/-- src/biquad/mod.rs:51-58 `process` -/
def process (f : Biquad α) (input : α) : Biquad α × α :=
  let out := f.coeffs.b0 * input + f.z1
  ({ f with z1 := f.coeffs.b1 * input + f.z2 - f.coeffs.a1 * out,
            z2 := f.coeffs.b2 * input - f.coeffs.a2 * out }, out)

/-- Feeding a list of samples to `process`, collecting the outputs (the caller's loop). -/
def run (f : Biquad α) : List α → Biquad α × List α
  | [] => (f, [])
  | x :: xs => ((f.process x).1.run xs).map id (fun ys => (f.process x).2 :: ys)

end Biquad

namespace Butterworth
variable {α : Type} [Add α] [Sub α] [Mul α] [Div α] [Neg α] [Lit α]

/-- src/biquad/butterworth.rs:25-34 `BiquadCoeffs::new` -/
def new : BiquadCoeffs α := ⟨lit 0, lit 0, lit 0, lit 0, lit 0⟩

/-- src/biquad/butterworth.rs:37-40 `setup_coeffs`: `(k*k, k/q)` with `k = fast_tan(PI*fc/sr)` -/
def setupCoeffs (powi : α → Nat → α) (fc q sr : α) : α × α :=
  let k := FMath.fastTan powi ((lit FMath.piQ * fc) / sr)
  (k * k, k / q)

/-- src/biquad/butterworth.rs:45-52, body of `lowpass` after `setup_coeffs` -/
def lowpassOf (k2 kq : α) : BiquadCoeffs α :=
  let a0 := lit 1 + kq + k2
  let norm := lit 1 / a0
  let b0 := norm * k2
  { b0 := b0
    b1 := norm * lit 2 * k2
    b2 := b0
    a1 := norm * lit 2 * (k2 - lit 1)
    a2 := norm * (lit 1 - kq + k2) }

/-- src/biquad/butterworth.rs:58-65, body of `highpass` -/
def highpassOf (k2 kq : α) : BiquadCoeffs α :=
  let a0 := lit 1 + kq + k2
  let norm := lit 1 / a0
  { b0 := norm
    b1 := norm * lit (-2)
    b2 := norm
    a1 := norm * (lit 2 * (k2 - lit 1))
    a2 := norm * (lit 1 - kq + k2) }

/-- src/biquad/butterworth.rs:71-78, body of `allpass` -/
def allpassOf (k2 kq : α) : BiquadCoeffs α :=
  let a0 := lit 1 + kq + k2
  let norm := lit 1 / a0
  let b0 := norm * (lit 1 - kq + k2)
  let b1 := norm * (lit 2 * (k2 - lit 1))
  { b0 := b0, b1 := b1, b2 := lit 1, a1 := b1, a2 := b0 }

/-- src/biquad/butterworth.rs:84-91, body of `notch` -/
def notchOf (k2 kq : α) : BiquadCoeffs α :=
  let a0 := lit 1 + kq + k2
  let norm := lit 1 / a0
  let b0 := norm * (lit 1 + k2)
  let b1 := norm * (lit 2 * (k2 - lit 1))
  { b0 := b0, b1 := b1, b2 := b0, a1 := b1, a2 := norm * (lit 1 - kq + k2) }

/-- src/biquad/butterworth.rs:98-105, body of `bell_boost_only` -/
def bellBoostOf (gain k2 kq : α) : BiquadCoeffs α :=
  let a0 := lit 1 + kq + k2
  let norm := lit 1 / a0
  let b1 := norm * (lit 2 * (k2 - lit 1))
  { b0 := norm * (lit 1 + gain * kq + k2)
    b1 := b1
    b2 := norm * (lit 1 - gain * kq + k2)
    a1 := b1
    a2 := norm * (lit 1 - kq + k2) }

/-- src/biquad/butterworth.rs:112-120, body of `bell_cut_only` -/
def bellCutOf (gain k2 kq : α) : BiquadCoeffs α :=
  let gain := -gain
  let a0 := lit 1 + gain * kq + k2
  let norm := lit 1 / a0
  let b1 := norm * (lit 2 * (k2 - lit 1))
  { b0 := norm * (lit 1 + kq + k2)
    b1 := b1
    b2 := norm * (lit 1 - kq + k2)
    a1 := b1
    a2 := norm * (lit 1 - gain * kq + k2) }

/-- src/biquad/butterworth.rs:135-142, body of `low_shelf_boost_only` -/
def lowShelfBoostOf (sqrt : α → α) (gain k2 kq : α) : BiquadCoeffs α :=
  let a0 := lit 1 + kq + k2
  let norm := lit 1 / a0
  { b0 := norm * (lit 1 + sqrt (gain * lit 2 * k2) + gain * k2)
    b1 := norm * (lit 2 * (gain * k2 - lit 1))
    b2 := norm * (lit 1 - sqrt (gain * lit 2 * k2) + gain * k2)
    a1 := norm * (lit 2 * (k2 - lit 1))
    a2 := norm * (lit 1 - kq + k2) }

/-- src/biquad/butterworth.rs:149-157, body of `low_shelf_cut_only` -/
def lowShelfCutOf (sqrt : α → α) (gain k2 kq : α) : BiquadCoeffs α :=
  let gain := -gain
  let a0 := lit 1 + sqrt (gain * lit 2 * k2) + gain * k2
  let norm := lit 1 / a0
  { b0 := norm * (lit 1 + kq + k2)
    b1 := norm * (lit 2 * (k2 - lit 1))
    b2 := norm * (lit 1 - kq + k2)
    a1 := norm * (lit 2 * (gain * k2 - lit 1))
    a2 := norm * (lit 1 - sqrt (gain * lit 2 * k2) + gain * k2) }

variable (powi : α → Nat → α) (sqrt : α → α) (fc q gain sr : α)

/-- src/biquad/butterworth.rs:42-53 `lowpass` (all five fields are overwritten) -/
def lowpass : BiquadCoeffs α := let p := setupCoeffs powi fc q sr; lowpassOf p.1 p.2
/-- src/biquad/butterworth.rs:55-66 `highpass` -/
def highpass : BiquadCoeffs α := let p := setupCoeffs powi fc q sr; highpassOf p.1 p.2
/-- src/biquad/butterworth.rs:68-79 `allpass` -/
def allpass : BiquadCoeffs α := let p := setupCoeffs powi fc q sr; allpassOf p.1 p.2
/-- src/biquad/butterworth.rs:81-92 `notch` -/
def notch : BiquadCoeffs α := let p := setupCoeffs powi fc q sr; notchOf p.1 p.2
/-- src/biquad/butterworth.rs:95-106 `bell_boost_only` -/
def bellBoost : BiquadCoeffs α := let p := setupCoeffs powi fc q sr; bellBoostOf gain p.1 p.2
/-- src/biquad/butterworth.rs:109-121 `bell_cut_only` -/
def bellCut : BiquadCoeffs α := let p := setupCoeffs powi fc q sr; bellCutOf gain p.1 p.2
/-- src/biquad/butterworth.rs:132-143 `low_shelf_boost_only` -/
def lowShelfBoost : BiquadCoeffs α := let p := setupCoeffs powi fc q sr; lowShelfBoostOf sqrt gain p.1 p.2
/-- src/biquad/butterworth.rs:146-158 `low_shelf_cut_only` -/
def lowShelfCut : BiquadCoeffs α := let p := setupCoeffs powi fc q sr; lowShelfCutOf sqrt gain p.1 p.2

/-- src/biquad/butterworth.rs:123-129 `bell`; `pos` is `is_sign_positive` of the gain. -/
def bell (pos : α → Bool) : BiquadCoeffs α :=
  if pos gain then bellBoost powi fc q gain sr else bellCut powi fc q gain sr

/-- src/biquad/butterworth.rs:160-166 `low_shelf` -/
def lowShelf (pos : α → Bool) : BiquadCoeffs α :=
  if pos gain then lowShelfBoost powi sqrt fc q gain sr else lowShelfCut powi sqrt fc q gain sr

end Butterworth
end Verif
