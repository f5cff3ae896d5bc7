import Verif.Model.Envelope
import Verif.F32.More

/-! # Vocabulary for the envelope properties: `powf` contracts, histories of calls, invariants -/

namespace Verif
open F32

/-- What the envelope may expect of `powf` on non-negative bases and exponents: never NaN, never negative; and a base of at
least 1 gives at least 1. The result may be infinite. -/
structure PowfContract (powf : F32 → F32 → F32) : Prop where
  nn : ∀ t s : F32, t.isNaN = false → 0 ≤ t.val → s.isNaN = false → 0 ≤ s.val → (powf t s).isNaN = false
  nonneg : ∀ t s : F32, t.isNaN = false → 0 ≤ t.val → s.isNaN = false → 0 ≤ s.val → 0 ≤ (powf t s).val
  ge_one : ∀ t s : F32, t.isNaN = false → 1 ≤ t.val → s.isNaN = false → 0 ≤ s.val → 1 ≤ (powf t s).val

/-- In addition: no overflow for bases up to 4 and exponents up to 20 (`4^20 = 2^40`). -/
structure PowfModerate (powf : F32 → F32 → F32) : Prop extends PowfContract powf where
  fin : ∀ t s : F32, t.isNaN = false → 0 ≤ t.val → t.val ≤ 4 → s.isNaN = false → 0 ≤ s.val → s.val ≤ 20 →
    (powf t s).isFin = true

/-- The identity on the base, which is `powf` for slope 1, meets the contracts. -/
theorem powf_one : PowfModerate (fun t _ => t) where
  nn := fun _ _ h _ _ _ => h
  nonneg := fun _ _ _ h _ _ => h
  ge_one := fun _ _ _ h _ _ => h
  fin := fun t _ _ h0 h4 _ _ _ => fin_of_val (by
    rw [abs_of_nonneg h0]; exact lt_of_le_of_lt h4 (by norm_num))

/-- A `powf` that overflows to infinity for bases of 128 and more, as the real one does for exponent 20 (`128^20 = 2^140`). -/
def powfOverflow (t _s : F32) : F32 := if F32.le (lit 128) t then pack false infMag else t

/-- The calls of the public interface. -/
inductive EnvOp where
  | setAttack (secs : F32)
  | setDecay (secs : F32)
  | setSustain (level : F32)
  | setRelease (secs : F32)
  | setSlope (slope : F32)
  | setSr (sr : F32)
  | on
  | off
  | reset
  | tick

/-- One call; ticks return a sample. -/
def applyEnv (powf : F32 → F32 → F32) (e : AudioRateADSR) : EnvOp → M (AudioRateADSR × Option F32)
  | .setAttack x => do return (← e.setAttack x, none)
  | .setDecay x => do return (← e.setDecay x, none)
  | .setSustain x => do return (← e.setSustain x, none)
  | .setRelease x => do return (← e.setRelease x, none)
  | .setSlope x => do return (← e.setSlope x, none)
  | .setSr x => .ok (e.setSr x, none)
  | .on => .ok (e.triggerOn, none)
  | .off => .ok (e.triggerOff, none)
  | .reset => .ok (e.reset, none)
  | .tick => .ok ((e.tick powf).1, some (e.tick powf).2)

/-- A history: the state it leads to and the samples returned on the way. -/
def runEnv (powf : F32 → F32 → F32) : AudioRateADSR → List EnvOp → M (AudioRateADSR × List F32)
  | e, [] => .ok (e, [])
  | e, o :: os => do
    let (e', x) ← applyEnv powf e o
    let (e'', xs) ← runEnv powf e' os
    return (e'', x.toList ++ xs)

/-- `n` ticks: the state and the samples, in order. -/
def ticks (powf : F32 → F32 → F32) : Nat → AudioRateADSR → AudioRateADSR × List F32
  | 0, e => (e, [])
  | n + 1, e =>
    let r := e.tick powf
    let rest := ticks powf n r.1
    (rest.1, r.2 :: rest.2)

/-- a number in [0,1] -/
def Unit01 (x : F32) : Prop := x.isNaN = false ∧ 0 ≤ x.val ∧ x.val ≤ 1

/-- a finite positive number -/
def Pos (x : F32) : Prop := x.isFin = true ∧ 0 < x.val

/-- Reasonable arguments: sustain is a number, times, slope and sample rate are finite and positive. -/
def EnvOp.Good : EnvOp → Prop
  | .setAttack x => Pos x
  | .setDecay x => Pos x
  | .setSustain x => x.isNaN = false
  | .setRelease x => Pos x
  | .setSlope x => Pos x
  | .setSr x => Pos x
  | _ => True

/-- Moderate arguments at sample rate `sr`: times of at least one sample, sample rates of at least one half. -/
def AtLeastOneSample (secs sr : F32) : Prop := Pos secs ∧ 1 ≤ secs.val * sr.val

/-- A call with moderate arguments while the sample rate is `sr`. -/
def EnvOp.Moderate (sr : F32) : EnvOp → Prop
  | .setAttack x => AtLeastOneSample x sr
  | .setDecay x => AtLeastOneSample x sr
  | .setSustain x => x.isNaN = false
  | .setRelease x => AtLeastOneSample x sr
  | .setSlope x => x.isNaN = false
  | .setSr x => x.isFin = true ∧ 1 / 2 ≤ x.val
  | _ => True

/-- The sample rate after a call. -/
def EnvOp.rate (sr : F32) : EnvOp → F32
  | .setSr x => x
  | _ => sr

/-- A history of calls with moderate arguments. -/
def Moderates : F32 → List EnvOp → Prop
  | _, [] => True
  | sr, o :: os => o.Moderate sr ∧ Moderates (o.rate sr) os

/-- Reached from `new` by calls with reasonable arguments. -/
def Reached (powf : F32 → F32 → F32) (e : AudioRateADSR) (xs : List F32) : Prop :=
  ∃ a d s r sl sr ops e0, Pos a ∧ Pos d ∧ s.isNaN = false ∧ Pos r ∧ Pos sl ∧ Pos sr ∧
    AudioRateADSR.new a d s r sl sr = .ok e0 ∧ (∀ o ∈ ops, EnvOp.Good o) ∧ runEnv powf e0 ops = .ok (e, xs)

/-- Reached from `new` by calls with moderate arguments: times of at least one sample, slope at most 20. -/
def ModeratelyReached (powf : F32 → F32 → F32) (e : AudioRateADSR) (xs : List F32) : Prop :=
  ∃ a d s r sl sr ops e0, AtLeastOneSample a sr ∧ AtLeastOneSample d sr ∧ s.isNaN = false ∧ AtLeastOneSample r sr ∧
    Pos sl ∧ sl.val ≤ 20 ∧ sr.isFin = true ∧ 1 / 2 ≤ sr.val ∧
    AudioRateADSR.new a d s r sl sr = .ok e0 ∧ Moderates sr ops ∧ runEnv powf e0 ops = .ok (e, xs)

end Verif
