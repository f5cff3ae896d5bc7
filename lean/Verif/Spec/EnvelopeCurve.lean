import Verif.Spec.Envelope

/-! # The curves of the envelope stages, written down without the envelope's state -/

namespace Verif
open F32

/-- 0, r, r + r, ... each addition rounded -/
def ramp (r : F32) : ℕ → F32
  | 0 => lit 0
  | k + 1 => ramp r k + r

/-- Sample `k` of an attack of rate `r`. -/
def attackCurve (powf : F32 → F32 → F32) (r slope : F32) (k : ℕ) : F32 := powf (ramp r k) (lit 1 / slope)

/-- Sample `k` of a decay of rate `r` from 1 to `sustain`. -/
def decayCurve (powf : F32 → F32 → F32) (r slope sustain : F32) (k : ℕ) : F32 :=
  (lit 1 - powf (ramp r k) slope) * (lit 1 - sustain) + sustain

/-- Sample `k` of a release of rate `r` from `level` to 0. -/
def releaseCurve (powf : F32 → F32 → F32) (r slope level : F32) (k : ℕ) : F32 := (lit 1 - powf (ramp r k) slope) * level

/-- The rate of a stage of `secs` seconds at `sr` samples a second: one by their number, limited from below by half the
sample period and from above by the largest float. -/
def rateOf (secs sr : F32) : F32 :=
  let r := lit 1 / (secs * sr)
  if F32.lt r (lit (1/2) / sr) then lit (1/2) / sr else if F32.lt F32.maxFin r then F32.maxFin else r

/-- The rate of a stage of `S` samples, to single precision (C89 says when a time gives this). -/
def RateFor (S : ℚ) (r : F32) : Prop := |r.val - 1 / S| ≤ 1 / 2 ^ 22 * (1 / S)

/-- What `set_slope` stores. -/
def slopeLimited (x : F32) : F32 := if F32.lt x (lit 1 / lit 20) then lit 1 / lit 20 else if F32.lt (lit 20) x then lit 20 else x

/-- A power that grows with its base. -/
def PowfMono (powf : F32 → F32 → F32) : Prop :=
  ∀ t t' s : F32, 0 ≤ t.val → t.val ≤ t'.val → t'.val ≤ 4 → t.isFin = true → t'.isFin = true → 0 < s.val → s.isNaN = false →
    (powf t s).val ≤ (powf t' s).val

/-- A power that is clearly below 1 for bases clearly below 1 (down to exponents of 1/20: `(1 - 2^-10)^(1/20)` is about `1 - 2^-14.3`). -/
def PowfBelow (powf : F32 → F32 → F32) : Prop :=
  ∀ t s : F32, 0 ≤ t.val → t.val ≤ 1 - 1 / 2 ^ 10 → t.isFin = true → s.isNaN = false → 1 / 20 ≤ s.val → (powf t s).val ≤ 1 - 1 / 2 ^ 16

theorem powf_one_mono : PowfMono (fun t _ => t) := fun _ _ _ _ h _ _ _ _ _ => h
theorem powf_one_below : PowfBelow (fun t _ => t) := fun _ _ _ h _ _ _ => h.trans (by norm_num)

end Verif
