import Verif.Model.Base

/-! # /repo/src/float/interpolation.rs -/

namespace Verif.Interpolation
open F32

/-- src/float/interpolation.rs:3-7 `InterpolationError` -/
inductive InterpolationError where
  | inputNaN | inputInfinite | interpolationRange
  deriving DecidableEq, Repr

section
variable {α : Type*} [Add α] [Sub α] [Mul α] [Div α] [Lit α]

/-- src/float/interpolation.rs:10-12 `lerp_unchecked` -/
def lerpUnchecked (a b t : α) : α := (a * (lit 1 - t)) + (b * t)

/-- src/float/interpolation.rs:36-41, inner loop of `lagrange` for node `i`: starting from `array[i]`, for each
`j` in `0..n`, `j ≠ i`, `term = (term * (x_point - j as f32)) / (i as f32 - j as f32)`. -/
def lagrangeTerm (n i : Nat) (yi x : α) : α :=
  (List.range n).foldl
    (fun term j => if i ≠ j then (term * (x - lit (j : ℚ))) / (lit (i : ℚ) - lit (j : ℚ)) else term) yi

/-- src/float/interpolation.rs:34-45, the body of `lagrange` after the assertion. `array[i]` is in bounds since
`i < array.len()`; the default 0 is never used. -/
def lagrangeSum (ys : List α) (x : α) : α :=
  (List.range ys.length).foldl
    (fun acc i => acc + lagrangeTerm ys.length i (ys.getD i (lit 0)) x) (lit 0)

/-- src/float/interpolation.rs:49-81 `lagrange_only_4_elements`; `get_unchecked(0..3)` needs four elements, so the
four are passed separately (its only caller, memory_slice.rs:255, passes a `[f32; 4]`). -/
def lagrange4 (y0 y1 y2 y3 x : α) : α :=
  let yp := lit 0
  let t := y0
  let t := (t * (x - lit 1)) / lit (-1)
  let t := (t * (x - lit 2)) / lit (-2)
  let t := (t * (x - lit 3)) / lit (-3)
  let yp := yp + t
  let t := y1
  let t := (t * (x - lit 0)) / lit 1
  let t := (t * (x - lit 2)) / lit (-1)
  let t := (t * (x - lit 3)) / lit (-2)
  let yp := yp + t
  let t := y2
  let t := (t * (x - lit 0)) / lit 2
  let t := (t * (x - lit 1)) / lit 1
  let t := (t * (x - lit 3)) / lit (-1)
  let yp := yp + t
  let t := y3
  let t := (t * (x - lit 0)) / lit 3
  let t := (t * (x - lit 1)) / lit 2
  let t := (t * (x - lit 2)) / lit 1
  yp + t
end

/-- src/float/interpolation.rs:14-28 `lerp` -/
def lerp (a b t : F32) : Except InterpolationError F32 :=
  if a.isNaN || b.isNaN then .error .inputNaN
  else if a.isInf || b.isInf then .error .inputInfinite
  else if F32.lt t (lit 0) || F32.lt (lit 1) t then .error .interpolationRange
  else .ok (lerpUnchecked a b t)

/-- src/float/interpolation.rs:31-46 `lagrange`. The assertion `x_point <= (array.len() - 1) as f32` panics when
false (also for NaN); `array.len() - 1` overflows on an empty slice. -/
def lagrange (c : Cfg) (ys : List F32) (x : F32) : M F32 := do
  let n1 ← c.usub ys.length 1
  if F32.le x (c.u2f n1) then .ok (lagrangeSum ys x) else .error .panic

end Verif.Interpolation
