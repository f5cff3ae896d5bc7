import Verif.Model.Interpolation

/-! # /repo/src/memory/mod.rs and /repo/src/memory/memory_slice.rs

The type parameter `Mutability` (`NonMutable`/`Mutable`, memory/mod.rs:12-63) only decides at compile time whether
`assign*` exist; both wrap one raw pointer, so the model has one slice type. -/

namespace Verif

/-- src/memory/mod.rs:6-10 `MemSliceError` -/
inductive MemSliceError where
  | indexOutOfBound | lengthOutOfBound
  deriving DecidableEq, Repr

/-- src/memory/memory_slice.rs:44-49 `MemorySlice` -/
structure MemorySlice where
  ptr : Ptr
  length : Nat
  deriving DecidableEq, Repr

namespace MemorySlice
open Interpolation
variable {α : Type} (c : Cfg) (mem : Mem α) (s : MemorySlice)

/-- src/memory/memory_slice.rs:74-89 `Default::default`, `null`, `null_mut` -/
def null : MemorySlice := ⟨Ptr.null, 0⟩

/-- src/memory/memory_slice.rs:342-356 `from_slice`, `from_slice_mut`: the slice covering the `len` elements from
offset `off` of block `b`. -/
def fromSlice (b off len : Nat) : MemorySlice := ⟨⟨some b, off⟩, len⟩

/-- src/memory/memory_slice.rs:97-99 `len` -/
def len : Nat := s.length

/-- src/memory/memory_slice.rs:114-131 `get_sub_slice` -/
def getSubSlice (offset subLength : Nat) : M (Except MemSliceError MemorySlice) := do
  if offset ≥ s.length then return .error .indexOutOfBound
  let stop ← c.uadd offset subLength
  if stop ≥ s.length then return .error .lengthOutOfBound
  let p ← s.ptr.add mem offset
  return .ok ⟨p, subLength⟩

/-- src/memory/memory_slice.rs:138-140 `get_unchecked` -/
def getUnchecked (index : Nat) : M α := load mem s.ptr index

/-- src/memory/memory_slice.rs:142-148 `get` -/
def get (index : Nat) : M (Except MemSliceError α) := do
  if index ≥ s.length then return .error .indexOutOfBound
  return .ok (← s.getUnchecked mem index)

/-- src/memory/memory_slice.rs:155-157 `get_wrapped_unchecked` -/
def getWrappedUnchecked (index : Int) : M α := do
  let r ← c.irem index (c.asIsize s.length)
  s.getUnchecked mem (c.asUsize r)

/-- src/memory/memory_slice.rs:160-166 `get_wrapped` -/
def getWrapped (index : Int) : M α :=
  if index ≥ c.asIsize s.length ∨ index < 0 then s.getWrappedUnchecked c mem index
  else s.getUnchecked mem (c.asUsize index)

/-- src/memory/memory_slice.rs:168-188 `get_slice_of_four_wrapped` -/
def getSliceOfFourWrapped (index : Int) : M (α × α × α × α) := do
  let i3 ← c.iadd index 3
  if i3 ≥ c.asIsize s.length ∨ index < 0 then
    let a ← s.getWrappedUnchecked c mem (← c.iadd index 0)
    let b ← s.getWrappedUnchecked c mem (← c.iadd index 1)
    let d ← s.getWrappedUnchecked c mem (← c.iadd index 2)
    let e ← s.getWrappedUnchecked c mem (← c.iadd index 3)
    return (a, b, d, e)
  else
    let a ← s.getUnchecked mem (c.asUsize (← c.iadd index 0))
    let b ← s.getUnchecked mem (c.asUsize (← c.iadd index 1))
    let d ← s.getUnchecked mem (c.asUsize (← c.iadd index 2))
    let e ← s.getUnchecked mem (c.asUsize (← c.iadd index 3))
    return (a, b, d, e)

/-- src/memory/memory_slice.rs:271-274, 324-327 `change_slice_unchecked`, `change_mut_slice_unchecked` -/
def changeSliceUnchecked (_s : MemorySlice) (p : Ptr) (length : Nat) : MemorySlice := ⟨p, length⟩

/-- src/memory/memory_slice.rs:281-283, 334-336 `as_slice`, `as_slice_mut`: pointer and length -/
def asSlice : Ptr × Nat := (s.ptr, s.length)

/-- src/memory/memory_slice.rs:299-301 `assign_unchecked` -/
def assignUnchecked (index : Nat) (v : α) : M (Mem α) := store mem s.ptr index v

/-- src/memory/memory_slice.rs:303-313 `assign` (the new memory, or the error and no new memory) -/
def assign (index : Nat) (v : α) : M (Except MemSliceError (Mem α)) := do
  if index ≥ s.length then return .error .indexOutOfBound
  return .ok (← s.assignUnchecked mem index v)

/-! ## interpolated access (cells are `f32`) -/

variable (mem : Mem F32)

/-- src/memory/memory_slice.rs:195-200 `lerp_unchecked` -/
def lerpUnchecked (index : F32) : M F32 := do
  let a ← s.getUnchecked mem (c.f2u index)
  let b ← s.getUnchecked mem (← c.uadd (c.f2u index) 1)
  return Interpolation.lerpUnchecked a b (index - c.u2f (c.f2u index))

/-- `f32::EPSILON` = 2^-23 -/
def epsilon : F32 := lit (1 / 2 ^ 23)

/-- src/memory/memory_slice.rs:202-217 `lerp`. In the condition, `self.length as f32 - 1.0 + 10.0 * f32::EPSILON`
associates as `(length - 1.0) + (10.0 * EPSILON)`. -/
def lerp (index : F32) : M (Except MemSliceError F32) := do
  if F32.lt index (lit 0) then return .error .indexOutOfBound
  let n1 ← c.usub s.length 1
  if F32.feq index (c.u2f n1) && F32.lt index (c.u2f s.length - lit 1 + lit 10 * epsilon) then
    return .ok (← s.getUnchecked mem (c.f2u index))
  match ← s.get mem (c.f2u index) with
  | .error e => return .error e
  | .ok a =>
    match ← s.get mem (← c.uadd (c.f2u index) 1) with
    | .error e => return .error e
    | .ok b => return .ok (Interpolation.lerpUnchecked a b (index - c.u2f (c.f2u index)))

/-- src/memory/memory_slice.rs:220-226 `lerp_wrapped`; `floor` is micromath's `F32Ext::floor` (external). -/
def lerpWrapped (floor : F32 → F32) (index : F32) : M F32 := do
  let i := c.f2i (floor index)
  let a ← s.getWrapped c mem i
  let b ← s.getWrapped c mem (← c.iadd i 1)
  return Interpolation.lerpUnchecked a b (index - c.i2f i)

/-- src/memory/memory_slice.rs:243-248: the samples the loop `for i in lower_bound..=upper_bound` stores, in
order; the loop variable is `lo + k`. (Each `slice[(i - lower_bound) as usize]` is written once, in order, so the
filled prefix of the array is this list.) -/
def lagrangeWindow (i lo : Int) : Nat → M (List F32)
  | 0 => .ok []
  | n + 1 => do
    let v ← s.getWrappedUnchecked c mem (← c.iadd i lo)
    let rest ← lagrangeWindow i (lo + 1) n
    return v :: rest

/-- src/memory/memory_slice.rs:232-251 `lagrange_wrapped`. `window_size` is capped at 100; the loop runs over
`-(window/2) + 1 ..= window/2`, i.e. `2*(window/2)` samples; `slice[..window_size]` is those samples padded with
the array's initial zeros (one zero when the window is odd). -/
def lagrangeWrapped (floor : F32 → F32) (index : F32) (windowSize : Nat) : M F32 := do
  let i := c.f2i (floor index)
  let window := if windowSize > 100 then 100 else windowSize
  let half : Nat := window / 2
  let xs ← s.lagrangeWindow c mem i (-(half : Int) + 1) (2 * half)
  let slice := xs ++ List.replicate (window - 2 * half) (lit 0)
  Interpolation.lagrange c slice (index - c.i2f i)

/-- src/memory/memory_slice.rs:253-260 `lagrange_four_points_wrapped` -/
def lagrangeFourPointsWrapped (floor : F32 → F32) (index : F32) : M F32 := do
  let (a, b, d, e) ← s.getSliceOfFourWrapped c mem (c.f2i (floor index))
  return Interpolation.lagrange4 a b d e index

end MemorySlice
end Verif
