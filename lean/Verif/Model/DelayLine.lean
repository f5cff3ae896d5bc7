import Verif.Model.MemorySlice

/-! # /repo/src/delay_line.rs, /repo/src/comb.rs, /repo/src/all_pass.rs

Methods taking `&mut self` return the new value; writes return the new memory. -/

namespace Verif

/-- src/delay_line.rs:6-11 `DelayLine` -/
structure DelayLine where
  buffer : MemorySlice
  index : Nat
  deriving DecidableEq, Repr

namespace DelayLine
variable {α : Type} (c : Cfg) (mem : Mem α) (d : DelayLine)

/-- src/delay_line.rs:14-16 `new` -/
def new (buffer : MemorySlice) : DelayLine := ⟨buffer, 0⟩

/-- src/delay_line.rs:19-21 `change_buffer`: the cursor is kept -/
def changeBuffer (newSlice : MemorySlice) : DelayLine := { d with buffer := newSlice }

/-- src/delay_line.rs:24-26 `get_ptr_slice_mut` -/
def getPtrSliceMut : Ptr × Nat := d.buffer.asSlice

/-- src/delay_line.rs:28-30 `read` -/
def read : M α := d.buffer.getUnchecked mem d.index

/-- src/delay_line.rs:32-34 `read_wrapped_at` -/
def readWrappedAt (offset : Int) : M α := do
  let i ← c.iadd (c.asIsize d.index) offset
  d.buffer.getWrapped c mem i

/-- src/delay_line.rs:56-62 `advance`; also the tail of `write_and_advance`, lines 49-53 -/
def advance : M DelayLine := do
  let last ← c.usub d.buffer.len 1
  if d.index = last then return { d with index := 0 }
  let i ← c.uadd d.index 1
  return { d with index := i }

/-- src/delay_line.rs:44-54 `write_and_advance` -/
def writeAndAdvance (v : α) : M (Mem α × DelayLine) := do
  let mem' ← d.buffer.assignUnchecked mem d.index v
  let d' ← d.advance c
  return (mem', d')

/-- src/delay_line.rs:64-66 `len` -/
def len : Nat := d.buffer.len

/-- src/delay_line.rs:36-38 `read_lerp_wrapped_at` -/
def readLerpWrappedAt (floor : F32 → F32) (mem : Mem F32) (offset : F32) : M F32 :=
  d.buffer.lerpWrapped c mem floor (c.u2f d.index + offset)

/-- src/delay_line.rs:40-42 `read_lagrange_wrapped_at` -/
def readLagrangeWrappedAt (floor : F32 → F32) (mem : Mem F32) (offset : F32) : M F32 :=
  d.buffer.lagrangeWrapped c mem floor (c.u2f d.index + offset) 5

end DelayLine

/-- src/comb.rs:7-15 `Comb` -/
structure Comb (α : Type) where
  delayLine : DelayLine
  feedback : α
  filterState : α
  dampening : α
  dampeningInverse : α

namespace Comb
variable {α : Type} [Add α] [Sub α] [Mul α] [Lit α] (c : Cfg) (mem : Mem α) (k : Comb α)

/-- src/comb.rs:18-26 `new` -/
def new (buffer : MemorySlice) : Comb α :=
  { delayLine := DelayLine.new buffer, feedback := lit (1/2), filterState := lit 0,
    dampening := lit (1/2), dampeningInverse := lit (1/2) }

/-- src/comb.rs:29-31 `change_buffer` -/
def changeBuffer (newSlice : MemorySlice) : Comb α :=
  { k with delayLine := k.delayLine.changeBuffer newSlice }

/-- src/comb.rs:37-40 `set_dampening` -/
def setDampening (value : α) : Comb α := { k with dampening := value, dampeningInverse := lit 1 - value }

/-- src/comb.rs:42-44 `set_feedback` -/
def setFeedback (value : α) : Comb α := { k with feedback := value }

/-- src/comb.rs:46-55 `tick` -/
def tick (input : α) : M (Mem α × Comb α × α) := do
  let output ← k.delayLine.read mem
  let fs := output * k.dampeningInverse + k.filterState * k.dampening
  let (mem', dl) ← k.delayLine.writeAndAdvance c mem (input + fs * k.feedback)
  return (mem', { k with delayLine := dl, filterState := fs }, output)
end Comb

/-- src/all_pass.rs:7-11 `AllPass` -/
structure AllPass where
  delayLine : DelayLine

namespace AllPass
variable {α : Type} [Add α] [Sub α] [Mul α] [Neg α] [Lit α] (c : Cfg) (mem : Mem α) (k : AllPass)

/-- src/all_pass.rs:14-18 `new` -/
def new (buffer : MemorySlice) : AllPass := ⟨DelayLine.new buffer⟩

/-- src/all_pass.rs:21-23 `change_buffer` -/
def changeBuffer (newSlice : MemorySlice) : AllPass := ⟨k.delayLine.changeBuffer newSlice⟩

/-- src/all_pass.rs:29-39 `tick` -/
def tick (input : α) : M (Mem α × AllPass × α) := do
  let delayed ← k.delayLine.read mem
  let output := -input + delayed
  let feedback : α := lit (1/2)
  let (mem', dl) ← k.delayLine.writeAndAdvance c mem (input + delayed * feedback)
  return (mem', ⟨dl⟩, output)
end AllPass

end Verif
