import Verif.Model.DelayLine

/-! # The buffers handed out by comb and all-pass -/

namespace Verif
variable {α : Type}

/-- src/comb.rs:33-35 `get_ptr_slice_mut` -/
def Comb.getPtrSliceMut (k : Comb α) : Ptr × Nat := k.delayLine.getPtrSliceMut

/-- src/all_pass.rs:25-27 `get_ptr_slice_mut` -/
def AllPass.getPtrSliceMut (k : AllPass) : Ptr × Nat := k.delayLine.getPtrSliceMut

/-- The caller's `for i in 0..n { *p.add(i) = v }`, or `fill(v)`, through the `*mut [f32]` handed out. -/
def fillThrough (mem : Mem α) (p : Ptr) (v : α) : Nat → M (Mem α)
  | 0 => .ok mem
  | n + 1 => do store (← fillThrough mem p v n) p n v

end Verif
