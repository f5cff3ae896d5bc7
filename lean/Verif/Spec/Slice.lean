import Verif.Model.MemorySlice

/-! # Vocabulary for stating properties of slices

Independent of how the code computes: what it means for a slice to look at a list of samples in live memory. -/

namespace Verif

variable {α : Type}

/-- The value held by element `j` of block `b`, if that element exists. -/
def cell (mem : Mem α) (b j : Nat) : Option α := (mem b).bind (fun cells => cells[j]?)

/-- Slice `s` looks at exactly the samples `xs`: they sit at the slice's pointer inside a live block, surrounded by
arbitrary other cells of that block. As everywhere in Rust, a block is at most `isize::MAX` bytes (4 per `f32`). -/
def Views (c : Cfg) (mem : Mem α) (s : MemorySlice) (xs : List α) : Prop :=
  ∃ b pre post, s.ptr = ⟨some b, pre.length⟩ ∧ s.length = xs.length ∧
    mem b = some (pre ++ xs ++ post) ∧ 4 * ((pre ++ xs ++ post).length : Int) ≤ c.isizeMax

/-- A slice into live memory. -/
def Live (c : Cfg) (mem : Mem α) (s : MemorySlice) : Prop := ∃ xs, Views c mem s xs

/-- An `isize` value. -/
def Cfg.IsIsize (c : Cfg) (i : Int) : Prop := c.isizeMin ≤ i ∧ i ≤ c.isizeMax
/-- A `usize` value. -/
def Cfg.IsUsize (c : Cfg) (n : Nat) : Prop := n ≤ c.usizeMax

/-- `xs` at position `i`, going round and round. -/
def wrapAt (xs : List α) (hx : xs ≠ []) (i : Int) : α :=
  xs[(i % (xs.length : Int)).toNat]'(by
    have : (0 : Int) < xs.length := by
      have := List.length_pos_iff.mpr hx; omega
    have h1 := Int.emod_nonneg i this.ne'
    have h2 := Int.emod_lt_of_pos i this
    omega)

end Verif
