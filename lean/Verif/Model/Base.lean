import Verif.F32.Basic

/-!
# Common ground of the model: faults, machine integers, casts, memory, literals

The Rust primitives used everywhere in /repo/src. A panic and an undefined behaviour are data (`Fault`).
-/

namespace Verif

/-- How a call can go wrong: a Rust panic, or undefined behaviour (here: an access outside a live allocation). -/
inductive Fault where
  | panic
  | ub
  deriving DecidableEq, Repr

/-- Result of a call. -/
abbrev M (α : Type) := Except Fault α

instance {α : Type} [DecidableEq α] : DecidableEq (Except Fault α)
  | .ok a, .ok b => decidable_of_iff (a = b) (by simp)
  | .error a, .error b => decidable_of_iff (a = b) (by simp)
  | .ok _, .error _ => isFalse (by simp)
  | .error _, .ok _ => isFalse (by simp)

/-- Build configuration: pointer width in bits (16 to 64) and whether integer overflow panics
(`debug_assertions`/`overflow-checks`) or wraps (release). -/
structure Cfg where
  w : Nat
  checks : Bool
  w_ge : 16 ≤ w
  w_le : w ≤ 64

/-- 64-bit debug build. -/
def Cfg.debug64 : Cfg := ⟨64, true, by decide, by decide⟩
/-- 64-bit release build. -/
def Cfg.release64 : Cfg := ⟨64, false, by decide, by decide⟩
/-- 32-bit release build (Cortex-M). -/
def Cfg.release32 : Cfg := ⟨32, false, by decide, by decide⟩

namespace Cfg
variable (c : Cfg)

/-- `usize::MAX` -/
def usizeMax : Nat := 2 ^ c.w - 1
/-- `isize::MAX` -/
def isizeMax : Int := 2 ^ (c.w - 1) - 1
/-- `isize::MIN` -/
def isizeMin : Int := - 2 ^ (c.w - 1)

/-- `a + b : usize` -/
def uadd (a b : Nat) : M Nat :=
  if a + b < 2 ^ c.w then .ok (a + b)
  else if c.checks then .error .panic else .ok ((a + b) % 2 ^ c.w)

/-- `a - b : usize` -/
def usub (a b : Nat) : M Nat :=
  if b ≤ a then .ok (a - b)
  else if c.checks then .error .panic else .ok (a + 2 ^ c.w - b)

/-- Two's-complement wrap of an integer into `isize`. -/
def wrapI (a : Int) : Int := (a + 2 ^ (c.w - 1)) % 2 ^ c.w - 2 ^ (c.w - 1)

/-- `a + b : isize` -/
def iadd (a b : Int) : M Int :=
  if c.isizeMin ≤ a + b ∧ a + b ≤ c.isizeMax then .ok (a + b)
  else if c.checks then .error .panic else .ok (c.wrapI (a + b))

/-- `n as isize` for `n : usize` -/
def asIsize (n : Nat) : Int := c.wrapI n

/-- `i as usize` for `i : isize` -/
def asUsize (i : Int) : Nat := (i % 2 ^ c.w).toNat

/-- `a.rem_euclid(b) : isize`; division by zero and `MIN.rem_euclid(-1)` panic in every build. -/
def irem (a b : Int) : M Int :=
  if b = 0 then .error .panic
  else if a = c.isizeMin ∧ b = -1 then .error .panic
  else .ok (a % b)

/-- `x as usize` for `x : f32` -/
def f2u (x : F32) : Nat := (F32.toIntSat 0 c.usizeMax x).toNat
/-- `x as isize` for `x : f32` -/
def f2i (x : F32) : Int := F32.toIntSat c.isizeMin c.isizeMax x
/-- `n as f32` for `n : usize` -/
def u2f (_c : Cfg) (n : Nat) : F32 := F32.ofInt n
/-- `i as f32` for `i : isize` -/
def i2f (_c : Cfg) (i : Int) : F32 := F32.ofInt i

end Cfg

/-- Numeric literals: `lit q` is the Rust literal (or the correctly rounded value of the integer cast) `q`.
Code that only does arithmetic is written over any type with `+ - * /`, negation and literals, so that it can be
read both at `F32` and in exact arithmetic. -/
class Lit (α : Type*) where
  lit : ℚ → α
export Lit (lit)

instance : Lit F32 := ⟨F32.ofRat⟩
instance (priority := low) {K : Type*} [DivisionRing K] : Lit K := ⟨fun q => (q : K)⟩

/-! ## Memory -/

/-- Block number to live block (`none`: not allocated, or freed). Cells hold `α` (`f32` in the code). -/
abbrev Mem (α : Type) := Nat → Option (List α)

/-- A raw pointer: a block and an element offset into it; `block = none` is null. -/
structure Ptr where
  block : Option Nat
  off : Nat
  deriving DecidableEq, Repr

/-- `core::ptr::null()` -/
def Ptr.null : Ptr := ⟨none, 0⟩

variable {α : Type}

/-- `ptr.add(n)`: must stay inside (or one past the end of) a live allocation unless `n = 0`. -/
def Ptr.add (mem : Mem α) (p : Ptr) (n : Nat) : M Ptr :=
  if n = 0 then .ok p else
  match p.block with
  | none => .error .ub
  | some b => match mem b with
    | none => .error .ub
    | some cells => if p.off + n ≤ cells.length then .ok ⟨some b, p.off + n⟩ else .error .ub

/-- `ptr.add(i).read_volatile()` -/
def load (mem : Mem α) (p : Ptr) (i : Nat) : M α :=
  match p.block with
  | none => .error .ub
  | some b => match mem b with
    | none => .error .ub
    | some cells => match cells[p.off + i]? with
      | none => .error .ub
      | some v => .ok v

/-- `ptr.add(i).write_volatile(v)` -/
def store (mem : Mem α) (p : Ptr) (i : Nat) (v : α) : M (Mem α) :=
  match p.block with
  | none => .error .ub
  | some b => match mem b with
    | none => .error .ub
    | some cells =>
      if p.off + i < cells.length then
        .ok (fun b' => if b' = b then some (cells.set (p.off + i) v) else mem b')
      else .error .ub

end Verif
