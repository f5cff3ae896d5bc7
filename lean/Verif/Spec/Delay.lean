import Verif.Spec.Slice
import Verif.Model.DelayLine

/-! # Vocabulary for delay lines: a first-in first-out queue -/

namespace Verif

variable {α : Type}

/-- The delay line's buffer is live, its cursor is inside it, and reading the buffer from the cursor round to the
cell before the cursor gives the queue `q` (oldest sample first). -/
def Holds (c : Cfg) (mem : Mem α) (d : DelayLine) (q : List α) : Prop :=
  ∃ xs, Views c mem d.buffer xs ∧ d.index < xs.length ∧ q = xs.drop d.index ++ xs.take d.index

end Verif
