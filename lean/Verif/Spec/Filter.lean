import Mathlib.Analysis.Complex.Basic
import Verif.Model.Biquad

/-! # What a digital filter is: runs, past samples, gain at a point, stability -/

namespace Verif

section
variable {α : Type} [Add α] [Sub α] [Mul α] [Lit α]

/-- The filter before sample `n` of the input sequence. -/
def Biquad.stateAt (f : Biquad α) (x : ℕ → α) : ℕ → Biquad α
  | 0 => f
  | n + 1 => ((f.stateAt x n).process (x n)).1

/-- The `n`-th output for the input sequence. -/
def Biquad.outAt (f : Biquad α) (x : ℕ → α) (n : ℕ) : α := ((f.stateAt x n).process (x n)).2

/-- The same when the caller may also replace the (public) coefficients before every sample. -/
def Biquad.stateAtVar (f : Biquad α) (h : ℕ → BiquadCoeffs α × α) : ℕ → Biquad α
  | 0 => f
  | n + 1 => ({ f.stateAtVar h n with coeffs := (h n).1 }.process (h n).2).1

def Biquad.outAtVar (f : Biquad α) (h : ℕ → BiquadCoeffs α × α) (n : ℕ) : α :=
  ({ f.stateAtVar h n with coeffs := (h n).1 }.process (h n).2).2
end

/-- Sample `n - k` of a signal that is zero before time 0. -/
def past {K : Type} [Zero K] (s : ℕ → K) (n k : ℕ) : K := if k ≤ n then s (n - k) else 0

/-- The signal delayed by `k` samples (zeros first). -/
def delayed {K : Type} [Zero K] (s : ℕ → K) (k n : ℕ) : K := past s n k

/-- Coefficients carried to another number type. -/
def BiquadCoeffs.map {α β : Type} (f : α → β) (c : BiquadCoeffs α) : BiquadCoeffs β :=
  ⟨f c.b0, f c.b1, f c.b2, f c.a1, f c.a2⟩

section
variable {K : Type} [Field K]

/-- Numerator and denominator of the transfer function, times `z^2`, and the gain `H(z)`. -/
def BiquadCoeffs.num (c : BiquadCoeffs K) (z : K) : K := c.b0 * z ^ 2 + c.b1 * z + c.b2
def BiquadCoeffs.den (c : BiquadCoeffs K) (z : K) : K := z ^ 2 + c.a1 * z + c.a2
def BiquadCoeffs.gain (c : BiquadCoeffs K) (z : K) : K := c.num z / c.den z
end

/-- The gain of real coefficients at a complex point. -/
noncomputable def BiquadCoeffs.cgain (c : BiquadCoeffs ℝ) (z : ℂ) : ℂ := (c.map (fun r : ℝ => (r : ℂ))).gain z

/-- Both poles strictly inside the unit circle. -/
def BiquadCoeffs.Stable (c : BiquadCoeffs ℝ) : Prop :=
  ∀ z : ℂ, (c.map (fun r : ℝ => (r : ℂ))).den z = 0 → ‖z‖ < 1

end Verif
