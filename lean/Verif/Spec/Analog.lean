import Mathlib.Analysis.Complex.Basic

/-! # The second-order sections of analogue filter theory

Their gain at the complex frequency `s`, in units of the corner frequency: `s = i` is the corner. `Q` is the quality factor. -/

namespace Verif

noncomputable def analogLow (Q : ℝ) (s : ℂ) : ℂ := 1 / (s ^ 2 + s / Q + 1)
noncomputable def analogHigh (Q : ℝ) (s : ℂ) : ℂ := s ^ 2 / (s ^ 2 + s / Q + 1)
noncomputable def analogAll (Q : ℝ) (s : ℂ) : ℂ := (s ^ 2 - s / Q + 1) / (s ^ 2 + s / Q + 1)
noncomputable def analogNotch (Q : ℝ) (s : ℂ) : ℂ := (s ^ 2 + 1) / (s ^ 2 + s / Q + 1)
noncomputable def analogBell (Q g : ℝ) (s : ℂ) : ℂ := (s ^ 2 + g * (s / Q) + 1) / (s ^ 2 + s / Q + 1)

end Verif
