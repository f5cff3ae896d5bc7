import Verif.Props.Period

/-! # C166: a higher frequency asked for never gives a lower pitch -/

namespace Verif
open F32 FunctionalOscillator

theorem phaseStep_f2u32 (freq sr : F32) : phaseStep freq sr = f2u32 (freq * (lit (2 ^ 32) / sr)) := (f2u32_eq _).symm

theorem f2u32_mono {p q : F32} (hp : p.isNaN = false) (hq : q.isNaN = false) (h : p.val ≤ q.val) : f2u32 p ≤ f2u32 q := by
  rw [f2u32_eq, f2u32_eq]
  simp only [hp, hq, Bool.false_eq_true, false_or]
  split
  · exact Nat.zero_le _
  · rename_i h1
    rw [if_neg (by linarith [not_lt.1 h1])]
    have := Int.floor_le_floor h
    omega

/-- The unit step of a sample rate of at least `2^-90` is a finite nonnegative float. -/
theorem unitStep {sr : F32} (hs : sr.isFin = true) (h0 : 1 / 2 ^ 90 ≤ sr.val) :
    (lit (2 ^ 32) / sr : F32).isFin = true ∧ 0 ≤ (lit (2 ^ 32) / sr : F32).val ∧ ∃ s, (lit (2 ^ 32) / sr : F32) = rnd s (2 ^ 32 / sr.val) := by
  have hp : 0 < sr.val := lt_of_lt_of_le (by norm_num) h0
  have e := div_fin (x := lit (2 ^ 32)) (y := sr) (by decide +kernel) hs hp.ne'
  rw [show (lit (2 ^ 32) : F32).val = 2 ^ 32 by decide +kernel] at e
  have h1 : |2 ^ 32 / sr.val| ≤ 2 ^ 122 := by
    rw [abs_of_pos (by positivity), div_le_iff₀ hp]
    calc (2:ℚ) ^ 32 = 2 ^ 122 * (1 / 2 ^ 90) := by norm_num
      _ ≤ _ := mul_le_mul_of_nonneg_left h0 (by positivity)
  refine ⟨?_, ?_, _, e⟩
  · rw [e]; exact rnd_fin_of_le_max (h1.trans (by norm_num))
  · rw [e]; exact rnd_val_nonneg (by positivity)

theorem mul_not_nan {x y : F32} (hx : x.isFin = true) (hy : y.isFin = true) : (x * y).isNaN = false := by
  rw [mul_fin hx hy]; exact rnd_not_nan _ _

/-- The step does not fall when the frequency rises. -/
theorem phaseStep_mono {f f' sr : F32} (hf : f.isFin = true) (hf' : f'.isFin = true) (hs : sr.isFin = true) (h0 : 1 / 2 ^ 90 ≤ sr.val)
    (h : f.val ≤ f'.val) : phaseStep f sr ≤ phaseStep f' sr := by
  obtain ⟨u1, u2, -⟩ := unitStep hs h0
  rw [phaseStep_f2u32, phaseStep_f2u32]
  refine f2u32_mono (mul_not_nan hf u1) (mul_not_nan hf' u1) ?_
  rw [mul_fin hf u1, mul_fin hf' u1]
  exact rnd_mono (mul_le_mul_of_nonneg_right h u2)

/-- Nor does it rise when the sample rate does. -/
theorem phaseStep_anti {f sr sr' : F32} (hf : f.isFin = true) (hs : sr.isFin = true) (hs' : sr'.isFin = true) (h0 : 1 / 2 ^ 90 ≤ sr.val)
    (h : sr.val ≤ sr'.val) : phaseStep f sr' ≤ phaseStep f sr := by
  obtain ⟨u1, u2, s, hs1⟩ := unitStep hs h0
  obtain ⟨v1, v2, s', hs2⟩ := unitStep hs' (h0.trans h)
  have hp : 0 < sr.val := lt_of_lt_of_le (by norm_num) h0
  have hle : (lit (2 ^ 32) / sr' : F32).val ≤ (lit (2 ^ 32) / sr : F32).val := by
    rw [hs1, hs2]
    exact rnd_mono (div_le_div_of_nonneg_left (by norm_num) hp h)
  rw [phaseStep_f2u32, phaseStep_f2u32]
  rcases le_or_gt 0 f.val with hf0 | hf0
  · refine f2u32_mono (mul_not_nan hf v1) (mul_not_nan hf u1) ?_
    rw [mul_fin hf v1, mul_fin hf u1]
    exact rnd_mono (mul_le_mul_of_nonneg_left hle hf0)
  · have hz : (f * (lit (2 ^ 32) / sr') : F32).val ≤ 0 := by
      rw [mul_fin hf v1]
      have := rnd_mono (s := f.neg != (lit (2 ^ 32) / sr' : F32).neg) (t := false) (mul_nonpos_of_nonpos_of_nonneg hf0.le v2)
      rwa [show (rnd false 0).val = 0 by decide +kernel] at this
    have : f2u32 (f * (lit (2 ^ 32) / sr')) = 0 := by
      rw [f2u32_eq]
      split
      · rfl
      · rename_i h1
        rw [not_or, not_lt] at h1
        rw [le_antisymm hz h1.2]
        rfl
    rw [this]; exact Nat.zero_le _

/-- Specification: the phase is moved on by `step` units of `2^-32` turn by every call. -/
def MovesBy (a : SoftPhaseAccumulator) (step : ℕ) : Prop :=
  step < 2 ^ 32 ∧ ∀ n, (Nat.iterate SoftPhaseAccumulator.tick n a).counter = (a.counter + n * step) % 2 ^ 32

theorem tunedTo_fields {freq sr : F32} {a : SoftPhaseAccumulator} (h : TunedTo freq sr a) :
    a.freq = freq ∧ a.minStep = u32MaxF / sr := by
  cases h <;> exact ⟨rfl, rfl⟩

theorem movesBy {freq sr : F32} {a : SoftPhaseAccumulator} (h : TunedTo freq sr a) (hc : a.counter < 2 ^ 32) :
    MovesBy a (phaseStep freq sr) := by
  refine ⟨phaseStep_lt _ _, fun n => ?_⟩
  obtain ⟨h1, h2⟩ := tunedTo_fields h
  have key : ∀ n, (Nat.iterate SoftPhaseAccumulator.tick n a).counter = (a.counter + n * phaseStep freq sr) % 2 ^ 32 ∧
      (Nat.iterate SoftPhaseAccumulator.tick n a).freq = freq ∧ (Nat.iterate SoftPhaseAccumulator.tick n a).minStep = u32MaxF / sr := by
    intro n
    induction n with
    | zero => exact ⟨by rw [Nat.zero_mul, Nat.add_zero, Nat.mod_eq_of_lt hc]; rfl, h1, h2⟩
    | succ n ih =>
      obtain ⟨i1, i2, i3⟩ := ih
      rw [Function.iterate_succ_apply']
      refine ⟨?_, i2, i3⟩
      have : ((Nat.iterate SoftPhaseAccumulator.tick n a).tick).counter =
          ((Nat.iterate SoftPhaseAccumulator.tick n a).counter + f2u32 ((Nat.iterate SoftPhaseAccumulator.tick n a).freq *
            (Nat.iterate SoftPhaseAccumulator.tick n a).minStep)) % 2 ^ 32 := rfl
      rw [this, step_eq i3, i1, i2, Nat.mod_add_mod]
      congr 1
      ring
  exact (key n).1

/-- C166: of two accumulators at the same sample rate, the one asked for the higher frequency moves on at least as far with every call,
whatever the frequencies: negative, above the sample rate, or far out of the audible range. -/
theorem C166_frequency {f f' sr : F32} (hf : f.isFin = true) (hf' : f'.isFin = true) (hs : sr.isFin = true) (h0 : 1 / 2 ^ 90 ≤ sr.val)
    (h : f.val ≤ f'.val) {a a' : SoftPhaseAccumulator} (ha : TunedTo f sr a) (ha' : TunedTo f' sr a') (hc : a.counter < 2 ^ 32)
    (hc' : a'.counter < 2 ^ 32) : ∃ s s', MovesBy a s ∧ MovesBy a' s' ∧ s ≤ s' :=
  ⟨_, _, movesBy ha hc, movesBy ha' hc', phaseStep_mono hf hf' hs h0 h⟩

/-- C166: at a higher sample rate the same frequency never moves on further per call. -/
theorem C166_rate {f sr sr' : F32} (hf : f.isFin = true) (hs : sr.isFin = true) (hs' : sr'.isFin = true) (h0 : 1 / 2 ^ 90 ≤ sr.val)
    (h : sr.val ≤ sr'.val) {a a' : SoftPhaseAccumulator} (ha : TunedTo f sr a) (ha' : TunedTo f sr' a') (hc : a.counter < 2 ^ 32)
    (hc' : a'.counter < 2 ^ 32) : ∃ s s', MovesBy a s ∧ MovesBy a' s' ∧ s' ≤ s :=
  ⟨_, _, movesBy ha hc, movesBy ha' hc', phaseStep_anti hf hs hs' h0 h⟩

/-- C166: and two frequencies below Nyquist that are one part in a million and a billionth of the sample rate apart never sound alike:
the higher one moves on strictly further. -/
theorem C166_distinct {f f' sr : F32} (hf : f.isFin = true) (hf' : f'.isFin = true) (hs : sr.isFin = true) (h0 : 1 / 2 ^ 90 ≤ sr.val)
    (h1 : sr.val ≤ 2 ^ 120) (hp : 0 < f.val) (hny : f'.val < sr.val / 2)
    (hrel : f.val * (1 + 1 / 10 ^ 6) + sr.val / 10 ^ 9 ≤ f'.val) {a a' : SoftPhaseAccumulator} (ha : TunedTo f sr a)
    (ha' : TunedTo f' sr a') (hc : a.counter < 2 ^ 32) (hc' : a'.counter < 2 ^ 32) :
    ∃ s s', MovesBy a s ∧ MovesBy a' s' ∧ s < s' := by
  refine ⟨_, _, movesBy ha hc, movesBy ha' hc', ?_⟩
  have hs0 : 0 < sr.val := lt_of_lt_of_le (by norm_num) h0
  have hff : f.val < f'.val := by
    have : 0 < sr.val / 10 ^ 9 := by positivity
    nlinarith
  have e := phaseStep_near hf hs h0 h1 hp (hff.trans hny)
  have e' := phaseStep_near hf' hs h0 h1 (hp.trans hff) hny
  have e := (abs_lt.1 e).2
  have e' := (abs_lt.1 e').1
  have hI : f.val * 2 ^ 32 / sr.val * (1 + 1 / 10 ^ 6) + 2 ^ 32 / 10 ^ 9 ≤ f'.val * 2 ^ 32 / sr.val := by
    rw [le_div_iff₀ hs0]
    have : (f.val * 2 ^ 32 / sr.val * (1 + 1 / 10 ^ 6) + 2 ^ 32 / 10 ^ 9) * sr.val =
        (f.val * (1 + 1 / 10 ^ 6) + sr.val / 10 ^ 9) * 2 ^ 32 := by field_simp
    rw [this]
    exact mul_le_mul_of_nonneg_right hrel (by norm_num)
  have hIp : 0 < f.val * 2 ^ 32 / sr.val := by positivity
  have : ((phaseStep f sr : ℕ) : ℚ) < (phaseStep f' sr : ℕ) := by
    generalize f.val * 2 ^ 32 / sr.val = I at *
    generalize f'.val * 2 ^ 32 / sr.val = I' at *
    norm_num at e e' hI
    linarith
  exact_mod_cast this

/-- 440 Hz and 440.001 Hz at 48 kHz; 440 Hz at 44.1 and 48 kHz; two frequencies above the sample rate move on alike. -/
example : phaseStep (lit 440) (lit 48000) < phaseStep (lit (440001 / 1000)) (lit 48000) ∧
    phaseStep (lit 440) (lit 48000) < phaseStep (lit 440) (lit 44100) ∧
    phaseStep (lit 50000) (lit 48000) = phaseStep (lit 60000) (lit 48000) ∧
    (lit 440 : F32).val * (1 + 1 / 10 ^ 6) + (lit 48000 : F32).val / 10 ^ 9 ≤ (lit (440001 / 1000) : F32).val := by decide +kernel

end Verif
