import Verif.Props.Phase

/-! # C128: an oscillator next to an ideal one over a long time -/

namespace Verif
open F32

/-- The settings for which the oscillator is meant: an ordinary sample rate and a frequency below Nyquist. -/
structure Audible (freq sr : F32) : Prop where
  freq_fin : freq.isFin = true
  sr_fin : sr.isFin = true
  sr_low : 1 / 2 ^ 90 ≤ sr.val
  sr_high : sr.val ≤ 2 ^ 120
  freq_pos : 0 < freq.val
  freq_nyquist : freq.val < sr.val / 2

/-- The phase, in turns, an accumulator has reached after the given calls. -/
def turnsAfter (freq sr : F32) (calls : List Bool) : ℚ :=
  ((runPhase (SoftPhaseAccumulator.new freq sr) (callsOf calls)).counter : ℚ) / 2 ^ 32

/-- Within `ε` of each other on the circle of length 1. -/
def TurnsNear (x y ε : ℚ) : Prop := ∃ k : ℤ, |x - y - k| ≤ ε

/-- C128 in full: the oscillator stays within a hundredth of a turn of `n * freq / sr`. -/
def C128_full : Prop :=
  ∀ freq sr, Audible freq sr → ∀ calls, TurnsNear (turnsAfter freq sr calls) (calls.length * freq.val / sr.val) (1 / 100)

theorem turnsAfter_eq (freq sr : F32) (calls : List Bool) :
    ∃ k : ℤ, turnsAfter freq sr calls = calls.length * phaseStep freq sr / 2 ^ 32 - k := by
  have h := (C65_phase freq sr 0 calls).1
  have h0 : (SoftPhaseAccumulator.new freq sr).setPhaseShift 0 = SoftPhaseAccumulator.new freq sr := rfl
  rw [h0] at h
  generalize phaseStep freq sr = st at h ⊢
  unfold turnsAfter
  rw [h]
  have h1 := Nat.div_add_mod (calls.length * st) (2 ^ 32)
  generalize calls.length * st % 2 ^ 32 = r at h1 ⊢
  generalize hd : calls.length * st / 2 ^ 32 = d at h1
  refine ⟨(d : ℤ), ?_⟩
  have h2 : (calls.length : ℚ) * st = 2 ^ 32 * d + r := by exact_mod_cast h1.symm
  rw [h2]; push_cast; ring

/-- C128, what holds: the error grows at most by the error of one step per sample. -/
theorem C128_partial {freq sr : F32} (h : Audible freq sr) (calls : List Bool) :
    TurnsNear (turnsAfter freq sr calls) (calls.length * freq.val / sr.val)
      (calls.length * (1 / 2 ^ 32 + freq.val / sr.val / 2 ^ 22)) := by
  obtain ⟨k, hk⟩ := turnsAfter_eq freq sr calls
  refine ⟨-k, ?_⟩
  rw [hk]
  have hs := phaseStep_near h.freq_fin h.sr_fin h.sr_low h.sr_high h.freq_pos h.freq_nyquist
  have hsp : 0 < sr.val := lt_of_lt_of_le (by norm_num) h.sr_low
  have e : (calls.length * phaseStep freq sr / 2 ^ 32 - (k : ℚ) - calls.length * freq.val / sr.val - ((-k : ℤ) : ℚ)) =
      calls.length * (((phaseStep freq sr : ℚ) - freq.val * 2 ^ 32 / sr.val) / 2 ^ 32) := by
    push_cast; field_simp; ring
  rw [e, abs_mul, abs_of_nonneg (Nat.cast_nonneg _)]
  refine mul_le_mul_of_nonneg_left ?_ (Nat.cast_nonneg _)
  rw [abs_div, abs_of_pos (show (0:ℚ) < 2 ^ 32 by positivity), div_le_iff₀ (by positivity)]
  refine hs.le.trans (le_of_eq ?_)
  field_simp
  try ring

/-- C128 as the code has it: unless the step is exactly `freq * 2^32 / sr`, the oscillator is a quarter turn off again and
again, however late. -/
theorem C128_actual {freq sr : F32} (h : Audible freq sr) (hne : ∀ step : ℕ, (step : ℚ) ≠ freq.val * 2 ^ 32 / sr.val)
    (N : ℕ) {ε : ℚ} (hε : ε < 1 / 4) :
    ∃ n ≥ N, ∀ calls : List Bool, calls.length = n → ¬ TurnsNear (turnsAfter freq sr calls) (n * freq.val / sr.val) ε := by
  have hsp : 0 < sr.val := lt_of_lt_of_le (by norm_num) h.sr_low
  have hs := phaseStep_near h.freq_fin h.sr_fin h.sr_low h.sr_high h.freq_pos h.freq_nyquist
  have hn := hne (phaseStep freq sr)
  have hr : freq.val / sr.val < 1 / 2 := by rw [div_lt_iff₀ hsp]; linarith [h.freq_nyquist]
  obtain ⟨δ, hδ⟩ : ∃ δ : ℚ, δ = phaseStep freq sr / 2 ^ 32 - freq.val / sr.val := ⟨_, rfl⟩
  have e1 : (phaseStep freq sr : ℚ) - freq.val * 2 ^ 32 / sr.val = δ * 2 ^ 32 := by rw [hδ]; field_simp
  have h0 : 0 < |δ| := by
    rw [abs_pos]; rintro rfl
    exact hn (sub_eq_zero.1 (by rw [e1, zero_mul]))
  have h1 : |δ| < 1 / 4 := by
    rw [e1, abs_mul, abs_of_pos (show (0:ℚ) < 2 ^ 32 by positivity),
      show freq.val * 2 ^ 32 / sr.val = freq.val / sr.val * 2 ^ 32 by ring] at hs
    norm_num at hs; linarith
  obtain ⟨n, hn0, hn1⟩ : ∃ n : ℕ, (N : ℚ) + 1 / 4 ≤ n * |δ| ∧ n * |δ| < N + 1 / 2 := by
    refine ⟨⌈((N : ℚ) + 1 / 4) / |δ|⌉₊, ?_, ?_⟩
    · rw [← div_le_iff₀ h0]; exact Nat.le_ceil _
    · have := Nat.ceil_lt_add_one (a := ((N : ℚ) + 1 / 4) / |δ|) (by positivity)
      have : (⌈((N : ℚ) + 1 / 4) / |δ|⌉₊ : ℚ) * |δ| < (((N : ℚ) + 1 / 4) / |δ| + 1) * |δ| := mul_lt_mul_of_pos_right this h0
      rw [add_mul, div_mul_cancel₀ _ h0.ne'] at this
      linarith
  refine ⟨n, ?_, fun calls hc => ?_⟩
  · have : (N : ℚ) ≤ n := by
      have : (n : ℚ) * |δ| ≤ n := mul_le_of_le_one_right (by positivity) (by linarith)
      linarith
    exact_mod_cast this
  rintro ⟨k, hk⟩
  obtain ⟨j, hj⟩ := turnsAfter_eq freq sr calls
  have e2 : turnsAfter freq sr calls - n * freq.val / sr.val - k = n * δ - ((j + k : ℤ) : ℚ) := by
    rw [hj, hc, hδ]; push_cast; ring
  rw [e2] at hk
  -- the distance of `n δ` from whole numbers is at least a quarter
  have far : ∀ z : ℤ, 1 / 4 ≤ |n * |δ| - z| := by
    intro z
    rcases le_or_gt z N with hz | hz
    · have : (z : ℚ) ≤ N := by exact_mod_cast hz
      exact le_trans (by linarith) (le_abs_self _)
    · have : (N : ℚ) + 1 ≤ z := by exact_mod_cast hz
      exact le_trans (by linarith) (neg_le_abs _)
  rcases abs_cases δ with ⟨ha, -⟩ | ⟨ha, -⟩
  · have := far (j + k)
    rw [ha] at this; linarith
  · have := far (-(j + k))
    rw [ha, ← abs_neg] at this
    rw [show -((n : ℚ) * -δ - ((-(j + k) : ℤ) : ℚ)) = n * δ - ((j + k : ℤ) : ℚ) by push_cast; ring] at this
    linarith

/-- What the oscillator's own pitch is: exactly `step` turns in `2^32` samples, after which it is back where it started. -/
theorem C128_pitch_actual (freq sr : F32) (calls : List Bool) (h : calls.length = 2 ^ 32) :
    turnsAfter freq sr calls = 0 := by
  have h1 := (C65_phase freq sr 0 calls).1
  have h0 : (SoftPhaseAccumulator.new freq sr).setPhaseShift 0 = SoftPhaseAccumulator.new freq sr := rfl
  rw [h0] at h1
  unfold turnsAfter
  rw [h1, h, Nat.mul_mod_right]
  simp

theorem concert_audible : Audible (lit 440) (lit 48000) := by
  constructor <;> decide +kernel

/-- C128 refuted: 440 Hz at 48 kHz is a hundredth of a turn behind after `2^26` samples (23 minutes). -/
theorem C128_refuted : ¬ C128_full := by
  intro h
  obtain ⟨k, hk⟩ := h _ _ concert_audible (List.replicate (2 ^ 26) true)
  have hs : phaseStep (lit 440) (lit 48000) = 39370532 := by decide +kernel
  have h1 := (C65_phase (lit 440) (lit 48000) 0 (List.replicate (2 ^ 26) true)).1
  have h0 : (SoftPhaseAccumulator.new (lit 440) (lit 48000)).setPhaseShift 0 = SoftPhaseAccumulator.new (lit 440) (lit 48000) := rfl
  have hf : (lit 440 : F32).val = 440 := by decide +kernel
  have hr : (lit 48000 : F32).val = 48000 := by decide +kernel
  rw [h0, hs, List.length_replicate] at h1
  unfold turnsAfter at hk
  rw [h1, hf, hr, List.length_replicate] at hk
  norm_num at hk
  rw [abs_le] at hk
  obtain ⟨ha, hb⟩ := hk
  have l1 : (k : ℚ) < -615164 := by linarith
  have l2 : (-615165 : ℚ) < k := by linarith
  have l1' : k < -615164 := by exact_mod_cast l1
  have l2' : -615165 < k := by exact_mod_cast l2
  omega

/-- 440 Hz at 48 kHz: no whole number of steps. -/
example : Audible (lit 440) (lit 48000) ∧ ∀ step : ℕ, (step : ℚ) ≠ (lit 440 : F32).val * 2 ^ 32 / (lit 48000 : F32).val := by
  refine ⟨concert_audible, fun step h => ?_⟩
  rw [show (lit 440 : F32).val = 440 by decide +kernel, show (lit 48000 : F32).val = 48000 by decide +kernel,
    eq_div_iff (by norm_num)] at h
  have h2 : step * 48000 = 440 * 2 ^ 32 := by exact_mod_cast h
  omega

end Verif
