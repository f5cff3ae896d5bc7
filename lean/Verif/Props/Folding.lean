import Verif.Props.Period
import Mathlib.Algebra.Order.Round

/-! # C194: tones above half the sample rate fold down

`lib.rs:72` warns of "no anti-aliasing whatsoever". A tone sampled at `sr` should then not be told from one `sr` higher, and
a tone at `sr - f` is the tone `f` run backwards. The second holds. The first does not: from the sample rate upwards the
step saturates, and the oscillator all but stands still. -/

namespace Verif
open F32 FunctionalOscillator

/-- The output of call `n` (from 0) of an oscillator whose settings are left alone. -/
def callOut (checks : Bool) (floor : F32 → F32) (rem : F32 → F32 → F32) (o : FunctionalOscillator SoftPhaseAccumulator)
    (n : ℕ) : M F32 := do
  let o ← runOsc checks floor rem o (List.replicate n .next)
  let r ← o.next checks floor rem
  return r.2

/-- An oscillator newly tuned to `f` at the sample rate `sr`. -/
def tuned (f sr : F32) : FunctionalOscillator SoftPhaseAccumulator :=
  FunctionalOscillator.new (SoftPhaseAccumulator.new f sr)

/-- Specification: the two signals agree to within 1/1000. -/
def SameSound (u v : ℕ → M F32) : Prop :=
  ∀ n, ∃ x y : F32, u n = .ok x ∧ v n = .ok y ∧ |x.val - y.val| ≤ 1 / 1000

/-- C194 in full: a sine at `f + sr` sounds as one at `f`. -/
def C194_full : Prop := ∀ (checks : Bool) (floor : F32 → F32) (rem : F32 → F32 → F32), RemContract rem → FloorContract floor →
  ∀ f g sr : F32, f.isFin = true → g.isFin = true → sr.isFin = true → 0 ≤ f.val → f.val < sr.val → g.val = f.val + sr.val →
    SameSound (callOut checks floor rem (tuned g sr)) (callOut checks floor rem (tuned f sr))

/-- C194 is refuted: at 48 kHz, 60 kHz does not sound as 12 kHz; the first sample is near 0 where it should be 1. -/
theorem C194_refuted : ¬ C194_full := by
  intro h
  obtain ⟨x, y, hx, hy, hxy⟩ := h false mmFloor mmRem mmRem_contract mmFloor_contract (lit 12000) (lit 60000) (lit 48000)
    (by decide +kernel) (by decide +kernel) (by decide +kernel) (by decide +kernel) (by decide +kernel) (by decide +kernel) 0
  have h1 : (match callOut false mmFloor mmRem (tuned (lit 60000) (lit 48000)) 0 with
    | .ok z => decide (z.val ≤ 1 / 2) | .error _ => false) = true := by decide +kernel
  have h2 : (match callOut false mmFloor mmRem (tuned (lit 12000) (lit 48000)) 0 with
    | .ok z => decide (3 / 4 ≤ z.val) | .error _ => false) = true := by decide +kernel
  rw [hx] at h1
  rw [hy] at h2
  have h1 := of_decide_eq_true h1
  have h2 := of_decide_eq_true h2
  have := (abs_le.1 hxy).1
  norm_num at this h1 h2
  linarith

/-! ## The step, up to the sample rate and beyond -/

/-- Up to the sample rate the step differs from the ideal `freq*2^32/sr` by less than 1 plus a relative error of `2^-22`. -/
theorem phaseStep_near_sr {freq sr : F32} (hf : freq.isFin = true) (hs : sr.isFin = true) (hs0 : 1 / 2 ^ 90 ≤ sr.val)
    (hs1 : sr.val ≤ 2 ^ 120) (h0 : 0 < freq.val) (h1 : freq.val < sr.val) :
    |(phaseStep freq sr : ℚ) - freq.val * 2 ^ 32 / sr.val| < 1 + freq.val * 2 ^ 32 / sr.val / 2 ^ 22 := by
  rcases lt_or_ge freq.val (sr.val / 2) with hlo | hhi
  · exact phaseStep_near hf hs hs0 hs1 h0 hlo
  have hsp : 0 < sr.val := lt_of_lt_of_le (by norm_num) hs0
  have hv : (lit (2 ^ 32) : F32).val = 2 ^ 32 := by rw [← u32MaxF_eq, u32MaxF_val]
  have hlf : (lit (2 ^ 32) : F32).isFin = true := by rw [← u32MaxF_eq, u32MaxF_fin]
  have hq0 : (0:ℚ) < 2 ^ 32 / sr.val := by positivity
  obtain ⟨m1, δ, hδ, e1⟩ := rnd_rel (s := (lit (2 ^ 32) : F32).neg != sr.neg) (q := 2 ^ 32 / sr.val)
    (by rw [abs_of_pos hq0, le_div_iff₀ hsp]; exact (mul_le_mul_of_nonneg_left hs1 (by norm_num)).trans (by norm_num))
    (by rw [abs_of_pos hq0, div_le_iff₀ hsp]
        exact le_trans (by norm_num) (mul_le_mul_of_nonneg_left hs0 (by norm_num : (0:ℚ) ≤ 2 ^ 127)))
  have hd := div_fin hlf hs hsp.ne'
  rw [hv] at hd
  rw [← hd] at m1 e1
  have hδ' := abs_le.1 hδ
  obtain ⟨I, hI⟩ : ∃ I, I = freq.val * 2 ^ 32 / sr.val := ⟨_, rfl⟩
  have hI0 : 2 ^ 31 ≤ I := by rw [hI, le_div_iff₀ hsp]; linarith
  have hI1 : I < 2 ^ 32 := by rw [hI, div_lt_iff₀ hsp]; nlinarith
  have hprod : freq.val * (lit (2 ^ 32) / sr).val = I * (1 + δ) := by rw [e1, hI]; ring
  rw [← hI]
  have hp0 : 2 ^ 30 < I * (1 + δ) := by nlinarith
  have hpb : I * (1 + δ) ≤ 2 * I := by nlinarith
  have hpp : 0 < I * (1 + δ) := lt_trans (by norm_num) hp0
  have hmul := mul_fin hf m1
  rw [hprod] at hmul
  obtain ⟨m2, γ, hγ, e2⟩ := rnd_rel (s := freq.neg != (lit (2 ^ 32) / sr).neg) (q := I * (1 + δ))
    (by rw [abs_of_pos hpp]; exact le_trans (by norm_num) hp0.le)
    (by rw [abs_of_pos hpp]; linarith)
  rw [← hmul] at e2 m2
  have hγ' := abs_le.1 hγ
  have hr0 : 0 ≤ (freq * (lit (2 ^ 32) / sr)).val := by rw [e2]; exact mul_nonneg hpp.le (by linarith)
  have hstep : phaseStep freq sr = min (2 ^ 32 - 1) ⌊(freq * (lit (2 ^ 32) / sr)).val⌋.toNat := by
    show (if _ then _ else _) = _
    rw [if_neg (by rw [isFin.not_nan m2]; simpa using hr0)]
  have hb : |(freq * (lit (2 ^ 32) / sr)).val - I| ≤ I * (1 / 2 ^ 24 + 1 / 2 ^ 24 + 1 / 2 ^ 24 * (1 / 2 ^ 24)) := by
    rw [e2, show I * (1 + δ) * (1 + γ) - I = I * ((1 + δ) * (1 + γ) - 1) by ring, abs_mul, abs_of_pos (by linarith)]
    exact mul_le_mul_of_nonneg_left (one_add_mul hδ hγ) (by linarith)
  have hb' := abs_le.1 hb
  have hfl := Int.floor_le (freq * (lit (2 ^ 32) / sr)).val
  have hfl2 := Int.lt_floor_add_one (freq * (lit (2 ^ 32) / sr)).val
  have hfl0 := Int.floor_nonneg.2 hr0
  rcases lt_or_ge ⌊(freq * (lit (2 ^ 32) / sr)).val⌋ (2 ^ 32) with hfl3 | hfl3
  · have hcast : ((phaseStep freq sr : Nat) : ℚ) = (⌊(freq * (lit (2 ^ 32) / sr)).val⌋ : ℚ) := by
      have : ((phaseStep freq sr : Nat) : Int) = ⌊(freq * (lit (2 ^ 32) / sr)).val⌋ := by rw [hstep]; omega
      exact_mod_cast this
    rw [hcast, abs_lt]
    constructor <;> norm_num at hb' ⊢ <;> linarith [hb'.1, hb'.2]
  · have hcast : phaseStep freq sr = 2 ^ 32 - 1 := by rw [hstep]; omega
    have hge : (2:ℚ) ^ 32 ≤ (freq * (lit (2 ^ 32) / sr)).val := le_trans (by exact_mod_cast hfl3) hfl
    rw [hcast, abs_lt]
    constructor <;> norm_num at hb' hge hI1 ⊢ <;> linarith [hb'.1, hb'.2]

/-- From just above the sample rate on, the step is stuck at its largest. -/
theorem phaseStep_stuck {freq sr : F32} (hf : freq.isFin = true) (hs : sr.isFin = true) (hs0 : 1 / 2 ^ 90 ≤ sr.val)
    (hs1 : sr.val ≤ 2 ^ 120) (h1 : sr.val * (1 + 1 / 2 ^ 22) ≤ freq.val) : phaseStep freq sr = 2 ^ 32 - 1 := by
  have hsp : 0 < sr.val := lt_of_lt_of_le (by norm_num) hs0
  have hv : (lit (2 ^ 32) : F32).val = 2 ^ 32 := by rw [← u32MaxF_eq, u32MaxF_val]
  have hlf : (lit (2 ^ 32) : F32).isFin = true := by rw [← u32MaxF_eq, u32MaxF_fin]
  have hq0 : (0:ℚ) < 2 ^ 32 / sr.val := by positivity
  obtain ⟨m1, δ, hδ, e1⟩ := rnd_rel (s := (lit (2 ^ 32) : F32).neg != sr.neg) (q := 2 ^ 32 / sr.val)
    (by rw [abs_of_pos hq0, le_div_iff₀ hsp]; exact (mul_le_mul_of_nonneg_left hs1 (by norm_num)).trans (by norm_num))
    (by rw [abs_of_pos hq0, div_le_iff₀ hsp]
        exact le_trans (by norm_num) (mul_le_mul_of_nonneg_left hs0 (by norm_num : (0:ℚ) ≤ 2 ^ 127)))
  have hd := div_fin hlf hs hsp.ne'
  rw [hv] at hd
  rw [← hd] at m1 e1
  have hδ' := abs_le.1 hδ
  have hmul := mul_fin hf m1
  have hge : (2:ℚ) ^ 32 ≤ freq.val * (lit (2 ^ 32) / sr).val := by
    have h2 : (2:ℚ) ^ 32 * (1 + 1 / 2 ^ 22) ≤ freq.val * (2 ^ 32 / sr.val) := by
      rw [mul_div_assoc', le_div_iff₀ hsp]; linarith
    rw [e1, ← mul_assoc]
    nlinarith
  have h3 := le_rnd (s := freq.neg != (lit (2 ^ 32) / sr).neg) (q := freq.val * (lit (2 ^ 32) / sr).val)
    (y := lit (2 ^ 32)) (isFin.not_nan hlf) (by rw [hv]; exact hge)
  rw [← hmul, hv] at h3
  exact (phaseStep_saturation freq sr).1 (by rw [hmul]; exact rnd_not_nan _ _) h3

/-! ## What call `n` puts out -/

theorem phaseOfCall_calls (a : SoftPhaseAccumulator) (sr : F32) (n : ℕ) :
    phaseOfCall a sr (List.replicate n .next) = (a.counter + (n + 1) * phaseStep a.freq sr + a.shift) % 2 ^ 32 := by
  unfold phaseOfCall
  rw [toPhase_calls, inForce_calls rfl rfl,
    show callsOf (List.replicate n false) ++ [PhaseOp.next] = callsOf (List.replicate n false ++ [true]) by simp [callsOf],
    travelled_calls]
  simp

section
variable {checks : Bool} {floor : F32 → F32} {rem : F32 → F32 → F32}

/-- Call `n` of an oscillator other than the rectangle. -/
theorem callOut_near (hrem : RemContract rem) (hfl : FloorContract floor) (o : FunctionalOscillator SoftPhaseAccumulator)
    {sr : F32} (hc : o.acc.counter < 2 ^ 32) (hm : o.acc.minStep = u32MaxF / sr) (hw : o.wave ≠ .rectangle) (n : ℕ) :
    ∃ x, callOut checks floor rem o n = .ok x ∧
      |(x.val : ℝ) - idealWave o.wave (((o.acc.counter + (n + 1) * phaseStep o.acc.freq sr + o.acc.shift) % 2 ^ 32 : ℕ) / 2 ^ 32)| ≤
        4 / 10 ^ 4 := by
  have hc96 := C96_output (checks := checks) hrem hfl o hc hm (List.replicate n .next)
  rw [waveInForce_calls, phaseOfCall_calls] at hc96
  obtain ⟨o', o'', x, h1, h2, -, h3⟩ := hc96 (fun h => absurd h hw)
  exact ⟨x, by simp [callOut, h1, h2, bind, Except.bind, pure, Except.pure], h3⟩

theorem sine_mod (k : ℕ) : idealWave .sine ((k % 2 ^ 32 : ℕ) / 2 ^ 32) = Real.sin (2 * Real.pi * (k / 2 ^ 32)) := by
  have h : (k : ℝ) = (k % 2 ^ 32 : ℕ) + 2 ^ 32 * (k / 2 ^ 32 : ℕ) := by exact_mod_cast (Nat.mod_add_div k (2 ^ 32)).symm
  rw [h, idealWave, show 2 * Real.pi * ((((k % 2 ^ 32 : ℕ) : ℝ) + 2 ^ 32 * (k / 2 ^ 32 : ℕ)) / 2 ^ 32) =
    2 * Real.pi * ((k % 2 ^ 32 : ℕ) / 2 ^ 32) + (k / 2 ^ 32 : ℕ) * (2 * Real.pi) by ring, Real.sin_add_nat_mul_two_pi]

/-- The triangle is four times the distance to the nearest whole turn, less one. -/
theorem triangle_mod (k : ℕ) : idealWave .triangle ((k % 2 ^ 32 : ℕ) / 2 ^ 32) =
    4 * |(k / 2 ^ 32 : ℝ) - round (k / 2 ^ 32 : ℝ)| - 1 := by
  have h : (k : ℝ) = (k % 2 ^ 32 : ℕ) + 2 ^ 32 * (k / 2 ^ 32 : ℕ) := by exact_mod_cast (Nat.mod_add_div k (2 ^ 32)).symm
  have hlt : ((k % 2 ^ 32 : ℕ) : ℝ) < 2 ^ 32 := by exact_mod_cast Nat.mod_lt k (by norm_num)
  have h0 : (0:ℝ) ≤ (k % 2 ^ 32 : ℕ) := Nat.cast_nonneg _
  have hfr : Int.fract (k / 2 ^ 32 : ℝ) = (k % 2 ^ 32 : ℕ) / 2 ^ 32 := by
    rw [Int.fract_eq_iff]
    refine ⟨by positivity, by rw [div_lt_one (by norm_num)]; exact hlt, (k / 2 ^ 32 : ℕ), ?_⟩
    rw [Int.cast_natCast]
    conv_lhs => rw [h]
    ring
  rw [abs_sub_round_eq_min, hfr, idealWave]
  split_ifs with hh
  · rw [min_eq_left (by linarith)]
  · rw [min_eq_right (by linarith)]; ring

/-- C194, what does hold: two sines whose steps add up to `2^32 + e`, started at opposite phases, run in opposition; the
phase error grows by `e` units of `2^-32` turn per call. -/
theorem C194_sine (hrem : RemContract rem) (hfl : FloorContract floor) {o o' : FunctionalOscillator SoftPhaseAccumulator} {sr : F32}
    (hc : o.acc.counter < 2 ^ 32) (hm : o.acc.minStep = u32MaxF / sr) (hw : o.wave = .sine)
    (hc' : o'.acc.counter < 2 ^ 32) (hm' : o'.acc.minStep = u32MaxF / sr) (hw' : o'.wave = .sine) {e : ℤ}
    (he : (phaseStep o.acc.freq sr : ℤ) + phaseStep o'.acc.freq sr = 2 ^ 32 + e)
    (hopp : 2 ^ 32 ∣ (o.acc.counter + o.acc.shift) + (o'.acc.counter + o'.acc.shift)) (n : ℕ) :
    ∃ x x', callOut checks floor rem o n = .ok x ∧ callOut checks floor rem o' n = .ok x' ∧
      |(x.val : ℝ) + x'.val| ≤ 8 / 10 ^ 4 + 2 * Real.pi * ((n + 1) * |(e : ℝ)| / 2 ^ 32) := by
  obtain ⟨x, hx, ex⟩ := callOut_near (checks := checks) hrem hfl o hc hm (by rw [hw]; decide) n
  obtain ⟨x', hx', ex'⟩ := callOut_near (checks := checks) hrem hfl o' hc' hm' (by rw [hw']; decide) n
  refine ⟨x, x', hx, hx', ?_⟩
  rw [hw, sine_mod] at ex
  rw [hw', sine_mod] at ex'
  obtain ⟨j, hj⟩ := hopp
  obtain ⟨K, hK⟩ : ∃ K, K = o.acc.counter + (n + 1) * phaseStep o.acc.freq sr + o.acc.shift := ⟨_, rfl⟩
  obtain ⟨K', hK'⟩ : ∃ K', K' = o'.acc.counter + (n + 1) * phaseStep o'.acc.freq sr + o'.acc.shift := ⟨_, rfl⟩
  rw [← hK] at ex
  rw [← hK'] at ex'
  have hsum : (K : ℝ) + K' = 2 ^ 32 * (j + (n + 1 : ℕ) : ℕ) + (n + 1) * e := by
    have : (K : ℤ) + K' = 2 ^ 32 * (j + (n + 1 : ℕ) : ℕ) + (n + 1) * e := by
      have hj' : (o.acc.counter : ℤ) + o.acc.shift + (o'.acc.counter + o'.acc.shift) = 2 ^ 32 * j := by exact_mod_cast hj
      rw [hK, hK']; push_cast
      linear_combination hj' + (n + 1 : ℤ) * he
    exact_mod_cast this
  have hd : 2 * Real.pi * (K' / 2 ^ 32) = (2 * Real.pi * ((n + 1) * e / 2 ^ 32) - 2 * Real.pi * (K / 2 ^ 32)) +
      (j + (n + 1 : ℕ) : ℕ) * (2 * Real.pi) := by
    have : (K' : ℝ) = 2 ^ 32 * (j + (n + 1 : ℕ) : ℕ) + (n + 1) * e - K := by linarith
    rw [this]; ring
  rw [hd, Real.sin_add_nat_mul_two_pi] at ex'
  have hl : |Real.sin (2 * Real.pi * ((n + 1) * e / 2 ^ 32) - 2 * Real.pi * (K / 2 ^ 32)) +
      Real.sin (2 * Real.pi * (K / 2 ^ 32))| ≤ 2 * Real.pi * ((n + 1) * |(e : ℝ)| / 2 ^ 32) := by
    have h1 := Real.abs_sin_sub_sin_le (2 * Real.pi * ((n + 1) * e / 2 ^ 32) - 2 * Real.pi * (K / 2 ^ 32)) (-(2 * Real.pi * (K / 2 ^ 32)))
    rw [Real.sin_neg, sub_neg_eq_add, sub_neg_eq_add, sub_add_cancel] at h1
    refine h1.trans (le_of_eq ?_)
    rw [abs_mul, abs_of_pos Real.two_pi_pos, abs_div, abs_mul, abs_of_pos (by positivity : (0:ℝ) < n + 1),
      abs_of_pos (by norm_num : (0:ℝ) < 2 ^ 32)]
  obtain ⟨l1, l2⟩ := abs_le.1 hl
  obtain ⟨a1, a2⟩ := abs_le.1 ex
  obtain ⟨b1, b2⟩ := abs_le.1 ex'
  rw [abs_le]
  constructor <;> linarith

theorem nearest_opposite {a b d : ℝ} {m : ℤ} (h : a + b = m + d) : |b - round b| ≤ |a - round a| + |d| := by
  have h1 := round_le b (m - round a)
  refine h1.trans ?_
  push_cast
  rw [show b - ((m : ℝ) - round a) = d - (a - round a) by linarith]
  exact (abs_sub _ _).trans (by linarith)

/-- C194: and two triangles run together. -/
theorem C194_triangle (hrem : RemContract rem) (hfl : FloorContract floor) {o o' : FunctionalOscillator SoftPhaseAccumulator} {sr : F32}
    (hc : o.acc.counter < 2 ^ 32) (hm : o.acc.minStep = u32MaxF / sr) (hw : o.wave = .triangle)
    (hc' : o'.acc.counter < 2 ^ 32) (hm' : o'.acc.minStep = u32MaxF / sr) (hw' : o'.wave = .triangle) {e : ℤ}
    (he : (phaseStep o.acc.freq sr : ℤ) + phaseStep o'.acc.freq sr = 2 ^ 32 + e)
    (hopp : 2 ^ 32 ∣ (o.acc.counter + o.acc.shift) + (o'.acc.counter + o'.acc.shift)) (n : ℕ) :
    ∃ x x', callOut checks floor rem o n = .ok x ∧ callOut checks floor rem o' n = .ok x' ∧
      |(x.val : ℝ) - x'.val| ≤ 8 / 10 ^ 4 + 4 * ((n + 1) * |(e : ℝ)| / 2 ^ 32) := by
  obtain ⟨x, hx, ex⟩ := callOut_near (checks := checks) hrem hfl o hc hm (by rw [hw]; decide) n
  obtain ⟨x', hx', ex'⟩ := callOut_near (checks := checks) hrem hfl o' hc' hm' (by rw [hw']; decide) n
  refine ⟨x, x', hx, hx', ?_⟩
  rw [hw, triangle_mod] at ex
  rw [hw', triangle_mod] at ex'
  obtain ⟨j, hj⟩ := hopp
  obtain ⟨K, hK⟩ : ∃ K, K = o.acc.counter + (n + 1) * phaseStep o.acc.freq sr + o.acc.shift := ⟨_, rfl⟩
  obtain ⟨K', hK'⟩ : ∃ K', K' = o'.acc.counter + (n + 1) * phaseStep o'.acc.freq sr + o'.acc.shift := ⟨_, rfl⟩
  rw [← hK] at ex
  rw [← hK'] at ex'
  have hsum : (K : ℝ) / 2 ^ 32 + K' / 2 ^ 32 = ((j + (n + 1 : ℕ) : ℕ) : ℤ) + (n + 1) * e / 2 ^ 32 := by
    have : (K : ℤ) + K' = 2 ^ 32 * (j + (n + 1 : ℕ) : ℕ) + (n + 1) * e := by
      have hj' : (o.acc.counter : ℤ) + o.acc.shift + (o'.acc.counter + o'.acc.shift) = 2 ^ 32 * j := by exact_mod_cast hj
      rw [hK, hK']; push_cast
      linear_combination hj' + (n + 1 : ℤ) * he
    have : (K : ℝ) + K' = 2 ^ 32 * (j + (n + 1 : ℕ) : ℕ) + (n + 1) * e := by exact_mod_cast this
    rw [Int.cast_natCast, ← add_div, this]; ring
  have h1 := nearest_opposite hsum
  have h2 := nearest_opposite ((add_comm _ _).trans hsum)
  have hd : |((n : ℝ) + 1) * e / 2 ^ 32| = (n + 1) * |(e : ℝ)| / 2 ^ 32 := by
    rw [abs_div, abs_mul, abs_of_pos (by positivity : (0:ℝ) < n + 1), abs_of_pos (by norm_num : (0:ℝ) < 2 ^ 32)]
  rw [hd] at h1 h2
  obtain ⟨a1, a2⟩ := abs_le.1 ex
  obtain ⟨b1, b2⟩ := abs_le.1 ex'
  rw [abs_le]
  constructor <;> linarith

/-- The steps of two frequencies that add up to the sample rate. -/
theorem folded_steps {f f' sr : F32} (hf : f.isFin = true) (hf' : f'.isFin = true) (hs : sr.isFin = true) (hs0 : 1 / 2 ^ 90 ≤ sr.val)
    (hs1 : sr.val ≤ 2 ^ 120) (h0 : 0 < f.val) (h0' : 0 < f'.val) (hsum : f.val + f'.val = sr.val) :
    ∃ e : ℤ, (phaseStep f sr : ℤ) + phaseStep f' sr = 2 ^ 32 + e ∧ |(e : ℝ)| ≤ 1026 := by
  have hsp : 0 < sr.val := lt_of_lt_of_le (by norm_num) hs0
  have h1 := phaseStep_near_sr hf hs hs0 hs1 h0 (by linarith)
  have h2 := phaseStep_near_sr hf' hs hs0 hs1 h0' (by linarith)
  have h3 : f.val * 2 ^ 32 / sr.val + f'.val * 2 ^ 32 / sr.val = 2 ^ 32 := by
    rw [← add_div, ← add_mul, hsum, mul_comm, mul_div_assoc, div_self hsp.ne', mul_one]
  refine ⟨(phaseStep f sr : ℤ) + phaseStep f' sr - 2 ^ 32, by ring, ?_⟩
  have : |(((phaseStep f sr : ℤ) + phaseStep f' sr - 2 ^ 32 : ℤ) : ℚ)| ≤ 1026 := by
    obtain ⟨a1, a2⟩ := abs_lt.1 h1
    obtain ⟨b1, b2⟩ := abs_lt.1 h2
    push_cast
    rw [abs_le]
    constructor <;> norm_num at a1 a2 b1 b2 h3 ⊢ <;> linarith
  exact_mod_cast this

/-- C194: a new sine oscillator at `sr - f` is the one at `f` upside down, for any frequencies that add up to the sample
rate exactly; the phases part by at most `1026·2^-32` turn per call, from the rounding of the steps. -/
theorem C194_folds (hrem : RemContract rem) (hfl : FloorContract floor) {f f' sr : F32} (hf : f.isFin = true) (hf' : f'.isFin = true)
    (hs : sr.isFin = true) (hs0 : 1 / 2 ^ 90 ≤ sr.val) (hs1 : sr.val ≤ 2 ^ 120) (h0 : 0 < f.val) (h0' : 0 < f'.val)
    (hsum : f.val + f'.val = sr.val) (n : ℕ) :
    ∃ x x', callOut checks floor rem (tuned f sr) n = .ok x ∧ callOut checks floor rem (tuned f' sr) n = .ok x' ∧
      |(x.val : ℝ) + x'.val| ≤ 8 / 10 ^ 4 + 2 * Real.pi * ((n + 1) * 1026 / 2 ^ 32) := by
  obtain ⟨e, he, hb⟩ := folded_steps hf hf' hs hs0 hs1 h0 h0' hsum
  obtain ⟨x, x', hx, hx', h⟩ := C194_sine (checks := checks) hrem hfl (o := tuned f sr) (o' := tuned f' sr) (sr := sr)
    (by show 0 < _; norm_num) rfl rfl (by show 0 < _; norm_num) rfl rfl he (by show _ ∣ (0 + 0) + (0 + 0); simp) n
  refine ⟨x, x', hx, hx', h.trans ?_⟩
  gcongr

/-- C194: from just above the sample rate on, the frequency makes no difference at all: the phase steps back by `2^-32` turn per
call, so the wave runs backwards once in `2^32` calls (a day, at 48 kHz). -/
theorem C194_stuck (hrem : RemContract rem) (hfl : FloorContract floor) (o : FunctionalOscillator SoftPhaseAccumulator) {sr : F32}
    (hc : o.acc.counter < 2 ^ 32) (hm : o.acc.minStep = u32MaxF / sr) (hw : o.wave ≠ .rectangle) (hf : o.acc.freq.isFin = true)
    (hs : sr.isFin = true) (hs0 : 1 / 2 ^ 90 ≤ sr.val) (hs1 : sr.val ≤ 2 ^ 120)
    (h1 : sr.val * (1 + 1 / 2 ^ 22) ≤ o.acc.freq.val) (n k : ℕ) (hk : k < 2 ^ 32)
    (hnk : k + (n + 1) ≡ o.acc.counter + o.acc.shift [MOD 2 ^ 32]) :
    ∃ x, callOut checks floor rem o n = .ok x ∧ |(x.val : ℝ) - idealWave o.wave (k / 2 ^ 32)| ≤ 4 / 10 ^ 4 := by
  obtain ⟨x, hx, ex⟩ := callOut_near (checks := checks) hrem hfl o hc hm hw n
  rw [phaseStep_stuck hf hs hs0 hs1 h1] at ex
  have : (o.acc.counter + (n + 1) * (2 ^ 32 - 1) + o.acc.shift) % 2 ^ 32 = k := by
    have h2 : k + 2 ^ 32 * (n + 1) ≡ o.acc.counter + (n + 1) * (2 ^ 32 - 1) + o.acc.shift [MOD 2 ^ 32] := by
      have := hnk.add_right ((n + 1) * (2 ^ 32 - 1))
      convert this using 1 <;> ring_nf
    have h3 : k + 2 ^ 32 * (n + 1) ≡ k [MOD 2 ^ 32] := by simp [Nat.ModEq]
    have := h2.symm.trans h3
    rw [Nat.ModEq, Nat.mod_eq_of_lt hk] at this
    exact this
  rw [this] at ex
  exact ⟨x, hx, ex⟩
end

/-- 12 and 36 kHz at 48 kHz have steps that add up to one turn exactly; the first samples are 1 and -1; 60 kHz and 100 kHz both give the largest step. -/
example : RemContract mmRem ∧ FloorContract mmFloor ∧
    phaseStep (lit 12000) (lit 48000) + phaseStep (lit 36000) (lit 48000) = 2 ^ 32 ∧
    (match callOut false mmFloor mmRem (tuned (lit 12000) (lit 48000)) 0, callOut false mmFloor mmRem (tuned (lit 36000) (lit 48000)) 0 with
      | .ok x, .ok y => decide (|x.val - 1| ≤ 1 / 1000) && decide (|y.val + 1| ≤ 1 / 1000) | _, _ => false) = true ∧
    phaseStep (lit 60000) (lit 48000) = 2 ^ 32 - 1 ∧ phaseStep (lit 100000) (lit 48000) = 2 ^ 32 - 1 :=
  ⟨mmRem_contract, mmFloor_contract, by decide +kernel, by decide +kernel, by decide +kernel, by decide +kernel⟩

end Verif
