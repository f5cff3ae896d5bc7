import Verif.F32.Scale
import Verif.Props.OscHistory
import Verif.Props.Drift
import Verif.Props.Envelope
import Verif.Props.Polarity
import Verif.Model.Biquad

/-! # C158-C160: oscillators next to each other, and settings that only count relative to the sample rate -/

namespace Verif
open F32

/-! ## C158 -/

/-- C158: two accumulators with the same frequency and rate, whatever their phases, keep the difference of their phases
through any history of calls and changes made to both. -/
theorem C158_counter {a b : SoftPhaseAccumulator} (hf : b.freq = a.freq) (hm : b.minStep = a.minStep) (ops : List PhaseOp) :
    (runPhase b ops).counter + a.counter ≡ (runPhase a ops).counter + b.counter [MOD 2 ^ 32] := by
  suffices h : (runPhase b ops).freq = (runPhase a ops).freq ∧ (runPhase b ops).minStep = (runPhase a ops).minStep ∧
      (runPhase b ops).counter + a.counter ≡ (runPhase a ops).counter + b.counter [MOD 2 ^ 32] from h.2.2
  induction ops using List.reverseRecOn with
  | nil => exact ⟨hf, hm, by rw [Nat.add_comm]; rfl⟩
  | append_singleton ops o ih =>
    obtain ⟨i1, i2, i3⟩ := ih
    rw [runPhase_snoc, runPhase_snoc]
    have tick : wrappingAdd32 (runPhase b ops).counter (f2u32 ((runPhase b ops).freq * (runPhase b ops).minStep)) + a.counter ≡
        wrappingAdd32 (runPhase a ops).counter (f2u32 ((runPhase a ops).freq * (runPhase a ops).minStep)) + b.counter
          [MOD 2 ^ 32] := by
      rw [i1, i2]
      unfold wrappingAdd32
      generalize f2u32 _ = st
      unfold Nat.ModEq at i3 ⊢
      omega
    cases o with
    | next => exact ⟨i1, i2, tick⟩
    | nextNormalized => exact ⟨i1, i2, tick⟩
    | setFreq f => exact ⟨rfl, i2, i3⟩
    | setSr f => exact ⟨i1, rfl, i3⟩
    | setShift s => exact ⟨i1, i2, i3⟩

theorem shift_kept (a : SoftPhaseAccumulator) (ops : List PhaseOp) (hs : ∀ o ∈ ops, o.shift? = none) :
    (runPhase a ops).shift = a.shift := by
  induction ops using List.reverseRecOn with
  | nil => rfl
  | append_singleton ops o ih =>
    rw [runPhase_snoc]
    have h1 := ih fun o ho => hs o (List.mem_append_left _ ho)
    have h2 := hs o (by simp)
    cases o with
    | setShift s => exact absurd h2 (by simp [PhaseOp.shift?])
    | _ => exact h1

/-- C158: so do the phases they return, shifts included, as long as the shifts are left alone. -/
theorem C158_output {a b : SoftPhaseAccumulator} (hf : b.freq = a.freq) (hm : b.minStep = a.minStep) (ops : List PhaseOp)
    (hs : ∀ o ∈ ops, o.shift? = none) :
    (runPhase b ops).nextValue.2 + (a.counter + a.shift) ≡ (runPhase a ops).nextValue.2 + (b.counter + b.shift)
      [MOD 2 ^ 32] := by
  have h := C158_counter hf hm (ops ++ [.next])
  rw [runPhase_snoc, runPhase_snoc] at h
  have e : ∀ x : SoftPhaseAccumulator, x.nextValue.2 = ((applyPhase x .next).1.counter + x.shift) % 2 ^ 32 := fun x => rfl
  rw [e, e, shift_kept a ops hs, shift_kept b ops hs]
  unfold Nat.ModEq at h ⊢
  omega

-- a quarter turn apart at 440 Hz, then both retuned to 441 Hz: still a quarter turn apart
example : (runPhase { SoftPhaseAccumulator.new (lit 440) (lit 48000) with counter := 2 ^ 30 }
      [.next, .nextNormalized, .setFreq (lit 441), .next]).counter =
    (runPhase (SoftPhaseAccumulator.new (lit 440) (lit 48000))
      [.next, .nextNormalized, .setFreq (lit 441), .next]).counter + 2 ^ 30 := by decide +kernel

/-! ## C159 -/

/-- `y` is `x` moved up `k` octaves, exactly. -/
structure Up (k : ℕ) (x y : F32) : Prop where
  fin : x.isFin = true
  fin' : y.isFin = true
  val : y.val = 2 ^ k * x.val

/-- C159 in full: an accumulator tuned `k` octaves above another keeps `2^k` times its phase. -/
def C159_full : Prop :=
  ∀ (k : ℕ) (f g sr : F32), Up k f g → Audible f sr → Audible g sr → ∀ calls : List Bool,
    (runPhase (.new g sr) (callsOf calls)).counter ≡ 2 ^ k * (runPhase (.new f sr) (callsOf calls)).counter [MOD 2 ^ 32]

theorem counter_after (f sr : F32) (calls : List Bool) :
    (runPhase (.new f sr) (callsOf calls)).counter = calls.length * phaseStep f sr % 2 ^ 32 := (C65_phase f sr 0 calls).1

/-- C159 refuted: 55 Hz and 110 Hz at 48 kHz part with the first sample. -/
theorem C159_refuted : ¬ C159_full := by
  intro h
  have := h 1 (lit 55) (lit 110) (lit 48000) ⟨by decide +kernel, by decide +kernel, by decide +kernel⟩
    (by constructor <;> decide +kernel) (by constructor <;> decide +kernel) [true]
  rw [counter_after, counter_after] at this
  revert this
  decide +kernel

theorem rep_cap : Rep (3 * 2 ^ 30 : ℚ) := ⟨lit (3 * 2 ^ 30), by decide +kernel, by decide +kernel⟩

/-- Below Nyquist the step is the whole part of the rounded product, never capped. -/
theorem step_floor {f sr : F32} (h : Audible f sr) :
    ∃ m : ℚ, (lit (2 ^ 32) / sr : F32).val = m ∧ 0 < m ∧ (∀ s, (rnd s (f.val * m)).isFin = true) ∧
      ∀ s, phaseStep f sr = ⌊(rnd s (f.val * m)).val⌋.toNat ∧ 0 ≤ (rnd s (f.val * m)).val ∧ (rnd s (f.val * m)).val < 2 ^ 32 := by
  have hsp : 0 < sr.val := lt_of_lt_of_le (by norm_num) h.sr_low
  have hv : (lit (2 ^ 32) : F32).val = 2 ^ 32 := by rw [← u32MaxF_eq, u32MaxF_val]
  have hlf : (lit (2 ^ 32) : F32).isFin = true := by rw [← u32MaxF_eq, u32MaxF_fin]
  have hq0 : (0:ℚ) < 2 ^ 32 / sr.val := by positivity
  obtain ⟨m1, δ, hδ, e1⟩ := rnd_rel (s := (lit (2 ^ 32) : F32).neg != sr.neg) (q := 2 ^ 32 / sr.val)
    (by rw [abs_of_pos hq0, le_div_iff₀ hsp]; exact (mul_le_mul_of_nonneg_left h.sr_high (by norm_num)).trans (by norm_num))
    (by rw [abs_of_pos hq0, div_le_iff₀ hsp]
        exact le_trans (by norm_num) (mul_le_mul_of_nonneg_left h.sr_low (by norm_num : (0:ℚ) ≤ 2 ^ 127)))
  have hd := div_fin hlf h.sr_fin hsp.ne'
  rw [hv] at hd
  rw [← hd] at m1 e1
  have hδ' := abs_le.1 hδ
  have hδ0 : 0 < 1 + δ := by have : (1:ℚ) / 2 ^ 24 < 1 := by norm_num
                             linarith [hδ'.1]
  have hm0 : 0 < (lit (2 ^ 32) / sr : F32).val := by rw [e1]; exact mul_pos hq0 hδ0
  have hp0 : 0 < f.val * (lit (2 ^ 32) / sr : F32).val := mul_pos h.freq_pos hm0
  have hp1 : f.val * (lit (2 ^ 32) / sr : F32).val ≤ 3 * 2 ^ 30 := by
    have hI : f.val * (2 ^ 32 / sr.val) ≤ 2 ^ 31 := by
      rw [mul_div_assoc', div_le_iff₀ hsp]; linarith [h.freq_nyquist]
    rw [e1, ← mul_assoc]
    have h2 : 1 + δ ≤ 3 / 2 := by have : (1:ℚ) / 2 ^ 24 < 1 / 2 := by norm_num
                                  linarith [hδ'.2]
    calc f.val * (2 ^ 32 / sr.val) * (1 + δ) ≤ 2 ^ 31 * (3 / 2) := mul_le_mul hI h2 hδ0.le (by positivity)
      _ = 3 * 2 ^ 30 := by norm_num
  have hr1 : ∀ s, (rnd s (f.val * (lit (2 ^ 32) / sr : F32).val)).val ≤ 3 * 2 ^ 30 := fun s => rnd_le_rep rep_cap hp1
  have hr0 : ∀ s, 0 ≤ (rnd s (f.val * (lit (2 ^ 32) / sr : F32).val)).val := fun s => rnd_val_nonneg hp0.le
  refine ⟨_, rfl, hm0, fun s => fin_of_val ?_, fun s => ⟨?_, hr0 s, (hr1 s).trans_lt (by norm_num)⟩⟩
  · rw [abs_of_nonneg (hr0 s)]; exact (hr1 s).trans_lt (by norm_num)
  · have hmul := mul_fin h.freq_fin m1
    have hfl : ⌊(rnd s (f.val * (lit (2 ^ 32) / sr : F32).val)).val⌋ < 2 ^ 32 :=
      Int.floor_lt.2 (by push_cast; exact (hr1 s).trans_lt (by norm_num))
    rw [rnd_sign_irrel (t := s) hp0.ne'] at hmul
    unfold phaseStep
    simp only
    rw [hmul, if_neg (by rw [rnd_not_nan]; simpa using hr0 s)]
    omega

/-- The step of the upper oscillator against the lower one's. -/
theorem step_octaves {k : ℕ} {f g sr : F32} (hu : Up k f g) (hf : Audible f sr) (hg : Audible g sr) :
    2 ^ k * phaseStep f sr ≤ phaseStep g sr ∧ phaseStep g sr < 2 ^ k * (phaseStep f sr + 1) ∧
      (2 ^ 23 ≤ phaseStep f sr → phaseStep g sr = 2 ^ k * phaseStep f sr) := by
  obtain ⟨m, em, hm, fa, ha⟩ := step_floor hf
  obtain ⟨m', em', -, fb, hb⟩ := step_floor hg
  obtain rfl : m = m' := em.symm.trans em'
  obtain ⟨a1, a2, a3⟩ := ha false
  obtain ⟨b1, b2, b3⟩ := hb false
  have e : g.val * m = 2 ^ k * (f.val * m) := by rw [hu.val]; ring
  have hpos : 0 < f.val * m := mul_pos hf.freq_pos hm
  by_cases hn : 1 / 2 ^ 126 ≤ f.val * m
  · have hfb := fb false
    rw [e] at hfb b1 b2 b3
    obtain ⟨-, hv⟩ := rnd_scale k (by rwa [abs_of_pos hpos]) hfb
    rw [hv] at b1 b2 b3
    have af := fa false
    rw [a1, b1]
    generalize rnd false (f.val * m) = p at *
    have fl0 : 0 ≤ ⌊p.val⌋ := Int.floor_nonneg.2 a2
    have fl1 : 0 ≤ ⌊2 ^ k * p.val⌋ := Int.floor_nonneg.2 b2
    have c1 : 2 ^ k * ⌊p.val⌋ ≤ ⌊2 ^ k * p.val⌋ := by
      rw [Int.le_floor]; push_cast; exact mul_le_mul_of_nonneg_left (Int.floor_le _) (by positivity)
    have c2 : ⌊2 ^ k * p.val⌋ < 2 ^ k * (⌊p.val⌋ + 1) := by
      rw [Int.floor_lt]; push_cast; exact mul_lt_mul_of_pos_left (Int.lt_floor_add_one _) (by positivity)
    have d1 := Int.toNat_of_nonneg fl0
    have d2 := Int.toNat_of_nonneg fl1
    refine ⟨?_, ?_, fun h23 => ?_⟩
    · zify; rw [d1, d2]; exact c1
    · zify; rw [d1, d2]; exact c2
    · obtain ⟨n, hn⟩ := int_of_ge af (by
        rw [abs_of_nonneg a2]
        have : (2 ^ 23 : ℤ) ≤ ⌊p.val⌋ := by omega
        have := Int.le_floor.1 this
        exact_mod_cast this)
      zify
      rw [d1, d2, hn, Int.floor_intCast, show (2:ℚ) ^ k * (n : ℚ) = ((2 ^ k * n : ℤ) : ℚ) by push_cast; ring, Int.floor_intCast]
  · rw [not_le] at hn
    have z : phaseStep f sr = 0 := by
      have h1 : (rnd false (f.val * m)).val ≤ 1 / 2 := rnd_le_rep rep_half (hn.le.trans (by norm_num))
      have : ⌊(rnd false (f.val * m)).val⌋ = 0 := Int.floor_eq_iff.2 ⟨by simpa using a2, by push_cast; linarith⟩
      rw [a1, this]; rfl
    rw [z]
    refine ⟨by simp, ?_, by norm_num⟩
    rw [Nat.zero_add, mul_one]
    have hlt : ⌊(rnd false (g.val * m)).val⌋ < 2 ^ k := by
      rw [Int.floor_lt]; push_cast
      rcases Nat.lt_or_ge k 32 with hk | hk
      · have h1 : (rnd false (g.val * m)).val ≤ (2:ℚ) ^ k / 2 := by
          have hrep : Rep ((2:ℚ) ^ k / 2) :=
            rep_of_zpow (m := 1) (e := (k : ℤ) - 1) (by norm_num) (by omega)
              (by rw [zpow_sub₀ (by norm_num), zpow_natCast]; norm_num)
              (by rw [abs_of_pos (by positivity)]
                  have : (2:ℚ) ^ k ≤ 2 ^ 32 := pow_le_pow_right₀ (by norm_num) hk.le
                  linarith [show (2:ℚ) ^ 32 < 2 ^ 128 by norm_num])
          refine rnd_le_rep hrep ?_
          rw [e, div_eq_mul_one_div]
          exact mul_le_mul_of_nonneg_left (hn.le.trans (by norm_num)) (by positivity)
        have : (0:ℚ) < 2 ^ k := by positivity
        linarith
      · exact b3.trans_le (pow_le_pow_right₀ (by norm_num) hk)
    rw [b1]
    have hc : ((2 ^ k : ℕ) : ℤ) = 2 ^ k := by push_cast; rfl
    have : (0:ℤ) < 2 ^ k := by positivity
    zify
    rw [Int.toNat_of_nonneg (Int.floor_nonneg.2 b2)]; exact hlt

/-- C159, what holds: from about 94 Hz up (at 48 kHz; in general when the lower step is `2^23` or more) octaves stay
locked for ever. -/
theorem C159_partial {k : ℕ} {f g sr : F32} (hu : Up k f g) (hf : Audible f sr) (hg : Audible g sr)
    (h : 2 ^ 23 ≤ phaseStep f sr) (calls : List Bool) :
    (runPhase (.new g sr) (callsOf calls)).counter ≡ 2 ^ k * (runPhase (.new f sr) (callsOf calls)).counter [MOD 2 ^ 32] := by
  rw [counter_after, counter_after, (step_octaves hu hf hg).2.2 h]
  unfold Nat.ModEq
  rw [Nat.mod_mod, Nat.mul_mod_mod]
  congr 1; ring

/-- C159, what happens below: the upper oscillator runs ahead by the same whole number of counter units, less than `2^k`,
every sample. -/
theorem C159_actual {k : ℕ} {f g sr : F32} (hu : Up k f g) (hf : Audible f sr) (hg : Audible g sr) :
    ∃ e < 2 ^ k, ∀ calls : List Bool, (runPhase (.new g sr) (callsOf calls)).counter ≡
      2 ^ k * (runPhase (.new f sr) (callsOf calls)).counter + calls.length * e [MOD 2 ^ 32] := by
  obtain ⟨h1, h2, -⟩ := step_octaves hu hf hg
  refine ⟨phaseStep g sr - 2 ^ k * phaseStep f sr, by rw [Nat.mul_add, mul_one] at h2; omega, fun calls => ?_⟩
  rw [counter_after, counter_after]
  unfold Nat.ModEq
  rw [Nat.mod_mod, Nat.add_mod, Nat.mul_mod_mod, ← Nat.add_mod]
  congr 1
  obtain ⟨d, hd⟩ := Nat.exists_eq_add_of_le h1
  rw [hd, Nat.add_sub_cancel_left]; ring

-- 440 Hz and 1760 Hz stay locked
example : Up 2 (lit 440) (lit 1760) ∧ Audible (lit 440) (lit 48000) ∧ Audible (lit 1760) (lit 48000) ∧
    2 ^ 23 ≤ phaseStep (lit 440) (lit 48000) ∧ phaseStep (lit 110) (lit 48000) = 2 * phaseStep (lit 55) (lit 48000) + 1 :=
  ⟨⟨by decide +kernel, by decide +kernel, by decide +kernel⟩, by constructor <;> decide +kernel,
    by constructor <;> decide +kernel, by decide +kernel, by decide +kernel⟩

/-! ## C160 -/

open Butterworth in
/-- C160: the designs depend on the ratio of frequency and sample rate only; over any field. -/
theorem C160_design_exact {K : Type} [Field K] [Lit K] (powi : K → ℕ → K) (sqrt : K → K) (pos : K → Bool) {c : K} (hc : c ≠ 0)
    (fc q gain sr : K) :
    lowpass powi (c * fc) q (c * sr) = lowpass powi fc q sr ∧ highpass powi (c * fc) q (c * sr) = highpass powi fc q sr ∧
    allpass powi (c * fc) q (c * sr) = allpass powi fc q sr ∧ notch powi (c * fc) q (c * sr) = notch powi fc q sr ∧
    bell powi (c * fc) q gain (c * sr) pos = bell powi fc q gain sr pos ∧
    lowShelf powi sqrt (c * fc) q gain (c * sr) pos = lowShelf powi sqrt fc q gain sr pos := by
  have h : setupCoeffs powi (c * fc) q (c * sr) = setupCoeffs powi fc q sr := by
    unfold setupCoeffs
    rw [show lit FMath.piQ * (c * fc) / (c * sr) = lit FMath.piQ * fc / sr by
      rw [mul_left_comm, mul_div_mul_left _ _ hc]]
  simp only [lowpass, highpass, allpass, notch, bell, bellBoost, bellCut, lowShelf, lowShelfBoost, lowShelfCut, h, and_self]

theorem Up.neg {k : ℕ} {x y : F32} (h : Up k x y) (h0 : x.val ≠ 0) : y.neg = x.neg := by
  have hk : (0:ℚ) < 2 ^ k := by positivity
  rcases lt_or_gt_of_ne h0 with hn | hp
  · rw [neg_of_val_neg hn, neg_of_val_neg (by rw [h.val]; exact mul_neg_of_pos_of_neg hk hn)]
  · rw [neg_of_val_pos hp, neg_of_val_pos (by rw [h.val]; exact mul_pos hk hp)]

theorem Up.ne {k : ℕ} {x y : F32} (h : Up k x y) (h0 : x.val ≠ 0) : y.val ≠ 0 := by
  rw [h.val]; exact mul_ne_zero (by positivity) h0

/-- Numerator and denominator moved by the same number of octaves: the same quotient, bit for bit. -/
theorem Up.div {k : ℕ} {x y a b : F32} (hx : Up k x y) (ha : Up k a b) (x0 : x.val ≠ 0) (a0 : a.val ≠ 0) : y / b = x / a := by
  rw [div_fin hx.fin ha.fin a0, div_fin hx.fin' ha.fin' (ha.ne a0), hx.neg x0, ha.neg a0, hx.val, ha.val,
    mul_div_mul_left _ _ (by positivity)]

/-- A product moves with its factor unless it leaves the normal range. -/
theorem Up.mul {k : ℕ} {x y a : F32} (hx : Up k x y) (ha : a.isFin = true) (h0 : 1 / 2 ^ 126 ≤ |a.val * x.val|)
    (h1 : (a * y).isFin = true) : Up k (a * x) (a * y) := by
  have hne : a.val * x.val ≠ 0 := fun h => by rw [h, abs_zero] at h0; exact absurd h0 (by norm_num)
  have hk : (2:ℚ) ^ k ≠ 0 := by positivity
  rw [mul_fin ha hx.fin'] at h1 ⊢
  rw [mul_fin ha hx.fin]
  rw [show a.val * y.val = 2 ^ k * (a.val * x.val) by rw [hx.val]; ring] at h1 ⊢
  rw [rnd_sign_irrel (t := a.neg != x.neg) (mul_ne_zero hk hne)] at h1 ⊢
  obtain ⟨f, v⟩ := rnd_scale k h0 h1
  exact ⟨f, h1, v⟩

open Butterworth in
/-- C160: the same in floats, bit for bit, when frequency and sample rate are moved by whole octaves. -/
theorem C160_design_float (powi : F32 → ℕ → F32) (sqrt : F32 → F32) {k : ℕ} {fc fc' sr sr' : F32} (hf : Up k fc fc')
    (hs : Up k sr sr') (h0 : 1 / 2 ^ 120 ≤ |fc.val|) (h1 : |fc'.val| ≤ 2 ^ 120) (hsr : sr.val ≠ 0) (q gain : F32) :
    lowpass powi fc' q sr' = lowpass powi fc q sr ∧ highpass powi fc' q sr' = highpass powi fc q sr ∧
    allpass powi fc' q sr' = allpass powi fc q sr ∧ notch powi fc' q sr' = notch powi fc q sr ∧
    bell powi fc' q gain sr' F32.isSignPositive = bell powi fc q gain sr F32.isSignPositive ∧
    lowShelf powi sqrt fc' q gain sr' F32.isSignPositive = lowShelf powi sqrt fc q gain sr F32.isSignPositive := by
  have hpf : (lit FMath.piQ : F32).isFin = true := by decide +kernel
  have hp3 : 3 ≤ (lit FMath.piQ : F32).val := by decide +kernel
  have hp4 : (lit FMath.piQ : F32).val ≤ 4 := by decide +kernel
  have hpa : |(lit FMath.piQ : F32).val| = (lit FMath.piQ : F32).val := abs_of_pos (by linarith)
  have h0' : 1 / 2 ^ 120 ≤ |(lit FMath.piQ : F32).val * fc.val| := by
    rw [abs_mul, hpa]
    calc 1 / 2 ^ 120 ≤ |fc.val| := h0
      _ = 1 * |fc.val| := (one_mul _).symm
      _ ≤ _ := mul_le_mul_of_nonneg_right (by linarith) (abs_nonneg _)
  have hup := hf.mul hpf (h0'.trans' (by norm_num)) (by
    rw [mul_fin hpf hf.fin']
    refine rnd_fin_of_lt ?_
    rw [abs_mul, hpa]
    calc _ ≤ 4 * (2:ℚ) ^ 120 := mul_le_mul hp4 h1 (abs_nonneg _) (by norm_num)
      _ < _ := by norm_num)
  have hx0 : (lit FMath.piQ * fc : F32).val ≠ 0 := by
    have hle : |fc.val| ≤ |fc'.val| := by
      rw [hf.val, abs_mul, abs_of_pos (by positivity : (0:ℚ) < 2 ^ k)]
      exact le_mul_of_one_le_left (abs_nonneg _) (one_le_pow₀ (by norm_num))
    obtain ⟨-, δ, hδ, e⟩ := rnd_rel (s := (lit FMath.piQ : F32).neg != fc.neg) (q := (lit FMath.piQ : F32).val * fc.val)
      (h0'.trans' (by norm_num)) (by
        rw [abs_mul, hpa]
        calc _ ≤ 4 * (2:ℚ) ^ 120 := mul_le_mul hp4 (hle.trans h1) (abs_nonneg _) (by norm_num)
          _ ≤ _ := by norm_num)
    rw [mul_fin hpf hf.fin, e]
    have hδ' := (abs_le.1 hδ).1
    have : (1:ℚ) / 2 ^ 24 < 1 := by norm_num
    refine mul_ne_zero (fun h => ?_) (by linarith)
    rw [h, abs_zero] at h0'
    exact absurd h0' (by norm_num)
  have h : setupCoeffs powi fc' q sr' = setupCoeffs powi fc q sr := by
    unfold setupCoeffs
    rw [hup.div hs hx0 hsr]
  simp only [lowpass, highpass, allpass, notch, bell, bellBoost, bellCut, lowShelf, lowShelfBoost, lowShelfCut, h, and_self]

-- 1 kHz at 48 kHz and 2 kHz at 96 kHz
example : Up 1 (lit 1000) (lit 2000) ∧ Up 1 (lit 48000) (lit 96000) ∧ (1:ℚ) / 2 ^ 120 ≤ |(lit 1000 : F32).val| ∧
    |(lit 2000 : F32).val| ≤ (2:ℚ) ^ 120 ∧ (lit 48000 : F32).val ≠ 0 :=
  ⟨⟨by decide +kernel, by decide +kernel, by decide +kernel⟩, ⟨by decide +kernel, by decide +kernel, by decide +kernel⟩,
    by decide +kernel, by decide +kernel, by decide +kernel⟩

/-- Two accumulators of the same phase, one running at `2^k` times the sample rate of the other with `2^k` times the
frequency. -/
structure SameTurn (k : ℕ) (a b : SoftPhaseAccumulator) : Prop where
  counter : b.counter = a.counter
  shift : b.shift = a.shift
  freq : Up k a.freq b.freq
  step : Up k b.minStep a.minStep

/-- The same call with frequencies and sample rates moved up `k` octaves. -/
inductive PhaseOp.Moved (k : ℕ) : PhaseOp → PhaseOp → Prop
  | next : Moved k .next .next
  | nextNormalized : Moved k .nextNormalized .nextNormalized
  | setFreq {f g} : Up k f g → Moved k (.setFreq f) (.setFreq g)
  | setSr {f g} : Up k f g → 1 / 2 ^ 90 ≤ |f.val| → Moved k (.setSr f) (.setSr g)
  | setShift {s} : Moved k (.setShift s) (.setShift s)

theorem step_down {k : ℕ} {sr sr' : F32} (h : Up k sr sr') (h0 : 1 / 2 ^ 90 ≤ |sr.val|) :
    Up k (u32MaxF / sr') (u32MaxF / sr) := by
  have hp : 0 < |sr.val| := lt_of_lt_of_le (by norm_num) h0
  have hne : sr.val ≠ 0 := abs_pos.1 hp
  have hk : (2:ℚ) ^ k ≠ 0 := by positivity
  rw [div_fin u32MaxF_fin h.fin hne, div_fin u32MaxF_fin h.fin' (h.ne hne), u32MaxF_val, h.neg hne]
  have e : (2:ℚ) ^ 32 / sr.val = 2 ^ k * (2 ^ 32 / sr'.val) := by rw [h.val]; field_simp
  have hf : (rnd (u32MaxF.neg != sr.neg) (2 ^ 32 / sr.val)).isFin = true := by
    refine rnd_fin_of_lt ?_
    rw [abs_div, div_lt_iff₀ hp, abs_of_pos (by norm_num : (0:ℚ) < 2 ^ 32)]
    calc (2:ℚ) ^ 32 < (2 ^ 128 - 2 ^ 103) * (1 / 2 ^ 90) := by norm_num
      _ ≤ _ := mul_le_mul_of_nonneg_left h0 (by norm_num)
  rw [e] at hf ⊢
  have hp' : 0 < |sr'.val| := abs_pos.2 (h.ne hne)
  obtain ⟨f, v⟩ := rnd_scale k (by
    rw [abs_div, le_div_iff₀ hp', abs_of_pos (by norm_num : (0:ℚ) < 2 ^ 32)]
    have := fin_le_max h.fin'
    calc 1 / 2 ^ 126 * |sr'.val| ≤ 1 / 2 ^ 126 * ((2 ^ 24 - 1) * 2 ^ 104) := mul_le_mul_of_nonneg_left this (by norm_num)
      _ ≤ _ := by norm_num) hf
  exact ⟨f, hf, v⟩

theorem SameTurn.steps {k : ℕ} {a b : SoftPhaseAccumulator} (h : SameTurn k a b) :
    f2u32 (b.freq * b.minStep) = f2u32 (a.freq * a.minStep) := by
  have e : b.freq.val * b.minStep.val = a.freq.val * a.minStep.val := by rw [h.freq.val, h.step.val]; ring
  rw [f2u32_eq, f2u32_eq, mul_fin h.freq.fin' h.step.fin, mul_fin h.freq.fin h.step.fin', e, rnd_not_nan, rnd_not_nan]
  by_cases h0 : a.freq.val * a.minStep.val = 0
  · rw [h0, rnd_val_zero, rnd_val_zero]
  · rw [rnd_sign_irrel (t := a.freq.neg != a.minStep.neg) h0]

theorem SameTurn.apply {k : ℕ} {a b : SoftPhaseAccumulator} (h : SameTurn k a b) {o o' : PhaseOp} (ho : o.Moved k o') :
    SameTurn k (applyPhase a o).1 (applyPhase b o').1 := by
  have tick : wrappingAdd32 b.counter (f2u32 (b.freq * b.minStep)) = wrappingAdd32 a.counter (f2u32 (a.freq * a.minStep)) := by
    rw [h.counter, h.steps]
  cases ho with
  | next => exact ⟨tick, h.shift, h.freq, h.step⟩
  | nextNormalized => exact ⟨tick, h.shift, h.freq, h.step⟩
  | setFreq hu => exact ⟨h.counter, h.shift, hu, h.step⟩
  | setSr hu h0 => exact ⟨h.counter, h.shift, h.freq, step_down hu h0⟩
  | setShift => exact ⟨h.counter, rfl, h.freq, h.step⟩

theorem SameTurn.run {k : ℕ} {a b : SoftPhaseAccumulator} (h : SameTurn k a b) {ops ops' : List PhaseOp}
    (ho : List.Forall₂ (PhaseOp.Moved k) ops ops') : SameTurn k (runPhase a ops) (runPhase b ops') := by
  induction ho generalizing a b with
  | nil => exact h
  | cons h1 _ ih => exact ih (h.apply h1)

theorem SameTurn.norm {k : ℕ} {a b : SoftPhaseAccumulator} (h : SameTurn k a b) :
    b.nextValueNormalized.2 = a.nextValueNormalized.2 := by
  have h1 := (h.apply (o := .next) .next).counter
  have h2 : ∀ x : SoftPhaseAccumulator, x.nextValueNormalized.2 =
    F32.ofInt (wrappingAdd32 (applyPhase x .next).1.counter x.shift) / (u32MaxF + lit 1) := fun x => rfl
  rw [h2, h2, h1, h.shift]

/-- C160: an accumulator at `2^k` times the sample rate with `2^k` times the frequency returns the same phases, for ever,
through any history of calls and changes made to both. -/
theorem C160_phase {k : ℕ} {f g sr sr' : F32} (hf : Up k f g) (hs : Up k sr sr') (h0 : 1 / 2 ^ 90 ≤ |sr.val|)
    {ops ops' : List PhaseOp} (ho : List.Forall₂ (PhaseOp.Moved k) ops ops') :
    (runPhase (.new g sr') ops').nextValue.2 = (runPhase (.new f sr) ops).nextValue.2 ∧
    (runPhase (.new g sr') ops').nextValueNormalized.2 = (runPhase (.new f sr) ops).nextValueNormalized.2 := by
  have h : SameTurn k (.new f sr) (.new g sr') := ⟨rfl, rfl, hf, step_down hs h0⟩
  have hr := h.run ho
  refine ⟨?_, hr.norm⟩
  have h1 := (hr.apply (o := .next) .next).counter
  have h2 : ∀ x : SoftPhaseAccumulator, x.nextValue.2 = wrappingAdd32 (applyPhase x .next).1.counter x.shift := fun x => rfl
  rw [h2, h2, h1, hr.shift]

/-- The same call on an oscillator with frequencies and sample rates moved up `k` octaves. -/
inductive OscOp.Moved (k : ℕ) : OscOp → OscOp → Prop
  | next : Moved k .next .next
  | setFreq {f g} : Up k f g → Moved k (.setFreq f) (.setFreq g)
  | setSr {f g} : Up k f g → 1 / 2 ^ 90 ≤ |f.val| → Moved k (.setSr f) (.setSr g)
  | setShift {s} : Moved k (.setShift s) (.setShift s)
  | setWave {w} : Moved k (.setWave w) (.setWave w)

theorem osc_apply_moved {k : ℕ} (checks : Bool) (floor : F32 → F32) (rem : F32 → F32 → F32) {a b : SoftPhaseAccumulator} {w : Waveform}
    (h : SameTurn k a b) {o o' : OscOp} (ho : o.Moved k o') :
    MRel (fun p q => SameTurn k p.acc q.acc ∧ q.wave = p.wave)
      (applyOsc checks floor rem ⟨a, w⟩ o) (applyOsc checks floor rem ⟨b, w⟩ o') := by
  cases ho with
  | next =>
    have hn := h.norm
    have ha := h.apply (o := .nextNormalized) .nextNormalized
    have ea : (applyPhase a .nextNormalized).1 = a.nextValueNormalized.1 := rfl
    have eb : (applyPhase b .nextNormalized).1 = b.nextValueNormalized.1 := rfl
    rw [ea, eb] at ha
    have ea' : PhaseAccumulator.nextValueNormalized a = a.nextValueNormalized := rfl
    have eb' : PhaseAccumulator.nextValueNormalized b = b.nextValueNormalized := rfl
    unfold applyOsc FunctionalOscillator.next
    simp only [ea', eb', hn]
    cases w with
    | sine =>
      cases FunctionalOscillator.sineOf checks rem a.nextValueNormalized.2 with
      | error e => exact rfl
      | ok v => exact ⟨ha, rfl⟩
    | _ => exact ⟨ha, rfl⟩
  | setFreq hu => exact ⟨h.apply (.setFreq hu), rfl⟩
  | setSr hu h0 => exact ⟨h.apply (.setSr hu h0), rfl⟩
  | setShift => exact ⟨⟨h.counter, rfl, h.freq, h.step⟩, rfl⟩
  | setWave => exact ⟨h, rfl⟩

/-- C160: a functional oscillator at `2^k` times the sample rate with `2^k` times the frequency returns the same samples,
whatever the waveform, through any history of calls and changes made to both. -/
theorem C160_oscillator {k : ℕ} (checks : Bool) (floor : F32 → F32) (rem : F32 → F32 → F32) {f g sr sr' : F32} (hf : Up k f g)
    (hs : Up k sr sr') (h0 : 1 / 2 ^ 90 ≤ |sr.val|) {ops ops' : List OscOp} (ho : List.Forall₂ (OscOp.Moved k) ops ops') :
    (do let o ← runOsc checks floor rem (.new (.new g sr')) ops'; return (← o.next checks floor rem).2) =
    (do let o ← runOsc checks floor rem (.new (.new f sr)) ops; return (← o.next checks floor rem).2) := by
  have h : SameTurn k (.new f sr) (.new g sr') := ⟨rfl, rfl, hf, step_down hs h0⟩
  have hrun : ∀ {p q : FunctionalOscillator SoftPhaseAccumulator}, SameTurn k p.acc q.acc → q.wave = p.wave →
      MRel (fun p q => SameTurn k p.acc q.acc ∧ q.wave = p.wave) (runOsc checks floor rem p ops) (runOsc checks floor rem q ops') := by
    intro p q h1 h2
    induction ho generalizing p q with
    | nil => exact ⟨h1, h2⟩
    | cons hd _ ih =>
      unfold runOsc
      rw [List.foldlM_cons, List.foldlM_cons]
      obtain ⟨a, w⟩ := p
      obtain ⟨b, w'⟩ := q
      obtain rfl : w' = w := h2
      exact (osc_apply_moved checks floor rem h1 hd).bind fun x y hxy => ih hxy.1 hxy.2
  have hr := hrun (p := .new (.new f sr)) (q := .new (.new g sr')) h rfl
  revert hr
  generalize runOsc checks floor rem (.new (.new f sr)) ops = u
  generalize runOsc checks floor rem (.new (.new g sr')) ops' = v
  intro hr
  cases u with
  | error e =>
    cases v with
    | error e' => cases hr; rfl
    | ok q => exact hr.elim
  | ok p =>
    cases v with
    | error e' => exact hr.elim
    | ok q =>
      obtain ⟨a, w⟩ := p
      obtain ⟨b, w'⟩ := q
      obtain ⟨h1, h2⟩ := hr
      obtain rfl : w' = w := h2
      have hn := h1.norm
      have ea' : PhaseAccumulator.nextValueNormalized a = a.nextValueNormalized := rfl
      have eb' : PhaseAccumulator.nextValueNormalized b = b.nextValueNormalized := rfl
      show (do return (← FunctionalOscillator.next checks floor rem ⟨b, w'⟩).2) =
        (do return (← FunctionalOscillator.next checks floor rem ⟨a, w'⟩).2)
      unfold FunctionalOscillator.next
      simp only [ea', eb', hn]
      cases w' with
      | sine => cases FunctionalOscillator.sineOf checks rem a.nextValueNormalized.2 <;> rfl
      | _ => rfl

/-- C160: a wavetable oscillator too, over the same table. -/
theorem C160_wavetable {k : ℕ} (c : Cfg) (mem : Mem F32) (table : MemorySlice) {f g sr sr' : F32} (hf : Up k f g)
    (hs : Up k sr sr') (h0 : 1 / 2 ^ 90 ≤ |sr.val|) {ops ops' : List PhaseOp} (ho : List.Forall₂ (PhaseOp.Moved k) ops ops') :
    (do return (← (WavetableOscillator.new table (runPhase (.new g sr') ops')).next c mem).2) =
    (do return (← (WavetableOscillator.new table (runPhase (.new f sr) ops)).next c mem).2) := by
  have hn := (C160_phase hf hs h0 ho).2
  unfold WavetableOscillator.next WavetableOscillator.new
  have e : ∀ x : SoftPhaseAccumulator, PhaseAccumulator.nextValueNormalized x = x.nextValueNormalized := fun _ => rfl
  simp only [e, hn]
  cases MemorySlice.lerpUnchecked c table mem
    (c.u2f table.len * (runPhase (SoftPhaseAccumulator.new f sr) ops).nextValueNormalized.2) <;> rfl

-- 440 Hz at 48 kHz retuned to 441 Hz, and 880 Hz at 96 kHz retuned to 882 Hz
example : Up 1 (lit 440) (lit 880) ∧ Up 1 (lit 48000) (lit 96000) ∧ (1:ℚ) / 2 ^ 90 ≤ |(lit 48000 : F32).val| ∧
    List.Forall₂ (PhaseOp.Moved 1) [.next, .setFreq (lit 441), .nextNormalized] [.next, .setFreq (lit 882), .nextNormalized] ∧
    (runPhase (.new (lit 880) (lit 96000)) [.next, .setFreq (lit 882), .nextNormalized]).nextValue.2 =
      (runPhase (.new (lit 440) (lit 48000)) [.next, .setFreq (lit 441), .nextNormalized]).nextValue.2 :=
  ⟨⟨by decide +kernel, by decide +kernel, by decide +kernel⟩, ⟨by decide +kernel, by decide +kernel, by decide +kernel⟩,
    by decide +kernel,
    .cons .next (.cons (.setFreq ⟨by decide +kernel, by decide +kernel, by decide +kernel⟩) (.cons .nextNormalized .nil)),
    by decide +kernel⟩

/-! The envelope: rates come from the product of time and sample rate. -/

open AudioRateADSR

/-- Up to two seconds the rate is the reciprocal of the number of samples, unclamped. -/
theorem time_unclamped {secs sr : F32} (hs : Pos secs) (hr : Pos sr) (h2 : secs.val ≤ 2) (hsr : sr.val ≤ 2 ^ 100)
    (hlo : 1 / 2 ^ 100 ≤ secs.val * sr.val) : setTimeParameter secs sr = .ok (lit 1 / (secs * sr)) := by
  have h100 : (1:ℚ) / 2 ^ 126 ≤ 1 / 2 ^ 102 := by norm_num
  have h102 : (1:ℚ) / 2 ^ 102 ≤ 1 / 2 ^ 100 := by norm_num
  have h101 : (2:ℚ) ^ 101 ≤ 2 ^ 127 := by norm_num
  have e101 : (2:ℚ) * 2 ^ 100 = 2 ^ 101 := by norm_num
  have hpos : 0 < secs.val * sr.val := mul_pos hs.2 hr.2
  have hup : secs.val * sr.val ≤ 2 * sr.val := mul_le_mul_of_nonneg_right h2 hr.2.le
  have hT : secs.val * sr.val ≤ 2 ^ 101 := by linarith
  obtain ⟨f1, δ, hδ, v1⟩ := rnd_rel (s := secs.neg != sr.neg) (q := secs.val * sr.val)
    (by rw [abs_of_pos hpos]; linarith) (by rw [abs_of_pos hpos]; linarith)
  have hb := abs_le.1 hδ
  have hδ1 : (1:ℚ) / 2 ≤ 1 + δ := by
    have : (1:ℚ) / 2 ^ 24 ≤ 1 / 2 := by norm_num
    linarith [hb.1]
  have hx := mul_fin hs.1 hr.1
  rw [← hx] at f1 v1
  set x := secs * sr with hxd
  have xpos : 0 < x.val := by rw [v1]; exact mul_pos hpos (by linarith)
  have xlo : 1 / 2 ^ 101 ≤ x.val := by
    rw [v1]
    have : 1 / 2 ^ 100 * (1 / 2) ≤ secs.val * sr.val * (1 + δ) := mul_le_mul hlo hδ1 (by norm_num) hpos.le
    linarith [show (1:ℚ) / 2 ^ 100 * (1 / 2) = 1 / 2 ^ 101 by norm_num]
  have ipos : 0 < 1 / x.val := by positivity
  have i2 : 1 / x.val ≤ 2 ^ 101 := by rw [div_le_iff₀ xpos]; rw [div_le_iff₀ (by positivity)] at xlo; linarith
  have hd := div_fin lit1_fin f1 xpos.ne'
  rw [lit1_val] at hd
  have f2 : (lit 1 / x).isFin = true := by
    rw [hd]; refine rnd_fin_of_lt ?_
    rw [abs_of_pos ipos]
    exact i2.trans_lt (by norm_num)
  have x2 : x.val ≤ 2 * sr.val := by
    have hrep : Rep (2 * sr.val) := by
      have := rep_scale hr.1 1 (by
        rw [abs_of_pos (by linarith [hr.2])]
        have : (2:ℚ) ^ 101 < 2 ^ 128 := by norm_num
        linarith)
      rw [pow_one, mul_comm] at this; exact this
    rw [hx]; exact rnd_le_rep hrep hup
  have hq : 1 / 2 / sr.val ≤ 1 / x.val := by
    rw [div_div]; exact one_div_le_one_div_of_le xpos x2
  have hlod := div_fin (x := shortestTimeBase) (y := sr) lithalf_fin hr.1 hr.2.ne'
  rw [show shortestTimeBase.val = 1 / 2 from lithalf_val] at hlod
  have q0 : 0 ≤ 1 / 2 / sr.val := by have := hr.2; positivity
  have flo : (shortestTimeBase / sr).isFin = true := by
    rw [hlod]; refine rnd_fin_of_lt ?_
    rw [abs_of_nonneg q0]
    have : (2:ℚ) ^ 101 < 2 ^ 128 - 2 ^ 103 := by norm_num
    linarith
  have hle : (shortestTimeBase / sr).val ≤ (lit 1 / x).val := by rw [hlod, hd]; exact rnd_mono hq
  have hmax : (lit 1 / x).val ≤ F32.maxFin.val := by
    rw [maxFin_val]; exact (le_abs_self _).trans (fin_le_max f2)
  obtain ⟨r, hr', -, -, -, c3⟩ := clamp_cases (x := lit 1 / x) (isFin.not_nan flo) (isFin.not_nan maxFin_fin) (hle.trans hmax)
  unfold setTimeParameter
  rw [hr', c3 (isFin.not_nan f2) hle hmax]

/-- `t` seconds and a `2^k` times shorter time, both no shorter than `2^-50` and no longer than 2 s. -/
structure Shorter (k : ℕ) (t t' : F32) : Prop where
  up : Up k t' t
  long : t.val ≤ 2
  short : 1 / 2 ^ 50 ≤ t'.val

/-- A sample rate and one `2^k` times faster, both between `2^-50` and `2^100`. -/
structure Faster (k : ℕ) (sr sr' : F32) : Prop where
  up : Up k sr sr'
  slow : 1 / 2 ^ 50 ≤ sr.val
  fast : sr'.val ≤ 2 ^ 100

theorem time_same {k : ℕ} {t t' sr sr' : F32} (ht : Shorter k t t') (hs : Faster k sr sr') :
    setTimeParameter t' sr' = setTimeParameter t sr := by
  have hk : (1:ℚ) ≤ 2 ^ k := one_le_pow₀ (by norm_num)
  have t0 : 0 < t'.val := lt_of_lt_of_le (by norm_num) ht.short
  have s0 : 0 < sr.val := lt_of_lt_of_le (by norm_num) hs.slow
  have t1 : t'.val ≤ t.val := by rw [ht.up.val]; exact le_mul_of_one_le_left t0.le hk
  have s1 : sr.val ≤ sr'.val := by rw [hs.up.val]; exact le_mul_of_one_le_left s0.le hk
  have e : t'.val * sr'.val = t.val * sr.val := by rw [ht.up.val, hs.up.val]; ring
  have l : ∀ {x y : ℚ}, 1 / 2 ^ 50 ≤ x → 1 / 2 ^ 50 ≤ y → 1 / 2 ^ 100 ≤ x * y := fun hx hy => by
    calc (1:ℚ) / 2 ^ 100 = 1 / 2 ^ 50 * (1 / 2 ^ 50) := by norm_num
      _ ≤ _ := mul_le_mul hx hy (by norm_num) (le_trans (by norm_num) hx)
  rw [time_unclamped ⟨ht.up.fin, t0⟩ ⟨hs.up.fin', lt_of_lt_of_le s0 s1⟩ (t1.trans ht.long) hs.fast (l ht.short (hs.slow.trans s1)),
    time_unclamped ⟨ht.up.fin', lt_of_lt_of_le t0 t1⟩ ⟨hs.up.fin, s0⟩ ht.long (s1.trans hs.fast) (l (ht.short.trans t1) hs.slow),
    mul_fin ht.up.fin hs.up.fin', mul_fin ht.up.fin' hs.up.fin, e, hs.up.neg s0.ne', ht.up.neg t0.ne']

/-- The same call with `2^k` times shorter times and a `2^k` times faster rate. -/
inductive EnvOp.Moved (k : ℕ) : EnvOp → EnvOp → Prop
  | setAttack {t t'} : Shorter k t t' → Moved k (.setAttack t) (.setAttack t')
  | setDecay {t t'} : Shorter k t t' → Moved k (.setDecay t) (.setDecay t')
  | setSustain {x} : Moved k (.setSustain x) (.setSustain x)
  | setRelease {t t'} : Shorter k t t' → Moved k (.setRelease t) (.setRelease t')
  | setSlope {x} : Moved k (.setSlope x) (.setSlope x)
  | setSr {x y} : Faster k x y → Moved k (.setSr x) (.setSr y)
  | on : Moved k .on .on
  | off : Moved k .off .off
  | reset : Moved k .reset .reset
  | tick : Moved k .tick .tick

/-- Envelopes equal but for the sample rate. -/
def SameEnv (k : ℕ) (a b : AudioRateADSR) : Prop := Faster k a.sr b.sr ∧ b = { a with sr := b.sr }

theorem tick_sr (powf : F32 → F32 → F32) (a : AudioRateADSR) (x : F32) :
    AudioRateADSR.tick powf { a with sr := x } = ({ (a.tick powf).1 with sr := x }, (a.tick powf).2) ∧ (a.tick powf).1.sr = a.sr := by
  obtain ⟨at_, de, su, re, sl, t, st, ev, rv, sr⟩ := a
  cases st with
  | idle => exact ⟨rfl, rfl⟩
  | sustain => exact ⟨rfl, rfl⟩
  | attack => simp only [AudioRateADSR.tick, AudioRateADSR.nextAttack]; split <;> exact ⟨rfl, rfl⟩
  | decay => simp only [AudioRateADSR.tick, AudioRateADSR.nextDecay]; split <;> exact ⟨rfl, rfl⟩
  | release => simp only [AudioRateADSR.tick, AudioRateADSR.nextRelease]; split <;> exact ⟨rfl, rfl⟩

theorem env_apply_moved {k : ℕ} (powf : F32 → F32 → F32) {a b : AudioRateADSR} (h : SameEnv k a b) {o o' : EnvOp}
    (ho : o.Moved k o') : MRel (fun p q => SameEnv k p.1 q.1 ∧ q.2 = p.2) (applyEnv powf a o) (applyEnv powf b o') := by
  obtain ⟨hf, hb⟩ := h
  obtain ⟨ba, bd, bs, br, bl, bt, bst, bev, brv, bsr⟩ := b
  obtain ⟨aa, ad, as_, ar, al, at_, ast, aev, arv, asr⟩ := a
  simp only [AudioRateADSR.mk.injEq] at hb
  obtain ⟨rfl, rfl, rfl, rfl, rfl, rfl, rfl, rfl, rfl, -⟩ := hb
  simp only at hf
  cases ho with
  | setAttack ht =>
    simp only [applyEnv, AudioRateADSR.setAttack, bind_assoc, pure_bind, time_same ht hf]
    exact MRel.step fun r => MRel.ok ⟨⟨hf, rfl⟩, rfl⟩
  | setDecay ht =>
    simp only [applyEnv, AudioRateADSR.setDecay, bind_assoc, pure_bind, time_same ht hf]
    exact MRel.step fun r => MRel.ok ⟨⟨hf, rfl⟩, rfl⟩
  | setRelease ht =>
    simp only [applyEnv, AudioRateADSR.setRelease, bind_assoc, pure_bind, time_same ht hf]
    exact MRel.step fun r => MRel.ok ⟨⟨hf, rfl⟩, rfl⟩
  | setSustain =>
    simp only [applyEnv, AudioRateADSR.setSustain, bind_assoc, pure_bind]
    exact MRel.step fun r => MRel.ok ⟨⟨hf, rfl⟩, rfl⟩
  | setSlope =>
    simp only [applyEnv, AudioRateADSR.setSlope, bind_assoc, pure_bind]
    exact MRel.step fun r => MRel.ok ⟨⟨hf, rfl⟩, rfl⟩
  | setSr hu => exact ⟨⟨hu, rfl⟩, rfl⟩
  | on => cases bst <;> exact ⟨⟨hf, rfl⟩, rfl⟩
  | off => cases bst <;> exact ⟨⟨hf, rfl⟩, rfl⟩
  | reset => exact ⟨⟨hf, rfl⟩, rfl⟩
  | tick =>
    obtain ⟨h1, h2⟩ := tick_sr powf ⟨ba, bd, bs, br, bl, bt, bst, bev, brv, asr⟩ bsr
    simp only at h1
    simp only [applyEnv]
    rw [h1]
    refine MRel.ok ⟨⟨?_, ?_⟩, rfl⟩
    · simp only; rw [h2]; exact hf
    · rfl

theorem env_run_moved {k : ℕ} (powf : F32 → F32 → F32) {ops ops' : List EnvOp} (ho : List.Forall₂ (EnvOp.Moved k) ops ops') :
    ∀ {a b : AudioRateADSR}, SameEnv k a b →
    MRel (fun p q => SameEnv k p.1 q.1 ∧ q.2 = p.2) (runEnv powf a ops) (runEnv powf b ops') := by
  induction ho with
  | nil => intro a b h; exact ⟨h, rfl⟩
  | cons hd _ ih =>
    intro a b h
    unfold runEnv
    exact (env_apply_moved powf h hd).bind fun x y hxy => (ih hxy.1).bind fun u v huv =>
      MRel.ok ⟨huv.1, by rw [hxy.2, huv.2]⟩

/-- C160: an envelope at `2^k` times the sample rate with `2^k` times shorter times returns the same samples, through any
history of calls and changes made to both. -/
theorem C160_envelope {k : ℕ} (powf : F32 → F32 → F32) {a a' d d' r r' sr sr' : F32} (ha : Shorter k a a') (hd : Shorter k d d')
    (hr : Shorter k r r') (hs : Faster k sr sr') (s sl : F32) {ops ops' : List EnvOp}
    (ho : List.Forall₂ (EnvOp.Moved k) ops ops') :
    (do let e ← AudioRateADSR.new a' d' s r' sl sr'; return (← runEnv powf e ops').2) =
    (do let e ← AudioRateADSR.new a d s r sl sr; return (← runEnv powf e ops).2 : M (List F32)) := by
  have hn : MRel (SameEnv k) (AudioRateADSR.new a d s r sl sr) (AudioRateADSR.new a' d' s r' sl sr') := by
    unfold AudioRateADSR.new
    rw [time_same ha hs, time_same hd hs, time_same hr hs]
    exact MRel.step fun _ => MRel.step fun _ => MRel.step fun _ => MRel.step fun _ => MRel.ok ⟨hs, rfl⟩
  have hall : MRel (fun x y : List F32 => y = x)
      (do let e ← AudioRateADSR.new a d s r sl sr; return (← runEnv powf e ops).2)
      (do let e ← AudioRateADSR.new a' d' s r' sl sr'; return (← runEnv powf e ops').2) :=
    hn.bind fun x y hxy => (env_run_moved powf ho hxy).bind fun u v huv => MRel.ok huv.2
  revert hall
  generalize (do let e ← AudioRateADSR.new a d s r sl sr; return (← runEnv powf e ops).2 : M (List F32)) = u
  generalize (do let e ← AudioRateADSR.new a' d' s r' sl sr'; return (← runEnv powf e ops').2 : M (List F32)) = v
  intro h
  cases u with
  | error e => cases v with
    | error e' => exact congrArg _ (Eq.symm h)
    | ok _ => exact h.elim
  | ok x => cases v with
    | error e' => exact h.elim
    | ok y => exact congrArg _ h

-- 10 ms at 48 kHz and 5 ms at 96 kHz
example : Shorter 1 (lit (10/1000)) (lit (5/1000)) ∧ Faster 1 (lit 48000) (lit 96000) ∧
    setTimeParameter (lit (5/1000)) (lit 96000) = setTimeParameter (lit (10/1000)) (lit 48000) ∧
    List.Forall₂ (EnvOp.Moved 1) [.on, .tick, .off, .tick] [.on, .tick, .off, .tick] :=
  ⟨⟨⟨by decide +kernel, by decide +kernel, by decide +kernel⟩, by decide +kernel, by decide +kernel⟩,
    ⟨⟨by decide +kernel, by decide +kernel, by decide +kernel⟩, by decide +kernel, by decide +kernel⟩, by decide +kernel,
    .cons .on (.cons .tick (.cons .off (.cons .tick .nil)))⟩

end Verif
