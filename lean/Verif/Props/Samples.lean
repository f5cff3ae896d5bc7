import Verif.Props.Interpolation

/-! # C190: counting samples in seconds and milliseconds -/

namespace Verif
open F32 FMath

/-- C190: a count of samples turned into seconds and back is the same count, off by so little that rounding restores it. -/
theorem C190_seconds {x sr : F32} {n : ℕ} (hx : x.val = n) (n0 : 1 ≤ n) (n1 : n ≤ 2 ^ 20) (hsr : sr.isFin = true)
    (s0 : 1 ≤ sr.val) (s1 : sr.val ≤ 2 ^ 40) :
    |(secondsToSamples (samplesToSeconds x sr) sr).val - n| ≤ n / 2 ^ 22 ∧ round (secondsToSamples (samplesToSeconds x sr) sr).val = n := by
  have q0 : (1:ℚ) ≤ n := by exact_mod_cast n0
  have q1 : (n:ℚ) ≤ 1048576 := by exact_mod_cast n1
  have fx : x.isFin = true := fin_of_val (by rw [hx, abs_of_nonneg (by linarith)]; exact lt_of_le_of_lt q1 (by norm_num))
  have hs : sr.val ≠ 0 := by linarith
  have key : |(secondsToSamples (samplesToSeconds x sr) sr).val - n| ≤ n / 2 ^ 22 := by
    unfold samplesToSeconds secondsToSamples
    rw [div_fin fx hsr hs, hx]
    have d0 : 1 / 2 ^ 40 ≤ (n:ℚ) / sr.val := div_le_div₀ (by linarith) q0 (by linarith) s1
    have d1 : (n:ℚ) / sr.val ≤ n := div_le_self (by linarith) s0
    have d2 : (0:ℚ) < 1 / 2 ^ 40 := by positivity
    obtain ⟨f1, a, ha, e1⟩ := rnd_rel (s := x.neg != sr.neg) (q := (n:ℚ) / sr.val)
      (by rw [abs_of_nonneg (by linarith)]; refine le_trans (by norm_num) d0)
      (by rw [abs_of_nonneg (by linarith)]; exact (d1.trans q1).trans (by norm_num))
    rw [mul_fin f1 hsr, e1]
    have e2 : (n:ℚ) / sr.val * (1 + a) * sr.val = n * (1 + a) := by field_simp
    rw [e2]
    obtain ⟨b1, b2⟩ := rel_bounds (q := (n:ℚ)) ha
    rw [abs_of_nonneg (show (0:ℚ) ≤ n by linarith)] at b1 b2
    obtain ⟨-, b, hb, e3⟩ := rnd_rel (q := (n:ℚ) * (1 + a)) (s := (rnd (x.neg != sr.neg) ((n:ℚ) / sr.val)).neg != sr.neg)
      (by refine le_trans ?_ b1; norm_num; linarith) (by refine b2.trans ?_; norm_num; linarith)
    rw [e3, show (n:ℚ) * (1 + a) * (1 + b) - n = n * ((1 + a) * (1 + b) - 1) by ring, abs_mul, abs_of_nonneg (show (0:ℚ) ≤ n by linarith),
      div_eq_mul_inv]
    exact mul_le_mul_of_nonneg_left ((one_add_mul ha hb).trans (by norm_num)) (by linarith)
  refine ⟨key, ?_⟩
  have k := abs_le.1 key
  rw [round_eq, Int.floor_eq_iff]
  push_cast
  constructor <;> norm_num at k ⊢ <;> linarith

/-- C190: the same for milliseconds. -/
theorem C190_millis {x sr : F32} {n : ℕ} (hx : x.val = n) (n0 : 1 ≤ n) (n1 : n ≤ 2 ^ 19) (hsr : sr.isFin = true)
    (s0 : 1 ≤ sr.val) (s1 : sr.val ≤ 2 ^ 40) :
    |(millisToSamples (samplesToMillis x sr) sr).val - n| ≤ n / 2 ^ 21 ∧ round (millisToSamples (samplesToMillis x sr) sr).val = n := by
  have q0 : (1:ℚ) ≤ n := by exact_mod_cast n0
  have q1 : (n:ℚ) ≤ 524288 := by exact_mod_cast n1
  have fx : x.isFin = true := fin_of_val (by rw [hx, abs_of_nonneg (by linarith)]; exact lt_of_le_of_lt q1 (by norm_num))
  have hs : sr.val ≠ 0 := by linarith
  have kv : (lit 1000 : F32).val = 1000 := lit_val (by simpa using rep_nat (n := 1000) (by norm_num))
  have kf : (lit 1000 : F32).isFin = true := lit_fin (by simpa using rep_nat (n := 1000) (by norm_num))
  have key : |(millisToSamples (samplesToMillis x sr) sr).val - n| ≤ n / 2 ^ 21 := by
    unfold samplesToMillis millisToSamples
    rw [div_fin fx hsr hs, hx]
    have d0 : 1 / 2 ^ 40 ≤ (n:ℚ) / sr.val := div_le_div₀ (by linarith) q0 (by linarith) s1
    have d1 : (n:ℚ) / sr.val ≤ n := div_le_self (by linarith) s0
    have d2 : (0:ℚ) < 1 / 2 ^ 40 := by positivity
    have dp : (0:ℚ) ≤ n / sr.val := by linarith
    obtain ⟨f1, a, ha, e1⟩ := rnd_rel (s := x.neg != sr.neg) (q := (n:ℚ) / sr.val)
      (by rw [abs_of_nonneg dp]; refine le_trans (by norm_num) d0)
      (by rw [abs_of_nonneg dp]; exact (d1.trans q1).trans (by norm_num))
    generalize rnd (x.neg != sr.neg) ((n:ℚ) / sr.val) = y at f1 e1 ⊢
    obtain ⟨b1, b2⟩ := rel_bounds (q := (n:ℚ) / sr.val) ha
    rw [abs_of_nonneg dp] at b1 b2
    rw [mul_fin f1 kf, kv, e1]
    have g1 : |(n:ℚ) / sr.val * (1 + a) * 1000| = |(n:ℚ) / sr.val * (1 + a)| * 1000 := by rw [abs_mul]; norm_num
    obtain ⟨f2, b, hb, e2⟩ := rnd_rel (q := (n:ℚ) / sr.val * (1 + a) * 1000) (s := y.neg != (lit 1000 : F32).neg)
      (by rw [g1]; linarith) (by rw [g1]; linarith)
    generalize rnd (y.neg != (lit 1000 : F32).neg) ((n:ℚ) / sr.val * (1 + a) * 1000) = z at f2 e2 ⊢
    rw [mul_fin f2 hsr, e2]
    have e3 : (n:ℚ) / sr.val * (1 + a) * 1000 * (1 + b) * sr.val = n * (1 + a) * (1 + b) * 1000 := by field_simp
    rw [e3]
    obtain ⟨c1, c2⟩ := rel_bounds (q := (n:ℚ)) ha
    rw [abs_of_nonneg (show (0:ℚ) ≤ n by linarith)] at c1 c2
    obtain ⟨k1, k2⟩ := rel_bounds (q := (n:ℚ) * (1 + a)) hb
    have g2 : |(n:ℚ) * (1 + a) * (1 + b) * 1000| = |(n:ℚ) * (1 + a) * (1 + b)| * 1000 := by rw [abs_mul]; norm_num
    obtain ⟨f3, c, hc, e4⟩ := rnd_rel (q := (n:ℚ) * (1 + a) * (1 + b) * 1000) (s := z.neg != sr.neg)
      (by rw [g2]; linarith) (by rw [g2]; linarith)
    generalize rnd (z.neg != sr.neg) ((n:ℚ) * (1 + a) * (1 + b) * 1000) = w at f3 e4 ⊢
    rw [div_fin f3 kf (by rw [kv]; norm_num), kv, e4]
    have e5 : (n:ℚ) * (1 + a) * (1 + b) * 1000 * (1 + c) / 1000 = n * (1 + a) * (1 + b) * (1 + c) := by ring
    rw [e5]
    obtain ⟨i1, i2⟩ := rel_bounds (q := (n:ℚ) * (1 + a) * (1 + b)) hc
    obtain ⟨-, d, hd, e6⟩ := rnd_rel (q := (n:ℚ) * (1 + a) * (1 + b) * (1 + c)) (s := w.neg != (lit 1000 : F32).neg)
      (by linarith) (by linarith)
    rw [e6, show (n:ℚ) * (1 + a) * (1 + b) * (1 + c) * (1 + d) - n = n * ((1 + a) * (1 + b) * ((1 + c) * (1 + d)) - 1) by ring, abs_mul,
      abs_of_nonneg (show (0:ℚ) ≤ n by linarith), div_eq_mul_inv]
    refine mul_le_mul_of_nonneg_left ?_ (by linarith)
    have u3 := one_add_mul (one_add_mul ha hb) (one_add_mul hc hd)
    rw [add_sub_cancel, add_sub_cancel] at u3
    exact u3.trans (by norm_num)
  refine ⟨key, ?_⟩
  have k := abs_le.1 key
  rw [round_eq, Int.floor_eq_iff]
  push_cast
  constructor <;> norm_num at k ⊢ <;> linarith

/-- C190: more samples are never less time, and more time is never fewer samples. -/
theorem C190_monotone {x y sr : F32} (hx : x.isFin = true) (hy : y.isFin = true) (hsr : sr.isFin = true) (s0 : 0 < sr.val) (h : x.val ≤ y.val) :
    (samplesToSeconds x sr).val ≤ (samplesToSeconds y sr).val ∧ (secondsToSamples x sr).val ≤ (secondsToSamples y sr).val ∧
    ((samplesToSeconds x sr).isFin = true → (samplesToSeconds y sr).isFin = true → (samplesToMillis x sr).val ≤ (samplesToMillis y sr).val) ∧
    ((secondsToSamples x sr).isFin = true → (secondsToSamples y sr).isFin = true → (millisToSamples x sr).val ≤ (millisToSamples y sr).val) := by
  have kv : (lit 1000 : F32).val = 1000 := lit_val (by simpa using rep_nat (n := 1000) (by norm_num))
  have kf : (lit 1000 : F32).isFin = true := lit_fin (by simpa using rep_nat (n := 1000) (by norm_num))
  have a : (samplesToSeconds x sr).val ≤ (samplesToSeconds y sr).val := by
    unfold samplesToSeconds
    rw [div_fin hx hsr s0.ne', div_fin hy hsr s0.ne']
    exact rnd_mono (div_le_div_of_nonneg_right h s0.le)
  have b : (secondsToSamples x sr).val ≤ (secondsToSamples y sr).val := by
    unfold secondsToSamples
    rw [mul_fin hx hsr, mul_fin hy hsr]
    exact rnd_mono (mul_le_mul_of_nonneg_right h s0.le)
  refine ⟨a, b, fun f1 f2 => ?_, fun f1 f2 => ?_⟩
  · unfold samplesToSeconds at a f1 f2
    unfold samplesToMillis
    rw [mul_fin f1 kf, mul_fin f2 kf, kv]
    exact rnd_mono (mul_le_mul_of_nonneg_right a (by norm_num))
  · unfold secondsToSamples at b f1 f2
    unfold millisToSamples
    have k0 : (lit 1000 : F32).val ≠ 0 := by rw [kv]; norm_num
    rw [div_fin f1 kf k0, div_fin f2 kf k0, kv]
    exact rnd_mono (div_le_div_of_nonneg_right b (by norm_num))

/-- 441 samples at 44100 samples a second, there and back. -/
example : round (secondsToSamples (samplesToSeconds (lit 441) (lit 44100)) (lit 44100) : F32).val = 441 ∧
    round (millisToSamples (samplesToMillis (lit 441) (lit 44100)) (lit 44100) : F32).val = 441 := by
  have v : (lit 441 : F32).val = (441:ℕ) := by decide +kernel
  exact ⟨(C190_seconds v (by norm_num) (by norm_num) (by decide +kernel) (by decide +kernel) (by decide +kernel)).2,
    (C190_millis v (by norm_num) (by norm_num) (by decide +kernel) (by decide +kernel) (by decide +kernel)).2⟩

/-- Some counts below 100 do not come back exactly from milliseconds: the rounding is needed. -/
example : ∃ n ∈ List.range 100, (millisToSamples (samplesToMillis (lit n) (lit 44100)) (lit 44100) : F32).val ≠ n := by decide +kernel

end Verif
