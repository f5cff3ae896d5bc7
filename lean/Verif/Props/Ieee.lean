import Verif.Spec.Ieee
import Verif.F32.Extra

/-! # The floats of the model are those of the standard

`Spec/Ieee.lean` says what IEEE-754 says; here the definitions of `F32/Basic.lean`, on which every statement about floats rests, are shown
to satisfy it, and it is shown that nothing else does. -/

namespace Verif
open F32 Ieee

theorem sign_eq (x : F32) : sign x = x.neg := by
  rw [neg_iff]; unfold sign
  rw [← BitVec.msb_eq_getLsbD_last, BitVec.msb_eq_decide]

theorem expo_eq (x : F32) : expo x = x.mag / 2 ^ 23 := by
  unfold expo mag
  rw [BitVec.extractLsb'_toNat, Nat.shiftRight_eq_div_pow]
  have := x.bits.isLt
  omega

theorem frac_eq (x : F32) : frac x = x.mag % 2 ^ 23 := by
  unfold frac mag
  rw [BitVec.extractLsb'_toNat, Nat.shiftRight_zero]
  omega

/-- Clause 3.4: classes and values of words. -/
theorem ieee_classes (x : F32) : (finite x ↔ x.isFin = true) ∧ (infinite x ↔ x.isInf = true) ∧ (notANumber x ↔ x.isNaN = true) := by
  have := mag_lt x
  unfold finite infinite notANumber
  rw [isFin_iff, isInf_iff, isNaN_iff, expo_eq, frac_eq]
  unfold infMag
  omega

theorem magVal_fields (m : ℕ) : magVal m = if m / 2 ^ 23 = 0 then (2 : ℚ) ^ (-126 : ℤ) * ((m % 2 ^ 23 : ℕ) / 2 ^ 23 : ℚ)
    else (2 : ℚ) ^ (((m / 2 ^ 23 : ℕ) : ℤ) - 127) * (1 + (m % 2 ^ 23 : ℕ) / 2 ^ 23 : ℚ) := by
  unfold magVal magInt unit
  by_cases h : m < 2 ^ 23
  · rw [if_pos h, if_pos (Nat.div_eq_of_lt h), Nat.mod_eq_of_lt h]
    norm_num
    ring
  · have h0 : 1 ≤ m / 2 ^ 23 := by omega
    rw [if_neg h, if_neg (by omega)]
    obtain ⟨e, he⟩ : ∃ e, m / 2 ^ 23 = e + 1 := ⟨m / 2 ^ 23 - 1, by omega⟩
    rw [he, Nat.add_sub_cancel, Nat.cast_mul, Nat.cast_add, Nat.cast_pow]
    rw [show (((e + 1 : ℕ) : ℤ) - 127) = (e : ℤ) - 126 by push_cast; ring, zpow_sub₀ (by norm_num), zpow_natCast]
    push_cast
    field_simp
    norm_num

theorem ieee_value (x : F32) : value x = x.val := by
  unfold value
  rw [sign_eq, expo_eq, frac_eq, ← magVal_fields]
  rfl

theorem top_eq : (2 : ℚ) ^ 127 * (2 - 2 ^ (-24 : ℤ)) = 2 ^ 128 - 2 ^ 103 := by norm_num

theorem even_iff (x : F32) : frac x % 2 = x.mag % 2 := by rw [frac_eq]; omega

/-- Another pattern as near as the one rounded to is odd, and that one is even. -/
theorem roundIdx_tie {Q : ℚ} (hQ : 0 ≤ Q) {k : ℕ} (hk : k ≠ roundIdx Q)
    (h : |(magInt k : ℚ) - Q| ≤ |(magInt (roundIdx Q) : ℚ) - Q|) : roundIdx Q % 2 = 0 ∧ k % 2 = 1 := by
  obtain ⟨n, h1, h2, h3⟩ := roundIdx_cases hQ
  have hs : (magInt (n + 1) : ℚ) = magInt n + gap n := by exact_mod_cast magInt_succ n
  have hg : (0 : ℚ) < gap n := by exact_mod_cast gap_pos n
  rcases h3 with ⟨e, g1, g2⟩ | ⟨e, g1, g2⟩
  · rw [e] at hk h ⊢
    rw [abs_of_nonpos (a := (magInt n : ℚ) - _) (by linarith)] at h
    rcases Nat.lt_or_ge n k with hlt | hge
    · have hk' : (magInt (n + 1) : ℚ) ≤ magInt k := by exact_mod_cast magInt_le.2 hlt
      rw [abs_of_nonneg (by linarith)] at h
      have hn := g2 (le_antisymm g1 (by linarith))
      have : (magInt k : ℚ) ≤ magInt (n + 1) := by linarith
      have := magInt_le.1 (by exact_mod_cast this : magInt k ≤ magInt (n + 1))
      omega
    · have hk' : (magInt k : ℚ) < magInt n := by exact_mod_cast magInt_lt.2 (by omega)
      rw [abs_of_nonpos (by linarith)] at h; linarith
  · rw [e] at hk h ⊢
    rw [abs_of_nonneg (a := (magInt (n + 1) : ℚ) - _) (by linarith)] at h
    rcases Nat.lt_or_ge n k with hlt | hge
    · have hk' : (magInt (n + 1) : ℚ) < magInt k := by exact_mod_cast magInt_lt.2 (by omega)
      rw [abs_of_nonneg (by linarith)] at h; linarith
    · have hk' : (magInt k : ℚ) ≤ magInt n := by exact_mod_cast magInt_le.2 hge
      rw [abs_of_nonpos (by linarith)] at h
      have hn := g2 (le_antisymm (by linarith) g1)
      have : (magInt n : ℚ) ≤ magInt k := by linarith
      have := magInt_le.1 (by exact_mod_cast this : magInt n ≤ magInt k)
      omega

theorem sign_rnd (s : Bool) {q : ℚ} (h : q ≠ 0) : sign (rnd s q) = decide (q < 0) := by
  rw [sign_eq]; unfold rnd; rw [if_neg h, neg_pack]

/-- The same for signed values. -/
theorem rnd_tie {s : Bool} {q : ℚ} (h : |q| < 2 ^ 128 - 2 ^ 103) {y : F32} (hne : y.val ≠ (rnd s q).val)
    (heq : |y.val - q| = |(rnd s q).val - q|) : (rnd s q).mag % 2 = 0 ∧ y.mag % 2 = 1 := by
  have hf := rnd_fin_of_lt (s := s) h
  have hm : (rnd s q).mag = roundIdx (|q| * F32.unit) := by
    have := isFin_iff.1 hf
    rw [rnd_mag] at this ⊢
    rcases le_total (roundIdx (|q| * F32.unit)) infMag with h | h
    · exact min_eq_left h
    · rw [min_eq_right h] at this; exact absurd this (lt_irrefl _)
  have hQ : 0 ≤ |q| * F32.unit := mul_nonneg (abs_nonneg _) unit_pos.le
  have conv : ∀ j : ℕ, |magVal j - (|q|)| = |(magInt j : ℚ) - |q| * F32.unit| / F32.unit := by
    intro j
    rw [show magVal j - |q| = ((magInt j : ℚ) - |q| * F32.unit) / F32.unit by unfold magVal; field_simp [unit_ne], abs_div,
      abs_of_pos unit_pos]
  have hr : |(rnd s q).val - q| = |magVal (roundIdx (|q| * F32.unit)) - (|q|)| := by
    rcases lt_trichotomy q 0 with hq | hq | hq
    · have hneg : (rnd s q).neg = true := by rw [← sign_eq, sign_rnd s hq.ne]; exact decide_eq_true hq
      rw [val_of_neg hneg, hm, abs_of_neg hq, ← abs_neg]; ring_nf
    · subst hq
      rw [rnd_val_zero, abs_zero, zero_mul, show roundIdx 0 = 0 by decide +kernel, magVal_zero]
    · have hpos : (rnd s q).neg = false := by rw [← sign_eq, sign_rnd s hq.ne']; exact decide_eq_false (not_lt.2 hq.le)
      rw [val_of_pos hpos, hm, abs_of_pos hq]
  have hy : |magVal y.mag - (|q|)| ≤ |y.val - q| := by
    rw [← abs_val]; exact abs_abs_sub_abs_le _ _
  by_cases hk : y.mag = roundIdx (|q| * F32.unit)
  · exfalso
    have hav : |y.val| = |(rnd s q).val| := by rw [abs_val, abs_val, hk, hm]
    have hop : y.val = -(rnd s q).val := by
      rcases abs_eq_abs.1 hav with h | h
      · exact absurd h hne
      · exact h
    rw [hop] at heq
    have : (-(rnd s q).val - q) ^ 2 = ((rnd s q).val - q) ^ 2 := (sq_eq_sq_iff_abs_eq_abs _ _).2 heq
    have h5 : (rnd s q).val * q = 0 := by nlinarith
    rcases mul_eq_zero.1 h5 with h | h
    · rw [hop, h, neg_zero] at hne; exact hne rfl
    · subst h
      rw [hop, rnd_val_zero, neg_zero] at hne; exact hne rfl
  · rw [hm]
    refine roundIdx_tie hQ hk ?_
    rw [heq, hr, conv, conv, div_le_div_iff_of_pos_right unit_pos] at hy
    exact hy

set_option exponentiation.threshold 300 in
theorem near_top {Q : ℚ} (h : ((2 ^ 24 - 1) * 2 ^ 253 + 2 ^ 252 : ℚ) ≤ Q) (h' : Q < 2 ^ 277) :
    |(2 ^ 277 : ℚ) - Q| ≤ |((2 ^ 24 - 1) * 2 ^ 253 : ℚ) - Q| := by
  rw [abs_of_nonneg (by linarith), abs_of_nonpos (by linarith)]
  linarith

/-- Clause 4.3.1: `rnd` is `roundTiesToEven`; an exact zero gets the sign asked for. -/
theorem ieee_rounds (s : Bool) (q : ℚ) : Rounds q (rnd s q) ∧ (q = 0 → sign (rnd s q) = s ∧ value (rnd s q) = 0) := by
  refine ⟨⟨fun h => ?_, fun h => ?_, fun h y hy => ?_, fun h y hy hne heq => ?_, sign_rnd s⟩, ?_⟩
  · rw [top_eq] at h
    have h0 : q ≠ 0 := by rintro rfl; norm_num at h
    refine ⟨?_, sign_rnd s h0⟩
    rw [(ieee_classes _).2.1, isInf_iff, rnd_mag]
    refine min_eq_right ?_
    have hQ : 0 ≤ |q| * F32.unit := mul_nonneg (abs_nonneg _) unit_pos.le
    by_contra hc
    have hc := not_le.1 hc
    have hm : (magInt (infMag - 1) : ℚ) = (2 ^ 24 - 1) * 2 ^ 253 := by
      rw [show magInt (infMag - 1) = (2 ^ 24 - 1) * 2 ^ 253 by decide +kernel]; norm_num
    have hi : (magInt infMag : ℚ) = 2 ^ 277 := by
      rw [show magInt infMag = 2 ^ 277 by decide +kernel]; norm_num
    have hQ2 : ((2 ^ 24 - 1) * 2 ^ 253 + 2 ^ 252 : ℚ) ≤ |q| * F32.unit := by
      have := mul_le_mul_of_nonneg_right h unit_pos.le
      refine le_trans (le_of_eq ?_) this
      unfold F32.unit; norm_num
    have hlt : |q| * F32.unit < 2 ^ 277 := by
      by_contra h
      rw [← hi] at h
      have := le_roundIdx_of_le hQ (not_lt.1 h)
      omega
    have hle : infMag - 1 ≤ roundIdx (|q| * F32.unit) := le_roundIdx_of_le hQ (by
      rw [hm]; refine le_trans ?_ hQ2; norm_num)
    have he : roundIdx (|q| * F32.unit) = infMag - 1 := by omega
    have := roundIdx_tie hQ (k := infMag) (by rw [he]; decide) (by
      rw [he, hm, hi]; exact near_top hQ2 hlt)
    rw [he] at this
    revert this; decide
  · rw [top_eq] at h; exact (ieee_classes _).1.2 (rnd_fin_of_lt h)
  · rw [top_eq] at h; rw [ieee_value, ieee_value]; exact rnd_nearest (rnd_fin_of_lt h)
  · rw [top_eq] at h
    rw [ieee_value, ieee_value] at heq hne
    rw [even_iff]
    exact (rnd_tie h hne heq).1
  · rintro rfl
    rw [sign_eq, ieee_value]
    exact ⟨by simp [rnd], rnd_val_zero s⟩

/-- ... and there is no other way to do it: the number, and a sign for zeros, determine the result. -/
theorem ieee_unique {q : ℚ} {a b : F32} (ha : Rounds q a) (hb : Rounds q b) (h0 : value a = 0 → sign a = sign b) : a = b := by
  rcases le_or_gt ((2 : ℚ) ^ 127 * (2 - 2 ^ (-24 : ℤ))) |q| with h | h
  · obtain ⟨ia, sa⟩ := ha.big h
    obtain ⟨ib, sb⟩ := hb.big h
    rw [(ieee_classes _).2.1, isInf_iff] at ia ib
    rw [sign_eq] at sa sb
    exact ext_neg_mag (sa.trans sb.symm) (ia.trans ib.symm)
  · have main : ∀ x, Rounds q x → value x = (rnd false q).val := by
      intro x hx
      by_contra hne
      have hr := (ieee_rounds false q).1
      have e : |value x - q| = |value (rnd false q) - q| :=
        le_antisymm (hx.near h _ (hr.fin h)) (hr.near h x (hx.fin h))
      have ev := hx.even h _ (hr.fin h) (by rw [ieee_value (rnd false q)]; exact Ne.symm hne) e.symm
      rw [ieee_value, ieee_value] at e
      rw [ieee_value] at hne
      have := (rnd_tie (top_eq ▸ h) hne e).2
      rw [even_iff] at ev
      omega
    have hv := (main a ha).trans (main b hb).symm
    rw [ieee_value, ieee_value] at hv
    by_cases hz : a.val = 0
    · refine ext_neg_mag ?_ (mag_eq_of_val_eq hv)
      rw [← sign_eq, ← sign_eq]; exact h0 (by rw [ieee_value, hz])
    · exact eq_of_val_eq hv hz

/-- Clauses 5.4.1 and 6.3: the four operations on finite numbers. The sum of opposite numbers is `+0`, the sum of zeros of one sign
keeps it; the sign of products and quotients is the exclusive or. -/
theorem ieee_ops {x y : F32} (hx : finite x) (hy : finite y) :
    Rounds (value x + value y) (x + y) ∧ Rounds (value x - value y) (x - y) ∧ Rounds (value x * value y) (x * y) ∧
    (value y ≠ 0 → Rounds (value x / value y) (x / y)) ∧
    (value x + value y = 0 → sign (x + y) = (sign x && sign y)) ∧ (value x - value y = 0 → sign (x - y) = (sign x && !sign y)) ∧
    sign (x * y) = (sign x ^^ sign y) ∧ (value y ≠ 0 → sign (x / y) = (sign x ^^ sign y)) := by
  rw [(ieee_classes _).1] at hx hy
  simp only [ieee_value, sign_eq]
  have key : ∀ q : ℚ, (q ≠ 0 → (decide (q < 0) = (x.neg != y.neg))) → (rnd (x.neg != y.neg) q).neg = (x.neg != y.neg) := by
    intro q h
    by_cases h0 : q = 0
    · subst h0; simp [rnd]
    · rw [← sign_eq, sign_rnd _ h0, h h0]
  have sg : ∀ {z : F32}, z.val ≠ 0 → z.neg = decide (z.val < 0) := by
    intro z hz
    rcases lt_or_gt_of_ne hz with h | h
    · rw [neg_of_val_neg h, decide_eq_true h]
    · rw [neg_of_val_pos h, decide_eq_false (not_lt.2 h.le)]
  refine ⟨?_, ?_, ?_, fun h0 => ?_, fun h0 => ?_, fun h0 => ?_, ?_, fun h0 => ?_⟩
  · rw [add_fin hx hy]; exact (ieee_rounds _ _).1
  · rw [sub_fin hx hy]; exact (ieee_rounds _ _).1
  · rw [mul_fin hx hy]; exact (ieee_rounds _ _).1
  · rw [div_fin hx hy h0]; exact (ieee_rounds _ _).1
  · rw [add_fin hx hy, h0]; simp [rnd]
  · rw [sub_fin hx hy, h0]; simp [rnd]
  · rw [mul_fin hx hy, key]
    intro h
    have hxy := mul_ne_zero_iff.1 h
    rw [sg hxy.1, sg hxy.2]
    rcases lt_or_gt_of_ne hxy.1 with a | a <;> rcases lt_or_gt_of_ne hxy.2 with b | b
    · simp [a, b, (mul_pos_of_neg_of_neg a b).le]
    · simp [a, b.le, mul_neg_of_neg_of_pos a b]
    · simp [a.le, b, mul_neg_of_pos_of_neg a b]
    · rw [decide_eq_false (not_lt.2 (mul_pos a b).le), decide_eq_false (not_lt.2 a.le), decide_eq_false (not_lt.2 b.le)]; rfl
  · rw [div_fin hx hy h0, key]
    intro h
    have hx0 : x.val ≠ 0 := by intro hh; rw [hh, zero_div] at h; exact h rfl
    rw [sg hx0, sg h0]
    rcases lt_or_gt_of_ne hx0 with a | a <;> rcases lt_or_gt_of_ne h0 with b | b
    · simp [a, b, (div_pos_of_neg_of_neg a b).le]
    · simp [a, b.le, div_neg_of_neg_of_pos a b]
    · simp [a.le, b, div_neg_of_pos_of_neg a b]
    · rw [decide_eq_false (not_lt.2 (div_pos a b).le), decide_eq_false (not_lt.2 a.le), decide_eq_false (not_lt.2 b.le)]; rfl

/-- Clause 7.2: exactly the invalid operations make a NaN of two words that are not NaN. Division by zero (7.3) makes an infinity. -/
theorem ieee_invalid {x y : F32} (hx : ¬ notANumber x) (hy : ¬ notANumber y) :
    (notANumber (x + y) ↔ infinite x ∧ infinite y ∧ sign x ≠ sign y) ∧ (notANumber (x - y) ↔ infinite x ∧ infinite y ∧ sign x = sign y) ∧
    (notANumber (x * y) ↔ infinite x ∧ value y = 0 ∨ value x = 0 ∧ infinite y) ∧
    (notANumber (x / y) ↔ infinite x ∧ infinite y ∨ value x = 0 ∧ value y = 0) ∧
    (finite x → value x ≠ 0 → value y = 0 → infinite (x / y) ∧ sign (x / y) = (sign x ^^ sign y)) := by
  simp only [(ieee_classes _).2.2, (ieee_classes _).2.1, (ieee_classes _).1, ieee_value, sign_eq, Bool.not_eq_true] at *
  have pinf : ∀ s, (pack s infMag).isNaN = false := by decide
  have pzero : ∀ s, (pack s 0).isNaN = false := by decide
  have pinf' : ∀ s, (pack s infMag).isInf = true := by decide
  have inf0 : ∀ {z : F32}, z.isInf = true → z.val ≠ 0 := by
    intro z h h0; rw [val_eq_zero] at h0; rw [isInf_iff, h0] at h; revert h; decide
  have add : ∀ {x y : F32}, x.isNaN = false → y.isNaN = false →
      ((F32.add x y).isNaN = true ↔ x.isInf = true ∧ y.isInf = true ∧ x.neg ≠ y.neg) := by
    intro x y hx hy
    unfold F32.add
    rw [hx, hy]
    cases hxi : x.isInf <;> cases hyi : y.isInf <;> cases hxn : x.neg <;> cases hyn : y.neg <;>
      simp [hx, hy, isNaN_nan, rnd_not_nan]
  refine ⟨add hx hy, ?_, ?_, ?_, ?_⟩
  · show (F32.sub x y).isNaN = true ↔ _
    unfold F32.sub
    rw [hx, hy]
    simp only [Bool.or_self, Bool.false_eq_true, if_false]
    rw [add hx (by simpa using hy), isInf_negate, neg_negate]
    cases x.neg <;> cases y.neg <;> simp
  · show (F32.mul x y).isNaN = true ↔ _
    unfold F32.mul
    rw [hx, hy]
    simp only [val_eq_zero]
    simp only [val_eq_zero, ne_eq] at inf0
    by_cases hx0 : x.mag = 0 <;> by_cases hy0 : y.mag = 0 <;> cases hxi : x.isInf <;> cases hyi : y.isInf <;>
      first
        | exact absurd hx0 (inf0 hxi)
        | exact absurd hy0 (inf0 hyi)
        | simp [hx0, hy0, isNaN_nan, rnd_not_nan, pinf]
  · show (F32.div x y).isNaN = true ↔ _
    unfold F32.div
    rw [hx, hy]
    simp only [val_eq_zero]
    simp only [val_eq_zero, ne_eq] at inf0
    by_cases hx0 : x.mag = 0 <;> by_cases hy0 : y.mag = 0 <;> cases hxi : x.isInf <;> cases hyi : y.isInf <;>
      first
        | exact absurd hx0 (inf0 hxi)
        | exact absurd hy0 (inf0 hyi)
        | simp [hx0, hy0, isNaN_nan, rnd_not_nan, pinf, pzero]
  · intro hf hx0 hy0
    have hyi : y.isInf = false := by by_contra h; exact inf0 (by simpa using h) hy0
    show (F32.div x y).isInf = true ∧ (F32.div x y).neg = _
    unfold F32.div
    rw [ne_eq, val_eq_zero] at hx0
    rw [val_eq_zero] at hy0
    simp [hx, hy, hyi, isFin.not_inf hf, hx0, hy0, pinf']

/-- Clause 5.11: comparisons. NaN is unordered, infinities are beyond every finite number, zeros of either sign are equal. -/
theorem ieee_compare (x y : F32) :
    (notANumber x ∨ notANumber y → lt x y = false ∧ le x y = false ∧ feq x y = false) ∧
    (finite x → finite y → (lt x y = true ↔ value x < value y) ∧ (le x y = true ↔ value x ≤ value y) ∧ (feq x y = true ↔ value x = value y)) ∧
    (finite x → infinite y → lt x y = !sign y ∧ le x y = !sign y ∧ lt y x = sign y ∧ le y x = sign y ∧ feq x y = false) ∧
    (infinite x → infinite y → lt x y = (sign x && !sign y) ∧ le x y = (sign x || !sign y) ∧ feq x y = (sign x == sign y)) := by
  simp only [(ieee_classes _).2.2, (ieee_classes _).2.1, (ieee_classes _).1, ieee_value, sign_eq]
  have infv : ∀ {z : F32}, z.isInf = true → z.isNaN = false ∧ z.val = if z.neg then -2 ^ 128 else 2 ^ 128 := by
    intro z h
    rw [isInf_iff] at h
    refine ⟨by rw [isNaN_false_iff, h], ?_⟩
    rw [val_eq, h, magVal_infMag]
  refine ⟨?_, fun hx hy => ?_, fun hx hy => ?_, fun hx hy => ?_⟩
  · rintro (h | h)
    · exact ⟨lt_nan_left h _, le_nan_left h _, feq_nan_left h _⟩
    · exact ⟨lt_nan_right h _, le_nan_right h _, feq_nan_right h _⟩
  · simp [lt, le, feq, isFin.not_nan hx, isFin.not_nan hy]
  · obtain ⟨hn, hv⟩ := infv hy
    have hm := abs_le.1 (fin_le_max hx)
    have h1 : x.val < 2 ^ 128 := lt_of_le_of_lt hm.2 (by norm_num)
    have h2 : -2 ^ 128 < x.val := lt_of_lt_of_le (by norm_num) hm.1
    simp only [lt, le, feq, isFin.not_nan hx, hn, hv]
    cases y.neg
    · simp [h1, h1.le, not_le.2 h1, not_lt.2 h1.le, h1.ne]
    · simp [h2, h2.le, not_le.2 h2, not_lt.2 h2.le, h2.ne']
  · obtain ⟨hn, hv⟩ := infv hx
    obtain ⟨hn', hv'⟩ := infv hy
    simp only [lt, le, feq, hn, hn', hv, hv']
    cases x.neg <;> cases y.neg <;> norm_num

/-- The tie between `2^24` and `2^24 + 2` goes to the even significand; above one half of the least float, up. -/
example : (rnd false (2 ^ 24 + 1)).val = 2 ^ 24 ∧ (rnd false (2 ^ 24 + 3)).val = 2 ^ 24 + 4 ∧ (rnd false (1 / 2 ^ 150)).val = 0 ∧
    (rnd false (3 / 2 ^ 150)).val = 1 / 2 ^ 148 ∧ rnd true (-(2 ^ 128 - 2 ^ 103)) = F32.negInf ∧ rnd true 0 = F32.negZero := by
  decide +kernel

end Verif
