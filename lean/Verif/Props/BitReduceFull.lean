import Verif.Props.Oscillators
import Verif.Props.Conversion

/-! # C157: the unchecked bit reducers, for every input and every depth

`bit_reduce` and `bit_reduce_exp` guard their unchecked forms, which are public as well. Here the unchecked forms are
described without the guards: all 256 depths, all floats, both kinds of build. -/

namespace Verif
open F32 Conversion BitReduction

namespace Unchecked

/-- The shift pair, whenever it does not panic: the amount counts modulo 32. -/
theorem shift_eq {checks : Bool} {n d : Nat} (hn : n < 2 ^ 32) (h : checks = false ∨ d < 32) :
    shiftBackForth checks n d = .ok (n / 2 ^ (d % 32) * 2 ^ (d % 32)) := by
  have hle : n / 2 ^ (d % 32) * 2 ^ (d % 32) < 2 ^ 32 := lt_of_le_of_lt (Nat.div_mul_le_self n _) hn
  by_cases hd : d < 32
  · rw [Nat.mod_eq_of_lt hd]; exact shiftBackForth_eq checks hn hd
  · have hc : checks = false := h.resolve_right hd
    subst hc
    simp only [shiftBackForth, U32.shr, U32.shl, if_neg hd, bind, Except.bind, Nat.mod_eq_of_lt hle, Bool.false_eq_true,
      if_false]

theorem shift_panics (n : Nat) {d : Nat} (hd : 32 ≤ d) : shiftBackForth true n d = .error .panic := by
  simp only [shiftBackForth, U32.shr, if_neg (Nat.not_lt.2 hd), bind, Except.bind, if_true]

theorem cast_lt (y : F32) : (F32.toIntSat 0 (2 ^ 32 - 1) y).toNat < 2 ^ 32 := by
  have := toIntSat_mem (lo := 0) (hi := 2 ^ 32 - 1) y (by omega) (by omega); omega

/-- The part of `bit_reduce_unchecked` that works on a magnitude. -/
def reduced (y : F32) (e : Nat) : F32 :=
  F32.ofInt (((F32.toIntSat 0 (2 ^ 32 - 1) (y * maxRange)).toNat / 2 ^ e * 2 ^ e : Nat) : Int) / maxRange

theorem unchecked_eq {checks : Bool} (x : F32) {d : Nat} (hd : d ≠ 0) (h : checks = false ∨ d < 32) :
    bitReduceUnchecked checks x d = .ok (if x.neg then -reduced (-x) (d % 32) else reduced x (d % 32)) := by
  unfold bitReduceUnchecked reduced
  rw [if_pos hd]
  simp only [isSignPositive, isSignNegative, shift_eq (cast_lt _) h, bind, Except.bind, pure, Except.pure]
  rcases x.neg with _ | _
  · simp only [Bool.not_false, if_true, Bool.false_eq_true, if_false]
  · simp only [Bool.not_true, Bool.false_eq_true, if_false, if_true]
    refine congrArg Except.ok ?_
    obtain ⟨f, -, -, -⟩ := ofInt_u32 (k := (F32.toIntSat 0 (2 ^ 32 - 1) (-x * maxRange)).toNat / 2 ^ (d % 32) * 2 ^ (d % 32))
      (lt_of_le_of_lt (Nat.div_mul_le_self _ _) (cast_lt _))
    have hm : maxRange.val ≠ 0 := by rw [maxRange_val]; norm_num
    rw [div_fin f maxRange_fin hm, div_fin (by rw [isFin_neg']; exact f) maxRange_fin hm, val_neg', neg_div, neg_neg',
      maxRange_pos]
    generalize (F32.ofInt _).val / maxRange.val = q
    generalize (F32.ofInt _).neg = s
    rw [← rnd_neg_bits]
    cases s <;> rfl

theorem reduced_neg (y : F32) (e : Nat) : (reduced y e).neg = false := by
  unfold reduced
  have hlt := lt_of_le_of_lt (Nat.div_mul_le_self (F32.toIntSat 0 (2 ^ 32 - 1) (y * maxRange)).toNat (2 ^ e)) (cast_lt _)
  generalize (F32.toIntSat 0 (2 ^ 32 - 1) (y * maxRange)).toNat / 2 ^ e * 2 ^ e = N at *
  obtain ⟨f, h0, -, -⟩ := ofInt_u32 hlt
  rw [div_fin f maxRange_fin (by rw [maxRange_val]; norm_num), maxRange_val, maxRange_pos]
  rcases h0.eq_or_lt with h | h
  · rw [← h, zero_div, rnd_zero, neg_pack]
    have : (F32.ofInt (N : Int)).neg = false := by
      unfold ofInt ofRat
      rcases Nat.eq_zero_or_pos N with h | h
      · subst h; decide
      · exact rnd_neg_of_nonneg (by exact_mod_cast h)
    rw [this]; rfl
  · exact rnd_neg_of_nonneg (by positivity)

theorem reduced_nan {y : F32} (hy : y.isNaN = true) (e : Nat) : (reduced y e).val = 0 := by
  unfold reduced
  rw [mul_nan_left hy, toIntSat_nan isNaN_nan]
  simp only [Int.toNat_zero, Nat.zero_div, Nat.zero_mul]
  decide +kernel

/-- Magnitudes below 2 are truncated with no rounding at all. -/
theorem reduced_small {y : F32} (h0 : 0 ≤ y.val) (h1 : y.val < 2) (d : Nat) :
    IsTrunc (2 ^ d / 2 ^ 31) y.val (reduced y d).val := by
  have hyf : y.isFin = true := fin_of_val (by rw [abs_of_nonneg h0]; exact lt_trans h1 (by norm_num))
  have hlt : y.val * 2 ^ 31 < 2 ^ 32 := by linarith
  have h0' : 0 ≤ y.val * 2 ^ 31 := by positivity
  have hrep : Rep (y.val * maxRange.val) := by
    rw [maxRange_val]
    exact rep_scale hyf 31 (by rw [abs_of_nonneg h0']; exact lt_trans hlt (by norm_num))
  obtain ⟨pf, pv⟩ := mul_exact hyf maxRange_fin hrep
  rw [maxRange_val] at pv
  unfold reduced
  generalize y * maxRange = p at *
  have hp0 : 0 ≤ p.val := by rw [pv]; exact h0'
  have hfl0 : 0 ≤ ⌊p.val⌋ := Int.floor_nonneg.2 hp0
  have hfl1 : ⌊p.val⌋ < 2 ^ 32 := by
    have : (⌊p.val⌋ : ℚ) < ((2 ^ 32 : Int) : ℚ) := by
      push_cast; rw [← pv] at hlt; exact (Int.floor_le _).trans_lt hlt
    exact_mod_cast this
  have hcast : (F32.toIntSat 0 (2 ^ 32 - 1) p).toNat = ⌊p.val⌋.toNat := by
    unfold toIntSat
    rw [isFin.not_nan pf, truncInt_nonneg hp0]
    simp only [Bool.false_eq_true, if_false]
    omega
  rw [hcast]
  have hN : ((⌊p.val⌋.toNat / 2 ^ d * 2 ^ d : Nat) : ℚ) = (⌊p.val / 2 ^ d⌋ : ℚ) * 2 ^ d := by
    have : ⌊p.val / 2 ^ d⌋ = ((⌊p.val⌋.toNat / 2 ^ d : Nat) : Int) := by
      have e := Int.floor_div_natCast p.val (2 ^ d)
      push_cast at e
      rw [e]; push_cast; rw [Int.toNat_of_nonneg hfl0]
    rw [this]; push_cast; rfl
  obtain ⟨m, e, hm, he, hme⟩ := grid_floor pf hp0 d
  have hq0 : 0 ≤ (⌊p.val / 2 ^ d⌋ : ℚ) := by exact_mod_cast Int.floor_nonneg.2 (by positivity)
  have hq1 : (⌊p.val / 2 ^ d⌋ : ℚ) * 2 ^ d ≤ p.val := by
    rw [← le_div_iff₀ (by positivity)]; exact Int.floor_le _
  have hq2 : p.val < (⌊p.val / 2 ^ d⌋ : ℚ) * 2 ^ d + 2 ^ d := by
    have := Int.lt_floor_add_one (p.val / 2 ^ d)
    rw [div_lt_iff₀ (by positivity)] at this; linarith
  have hb : (⌊p.val / 2 ^ d⌋ : ℚ) * 2 ^ d < 2 ^ 32 := hq1.trans_lt (by rw [pv]; exact hlt)
  have hq0' : 0 ≤ (⌊p.val / 2 ^ d⌋ : ℚ) * 2 ^ d := by positivity
  have hR : Rep ((⌊p.val / 2 ^ d⌋ : ℚ) * 2 ^ d) :=
    rep_of_zpow hm (by omega) hme (by rw [abs_of_nonneg hq0']; exact lt_trans hb (by norm_num))
  have hR2 : Rep ((⌊p.val / 2 ^ d⌋ : ℚ) * 2 ^ d / 2 ^ 31) := by
    refine rep_of_zpow (m := m) (e := e - 31) hm (by omega) ?_ ?_
    · rw [hme, zpow_sub₀ (by norm_num), mul_div_assoc]; norm_num
    · rw [abs_of_nonneg (by positivity), div_lt_iff₀ (by positivity)]
      exact lt_trans hb (by norm_num)
  have hofv : (F32.ofInt ((⌊p.val⌋.toNat / 2 ^ d * 2 ^ d : Nat) : Int)).val = (⌊p.val / 2 ^ d⌋ : ℚ) * 2 ^ d := by
    unfold ofInt
    rw [Int.cast_natCast, hN]; exact rep_ofRat_val hR
  have hoff : (F32.ofInt ((⌊p.val⌋.toNat / 2 ^ d * 2 ^ d : Nat) : Int)).isFin = true := by
    unfold ofInt
    rw [Int.cast_natCast, hN]; exact rep_ofRat_fin hR
  have hdiv := (div_exact hoff maxRange_fin (by rw [maxRange_val]; norm_num) (by rw [hofv, maxRange_val]; exact hR2)).2
  rw [hofv, maxRange_val] at hdiv
  rw [hdiv]
  refine ⟨⟨⌊p.val⌋.toNat / 2 ^ d, ?_⟩, ?_, ?_⟩
  · rw [← hN]; push_cast; ring
  · rw [div_le_iff₀ (by positivity), ← pv]; exact hq1
  · rw [← add_div, lt_div_iff₀ (by positivity), ← pv]; exact hq2

theorem sat_table : ∀ e < 32, (F32.ofInt (((2 ^ 32 - 1) / 2 ^ e * 2 ^ e : Nat) : Int) / maxRange).val =
    if e < 8 then (2:ℚ) else 2 - 2 ^ e / 2 ^ 31 := by decide +kernel

theorem rep_2_32 : Rep (2 ^ 32 : ℚ) := ⟨pack false 0x4F800000, by decide, by decide +kernel⟩

/-- Magnitudes of 2 and more, infinity included, saturate. -/
theorem reduced_large {y : F32} (hn : y.isNaN = false) (h1 : 2 ≤ y.val) {e : Nat} (he : e < 32) :
    (reduced y e).val = if e < 8 then (2:ℚ) else 2 - 2 ^ e / 2 ^ 31 := by
  have hpos : y.neg = false := by
    by_contra hc
    rw [Bool.not_eq_false] at hc
    rw [val_of_neg hc] at h1; linarith [magVal_nonneg y.mag]
  have hp : (y * maxRange).isNaN = false ∧ 2 ^ 32 ≤ (y * maxRange).val := by
    by_cases hf : y.isFin = true
    · rw [mul_fin hf maxRange_fin]
      refine ⟨rnd_not_nan _ _, ?_⟩
      refine rep_le_rnd (r := 2 ^ 32) rep_2_32 ?_
      rw [maxRange_val]; linarith
    · have hm : y.mag = infMag := by
        rw [isFin_iff] at hf; rw [isNaN_false_iff] at hn; omega
      have : y = inf := ext_neg_mag (by rw [hpos]; decide) (by rw [hm]; decide)
      subst this
      exact ⟨by decide +kernel, by decide +kernel⟩
  have hcast : (F32.toIntSat 0 (2 ^ 32 - 1) (y * maxRange)).toNat = 2 ^ 32 - 1 := by
    unfold toIntSat
    rw [hp.1, truncInt_nonneg (le_trans (by norm_num) hp.2)]
    have : (2 ^ 32 : Int) ≤ ⌊(y * maxRange).val⌋ := by
      rw [Int.le_floor]; push_cast; exact hp.2
    simp only [Bool.false_eq_true, if_false]
    omega
  unfold reduced
  rw [hcast]
  exact sat_table e he

end Unchecked
open Unchecked

/-- C157: `bit_reduce_unchecked` panics exactly when overflow checks are on and the depth is 32 or more. -/
theorem C157_panics (checks : Bool) (x : F32) (d : Nat) :
    (bitReduceUnchecked checks x d = .error .panic ↔ checks = true ∧ 32 ≤ d) ∧
    (bitReduceExpUnchecked checks x d = .error .panic ↔ checks = true ∧ 32 ≤ d) := by
  by_cases h0 : d = 0
  · subst h0; simp [bitReduceUnchecked, bitReduceExpUnchecked]
  by_cases hc : checks = true ∧ 32 ≤ d
  · obtain ⟨rfl, hd⟩ := hc
    refine ⟨iff_of_true ?_ ⟨rfl, hd⟩, iff_of_true ?_ ⟨rfl, hd⟩⟩
    · unfold bitReduceUnchecked
      rw [if_pos h0]
      simp only [isSignPositive, isSignNegative, shift_panics _ hd, bind, Except.bind]
      rcases x.neg <;> rfl
    · unfold bitReduceExpUnchecked
      rw [if_pos h0, toComponents_eq, ok_bind, shift_panics _ hd]; rfl
  · have h : checks = false ∨ d < 32 := by
      cases checks
      · exact .inl rfl
      · right; simpa using hc
    refine ⟨iff_of_false ?_ hc, iff_of_false ?_ hc⟩
    · rw [unchecked_eq x h0 h]; simp
    · have hm : x.mag % 2 ^ 23 < 2 ^ 23 := Nat.mod_lt _ (by norm_num)
      have hmb := mag_lt x
      unfold bitReduceExpUnchecked
      rw [if_pos h0, toComponents_eq, ok_bind, shift_eq (lt_trans hm (by norm_num)) h, ok_bind]
      unfold fromComponents
      rw [wordFromComponents_eq checks (k := ⟨x.neg, _, _⟩) (by simp only; omega)
        (lt_of_le_of_lt (Nat.div_mul_le_self _ _) hm), ok_bind]
      simp [pure, Except.pure]

/-- C157: depth 0 returns the input, bit for bit. -/
theorem C157_zero (checks : Bool) (x : F32) :
    bitReduceUnchecked checks x 0 = .ok x ∧ bitReduceExpUnchecked checks x 0 = .ok x := ⟨rfl, rfl⟩

/-- C157: what `bit_reduce_unchecked` returns, for every float and every depth at which it returns: the sign of the
input, and as magnitude the input's truncated to the grid of `depth mod 32` bits below 2, the largest grid point below
2 (rounded) from there on, and 0 for NaN. -/
theorem C157_bit_reduce {checks : Bool} (x : F32) {d : Nat} (hd : d ≠ 0) (h : checks = false ∨ d < 32) :
    ∃ r, bitReduceUnchecked checks x d = .ok r ∧ r.neg = x.neg ∧
      (x.isNaN = true → r.val = 0) ∧
      (x.isNaN = false → |x.val| < 2 → IsTrunc (2 ^ (d % 32) / 2 ^ 31) |x.val| |r.val|) ∧
      (x.isNaN = false → 2 ≤ |x.val| → |r.val| = if d % 32 < 8 then 2 else 2 - 2 ^ (d % 32) / 2 ^ 31) := by
  refine ⟨_, unchecked_eq x hd h, ?_⟩
  have he : d % 32 < 32 := Nat.mod_lt _ (by norm_num)
  generalize d % 32 = e at he
  have rn : ∀ y : F32, 0 ≤ (reduced y e).val := fun y => by
    rw [val_of_pos (reduced_neg y e)]; exact magVal_nonneg _
  rcases hn : x.neg with _ | _
  · have hv : 0 ≤ x.val := by rw [val_of_pos hn]; exact magVal_nonneg _
    simp only [Bool.false_eq_true, if_false]
    rw [abs_of_nonneg hv, abs_of_nonneg (rn x)]
    exact ⟨reduced_neg x e, fun h => reduced_nan h e, fun _ h => reduced_small hv h e, fun h1 h2 => reduced_large h1 h2 he⟩
  · have hv : 0 ≤ (-x).val := by rw [val_neg', val_of_neg hn]; linarith [magVal_nonneg x.mag]
    have hv1 : |x.val| = (-x).val := by rw [← abs_of_nonneg hv, val_neg', abs_neg]
    simp only [if_true]
    rw [hv1, val_neg' (reduced _ _), abs_neg, abs_of_nonneg (rn (-x)), neg_neg', reduced_neg]
    refine ⟨rfl, fun h => ?_, fun _ h => reduced_small hv h e, fun h1 h2 => reduced_large (by rw [isNaN_neg']; exact h1) h2 he⟩
    rw [reduced_nan (by rw [isNaN_neg']; exact h) e, neg_zero]

/-- C157: what `bit_reduce_exp_unchecked` returns at every depth at which it returns: the low `depth mod 32` bits of the
word are cleared, but never more than the 23 bits of the mantissa. -/
theorem C157_bit_reduce_exp {checks : Bool} (x : F32) {d : Nat} (h : checks = false ∨ d < 32) :
    ∃ r, bitReduceExpUnchecked checks x d = .ok r ∧
      ∀ i, r.bits.getLsbD i = (decide (min (d % 32) 23 ≤ i) && x.bits.getLsbD i) := by
  by_cases h0 : d = 0
  · subst h0; exact ⟨x, by simp [bitReduceExpUnchecked], fun i => by simp⟩
  obtain ⟨r, hr, hb⟩ := C44_bits checks x (d := min (d % 32) 23) (by omega)
  refine ⟨r, ?_, hb⟩
  rw [bitReduceExp_eq checks x (by omega)] at hr
  have hr' : pack x.neg (x.mag / 2 ^ min (d % 32) 23 * 2 ^ min (d % 32) 23) = r := by simpa using hr
  rw [← hr']
  have hb := mag_lt x
  have hm : x.mag % 2 ^ 23 < 2 ^ 23 := Nat.mod_lt _ (by norm_num)
  have hdiv : x.mag % 2 ^ 23 / 2 ^ (d % 32) * 2 ^ (d % 32) < 2 ^ 23 := lt_of_le_of_lt (Nat.div_mul_le_self _ _) hm
  have hsplit : x.mag / 2 ^ min (d % 32) 23 * 2 ^ min (d % 32) 23 =
      x.mag / 2 ^ 23 * 2 ^ 23 + x.mag % 2 ^ 23 / 2 ^ (d % 32) * 2 ^ (d % 32) := by
    rcases Nat.lt_or_ge 23 (d % 32) with hlt | hge
    · have hz : x.mag % 2 ^ 23 / 2 ^ (d % 32) = 0 :=
        Nat.div_eq_of_lt (lt_trans hm (Nat.pow_lt_pow_right (by norm_num) hlt))
      rw [hz, Nat.min_eq_right hlt.le]; omega
    · rw [Nat.min_eq_left hge]
      obtain ⟨e, he⟩ : ∃ e, 23 = d % 32 + e := ⟨23 - d % 32, by omega⟩
      generalize d % 32 = k at *
      have h23 : (2 : Nat) ^ 23 = 2 ^ k * 2 ^ e := by rw [← pow_add, ← he]
      have h1 : x.mag = 2 ^ k * (2 ^ e * (x.mag / 2 ^ 23)) + x.mag % 2 ^ 23 := by
        rw [← mul_assoc, ← h23]; exact (Nat.div_add_mod _ _).symm
      have h2 : x.mag / 2 ^ k = 2 ^ e * (x.mag / 2 ^ 23) + x.mag % 2 ^ 23 / 2 ^ k := by
        conv_lhs => rw [h1]
        rw [Nat.mul_add_div (by positivity)]
      rw [h2, add_mul, h23]; ring
  have fin := fromRawWord_pack (neg := x.neg) hsplit (by omega)
  unfold bitReduceExpUnchecked
  rw [if_pos h0, toComponents_eq, ok_bind, shift_eq (lt_trans hm (by norm_num)) h, ok_bind]
  unfold fromComponents
  rw [wordFromComponents_eq checks (k := ⟨x.neg, _, _⟩) (by simp only; omega) hdiv, ok_bind]
  exact congrArg (fun z => (Except.ok z : M F32)) fin

-- depth 61 acts like depth 29 in a release build and panics in a debug build; 3.0 saturates
example : bitReduceUnchecked false (lit (7/10)) 61 = .ok (lit (1/2)) ∧ bitReduceUnchecked true (lit (7/10)) 61 = .error .panic ∧
    bitReduceUnchecked true (lit 3) 31 = .ok (lit 1) ∧ bitReduceUnchecked true (lit (-3)) 4 = .ok (lit (-2)) ∧
    bitReduceExpUnchecked true ⟨0x40490fdb#32⟩ 31 = .ok (lit 2) := by decide +kernel

end Verif
