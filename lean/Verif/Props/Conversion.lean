import Verif.Spec.Bits

/-! # C38-C45: words, components and bit reduction -/

namespace Verif
open F32 Conversion BitReduction

/-! ## C38 -/

theorem zipIdx4 (b0 b1 b2 b3 : Nat) : [b0, b1, b2, b3].zipIdx = [(b0,0),(b1,1),(b2,2),(b3,3)] := rfl

theorem ok_bind {α β : Type} (a : α) (f : α → M β) : ((Except.ok a : M α) >>= f) = f a := rfl

theorem sumBytes {checks : Bool} {b0 b1 b2 b3 t0 t1 t2 t3 u0 u1 u2 u3 : Nat}
    (s0 : U32.shl checks b0 (8 * 0) = .ok t0) (s1 : U32.shl checks b1 (8 * 1) = .ok t1)
    (s2 : U32.shl checks b2 (8 * 2) = .ok t2) (s3 : U32.shl checks b3 (8 * 3) = .ok t3)
    (a0 : U32.add checks 0 t0 = .ok u0) (a1 : U32.add checks u0 t1 = .ok u1) (a2 : U32.add checks u1 t2 = .ok u2)
    (a3 : U32.add checks u2 t3 = .ok u3) :
    [b0, b1, b2, b3].zipIdx.foldlM
      (fun acc bi => do U32.add checks acc (← U32.shl checks bi.1 (8 * bi.2))) 0 = .ok u3 := by
  rw [zipIdx4, List.foldlM_cons, s0, ok_bind, a0, ok_bind, List.foldlM_cons, s1, ok_bind, a1, ok_bind, List.foldlM_cons, s2,
    ok_bind, a2, ok_bind, List.foldlM_cons, s3, ok_bind, a3, ok_bind, List.foldlM_nil]
  rfl

theorem shl_ok (checks : Bool) {a n r : Nat} (hn : n < 32) (h : a * 2 ^ n = r) (hr : r < 2 ^ 32) :
    U32.shl checks a n = .ok r := by
  unfold U32.shl
  rw [if_pos hn, h, Nat.mod_eq_of_lt hr]

theorem add_ok (checks : Bool) {a b r : Nat} (h : a + b = r) (hr : r < 2 ^ 32) : U32.add checks a b = .ok r := by
  subst h; exact if_pos hr

theorem toRawWord_eq (checks : Bool) (x : F32) : toRawWord checks x = .ok x.bits.toNat := by
  have hv := x.bits.isLt
  unfold toRawWord U32.toLeBytes
  generalize x.bits.toNat = v at *
  obtain ⟨b0, h0, e0⟩ : ∃ b, b < 256 ∧ v % 256 = b := ⟨_, by omega, rfl⟩
  obtain ⟨b1, h1, e1⟩ : ∃ b, b < 256 ∧ v / 256 % 256 = b := ⟨_, by omega, rfl⟩
  obtain ⟨b2, h2, e2⟩ : ∃ b, b < 256 ∧ v / 65536 % 256 = b := ⟨_, by omega, rfl⟩
  obtain ⟨b3, h3, e3⟩ : ∃ b, b < 256 ∧ v / 16777216 % 256 = b := ⟨_, by omega, rfl⟩
  rw [e0, e1, e2, e3]
  obtain ⟨t1, r1⟩ : ∃ t, t = b1 * 256 := ⟨_, rfl⟩
  obtain ⟨t2, r2⟩ : ∃ t, t = b2 * 65536 := ⟨_, rfl⟩
  obtain ⟨t3, r3⟩ : ∃ t, t = b3 * 16777216 := ⟨_, rfl⟩
  obtain ⟨u1, q1⟩ : ∃ u, u = b0 + t1 := ⟨_, rfl⟩
  obtain ⟨u2, q2⟩ : ∃ u, u = u1 + t2 := ⟨_, rfl⟩
  refine sumBytes (t0 := b0) (t1 := t1) (t2 := t2) (t3 := t3) (u0 := b0) (u1 := u1) (u2 := u2)
    (shl_ok checks (by norm_num) (by norm_num) (by omega)) (shl_ok checks (by norm_num) ?_ (by omega))
    (shl_ok checks (by norm_num) ?_ (by omega)) (shl_ok checks (by norm_num) ?_ (by omega)) (add_ok checks (by omega) (by omega))
    (add_ok checks (by omega) (by omega)) (add_ok checks (by omega) (by omega)) (add_ok checks (by omega) (by omega))
  · norm_num; omega
  · norm_num; omega
  · norm_num; omega

theorem fromRawWord_bits {v : Nat} (hv : v < 2 ^ 32) : (fromRawWord v).bits.toNat = v := by
  simp only [fromRawWord, U32.fromLeBytes, U32.toLeBytes, BitVec.toNat_ofNat, List.getD_cons_zero, List.getD_cons_succ]
  omega

/-- C38: float to word and back, every bit pattern (NaNs included); the loop never overflows. -/
theorem C38_float_word_float (checks : Bool) (x : F32) :
    ∃ w, toRawWord checks x = .ok w ∧ w = x.bits.toNat ∧ fromRawWord w = x := by
  refine ⟨_, toRawWord_eq checks x, rfl, ?_⟩
  apply F32.ext; apply BitVec.eq_of_toNat_eq
  exact fromRawWord_bits x.bits.isLt

/-- C38: word to float and back, every `u32`. -/
theorem C38_word_float_word (checks : Bool) {w : Nat} (hw : w < 2 ^ 32) :
    toRawWord checks (fromRawWord w) = .ok w := by
  rw [toRawWord_eq, fromRawWord_bits hw]

example : toRawWord true ⟨0x40490fdb#32⟩ = .ok 0x40490fdb := by decide

/-! ## C39 -/

theorem wordToComponents_eq {w : Nat} (hw : w < 2 ^ 32) :
    wordToComponents w = ⟨decide (2 ^ 31 ≤ w), w / 2 ^ 23 % 256, w % 2 ^ 23⟩ := by
  simp only [wordToComponents, fieldSign, fieldExp, fieldMant, field, Nat.shiftRight_eq_div_pow,
    Nat.and_two_pow_sub_one_eq_mod, F32Components.mk.injEq]
  refine ⟨?_, ?_, ?_⟩
  · by_cases h : 2 ^ 31 ≤ w
    · rw [decide_eq_true h]
      have : w / 2 ^ 31 % 2 ^ 1 = 1 := by omega
      rw [this]; rfl
    · rw [decide_eq_false h]
      have : w / 2 ^ 31 % 2 ^ 1 = 0 := by omega
      rw [this]; rfl
  · omega
  · omega

/-- The three shifts of `from_f32_components`, none of which loses anything. -/
theorem component_shifts (checks : Bool) {k : F32Components} (he : k.exponent < 256) (hm : k.mantissa < 2 ^ 32) :
    wordFromComponents checks k =
      U32.add checks ((if k.sign then 2 ^ 31 else 0) + k.exponent * 2 ^ 23) k.mantissa := by
  have s0 : U32.shl checks (if k.sign then 1 else 0) 31 = .ok (if k.sign then 2 ^ 31 else 0) :=
    shl_ok checks (by norm_num) (by split <;> norm_num) (by split <;> norm_num)
  have s1 : U32.shl checks k.exponent 23 = .ok (k.exponent * 2 ^ 23) := shl_ok checks (by norm_num) rfl (by omega)
  have s2 : U32.shl checks k.mantissa 0 = .ok k.mantissa := shl_ok checks (by norm_num) (by norm_num) hm
  have a0 : U32.add checks (if k.sign then 2 ^ 31 else 0) (k.exponent * 2 ^ 23)
      = .ok ((if k.sign then 2 ^ 31 else 0) + k.exponent * 2 ^ 23) := add_ok checks rfl (by split <;> omega)
  unfold wordFromComponents fieldSign fieldExp fieldMant field
  generalize (if k.sign then 2 ^ 31 else 0) + k.exponent * 2 ^ 23 = u at *
  generalize k.exponent * 2 ^ 23 = t at *
  generalize (if k.sign then 2 ^ 31 else 0) = t' at *
  rw [s0, ok_bind, s1, ok_bind, a0, ok_bind, s2, ok_bind]

theorem wordFromComponents_eq (checks : Bool) {k : F32Components} (he : k.exponent < 256) (hm : k.mantissa < 2 ^ 23) :
    wordFromComponents checks k = .ok ((if k.sign then 2 ^ 31 else 0) + k.exponent * 2 ^ 23 + k.mantissa) := by
  rw [component_shifts checks he (by omega)]
  exact add_ok checks rfl (by split <;> omega)

/-- C39: splitting a word and joining the parts gives the word back. -/
theorem C39_word_round_trip (checks : Bool) {w : Nat} (hw : w < 2 ^ 32) :
    wordFromComponents checks (wordToComponents w) = .ok w := by
  rw [wordToComponents_eq hw, wordFromComponents_eq checks (by simp only; omega) (by simp only; omega)]
  congr 1
  simp only
  by_cases h : 2 ^ 31 ≤ w
  · rw [decide_eq_true h, if_pos rfl]; omega
  · rw [decide_eq_false h]; simp only [Bool.false_eq_true, if_false]; omega

/-- C39: the same for floats, bit for bit, without panic. -/
theorem C39_float_round_trip (checks : Bool) (x : F32) :
    ∃ k, toComponents checks x = .ok k ∧ k.exponent < 256 ∧ k.mantissa < 2 ^ 23 ∧ fromComponents checks k = .ok x := by
  refine ⟨wordToComponents x.bits.toNat, ?_, ?_, ?_, ?_⟩
  · rw [toComponents, toRawWord_eq]; rfl
  · rw [wordToComponents_eq x.bits.isLt]; simp only; omega
  · rw [wordToComponents_eq x.bits.isLt]; simp only; omega
  · rw [fromComponents, C39_word_round_trip checks x.bits.isLt]
    simp only [bind, Except.bind, pure, Except.pure]
    congr 1
    apply F32.ext; apply BitVec.eq_of_toNat_eq
    exact fromRawWord_bits x.bits.isLt

/-- C39: joining components and splitting the result gives the components back. -/
theorem C39_components_round_trip (checks : Bool) {k : F32Components} (he : k.exponent < 256) (hm : k.mantissa < 2 ^ 23) :
    ∃ w x, wordFromComponents checks k = .ok w ∧ w < 2 ^ 32 ∧ wordToComponents w = k ∧
      fromComponents checks k = .ok x ∧ toComponents checks x = .ok k := by
  have hw : (if k.sign then 2 ^ 31 else 0) + k.exponent * 2 ^ 23 + k.mantissa < 2 ^ 32 := by split <;> omega
  have e := wordFromComponents_eq checks he hm
  have hk : wordToComponents ((if k.sign then 2 ^ 31 else 0) + k.exponent * 2 ^ 23 + k.mantissa) = k := by
    rw [wordToComponents_eq hw]
    obtain ⟨s, a, b⟩ := k
    simp only at he hm ⊢
    simp only [F32Components.mk.injEq]
    refine ⟨?_, ?_, ?_⟩
    · cases s
      · simp only [Bool.false_eq_true, if_false, decide_eq_false_iff_not]; omega
      · simp only [if_true, decide_eq_true_eq]; omega
    · split <;> omega
    · split <;> omega
  refine ⟨_, fromRawWord ((if k.sign then 2 ^ 31 else 0) + k.exponent * 2 ^ 23 + k.mantissa), e, hw, hk, ?_, ?_⟩
  · rw [fromComponents, e]; rfl
  · rw [toComponents, toRawWord_eq, fromRawWord_bits hw]
    simp only [bind, Except.bind, pure, Except.pure, hk]

example : (⟨true, 128, 4788187⟩ : F32Components).exponent < 256 ∧ (⟨true, 128, 4788187⟩ : F32Components).mantissa < 2 ^ 23 ∧
    fromComponents true ⟨true, 128, 4788187⟩ = .ok ⟨0xC0490fdb#32⟩ := by decide

/-! ## C40 -/

theorem toComponents_eq (checks : Bool) (x : F32) :
    toComponents checks x = .ok ⟨x.neg, x.mag / 2 ^ 23, x.mag % 2 ^ 23⟩ := by
  rw [toComponents, toRawWord_eq]
  simp only [bind, Except.bind, pure, Except.pure]
  rw [wordToComponents_eq x.bits.isLt, neg_iff]
  have hb := x.bits.isLt
  congr 2
  · unfold mag; omega
  · unfold mag; omega

theorem signed_congr (s : Bool) {a b : ℚ} (h : a = b) : (if s then -1 else 1) * a = if s then -b else b := by
  subst h; split <;> ring

/-- C40: the components of a finite float denote its value. -/
theorem C40_components_value (checks : Bool) {x : F32} (hx : x.isFin = true) :
    ∃ k, toComponents checks x = .ok k ∧ k.exponent < 255 ∧ ieeeValue k = x.val := by
  refine ⟨_, toComponents_eq checks x, ?_, ?_⟩
  · rw [isFin_iff] at hx; unfold infMag at hx; simp only; omega
  · rw [val_eq, ieeeValue]
    simp only
    have key : (if x.mag / 2 ^ 23 = 0 then ((x.mag % 2 ^ 23 : Nat) : ℚ) / 2 ^ 23 * (2:ℚ) ^ (-126 : Int)
        else (1 + ((x.mag % 2 ^ 23 : Nat) : ℚ) / 2 ^ 23) * (2:ℚ) ^ (((x.mag / 2 ^ 23 : Nat) : Int) - 127)) = magVal x.mag := by
      have hu : (2:ℚ) ^ 149 = 2 ^ 23 * 2 ^ 126 := by rw [← pow_add]
      unfold magVal magInt unit
      by_cases h : x.mag < 2 ^ 23
      · rw [if_pos (Nat.div_eq_of_lt h), if_pos h, Nat.mod_eq_of_lt h]
        rw [show ((-126 : Int)) = -((126 : Nat) : Int) by norm_num, zpow_neg, zpow_natCast, hu]
        field_simp
      · have h1 : x.mag / 2 ^ 23 ≠ 0 := by omega
        rw [if_neg h1, if_neg h]
        obtain ⟨e, he⟩ : ∃ e, x.mag / 2 ^ 23 = e + 1 := ⟨x.mag / 2 ^ 23 - 1, by omega⟩
        rw [he, Nat.add_sub_cancel]
        rw [show (((e + 1 : Nat) : Int) - 127) = (e : Int) - ((126 : Nat) : Int) by push_cast; ring,
          zpow_sub₀ (by norm_num), zpow_natCast, zpow_natCast, hu]
        push_cast
        field_simp
        norm_num
    exact signed_congr x.neg key

/-- C40's second half in full: an oversized mantissa is rejected, or the sign and exponent fields survive. -/
def OversizedMantissaHarmless : Prop :=
  ∀ (checks : Bool) (k : F32Components) (w : Nat), k.exponent < 256 → 2 ^ 23 ≤ k.mantissa → k.mantissa < 2 ^ 32 →
    wordFromComponents checks k = .ok w →
    (wordToComponents w).sign = k.sign ∧ (wordToComponents w).exponent = k.exponent

/-- C40's second half is false: a mantissa of exactly `2^23` silently bumps the exponent, in every build. -/
theorem C40_oversized_refuted : ¬ OversizedMantissaHarmless := by
  intro h
  have := h true ⟨false, 127, 2 ^ 23⟩ (128 * 2 ^ 23) (by decide) (by decide) (by decide) (by decide)
  exact absurd this.2 (by decide)

/-- What does happen, for every component triple: the plain sum, with a panic (or wrap) on overflow. -/
theorem C40_oversized_actual (checks : Bool) {k : F32Components} (he : k.exponent < 256) (hm : k.mantissa < 2 ^ 32) :
    let s := (if k.sign then 2 ^ 31 else 0) + k.exponent * 2 ^ 23 + k.mantissa
    wordFromComponents checks k = if s < 2 ^ 32 then .ok s else if checks then .error .panic else .ok (s % 2 ^ 32) := by
  rw [component_shifts checks he hm]
  rfl

example : (pack true 1).isFin = true ∧ ieeeValue ⟨true, 0, 1⟩ = -1 / 2 ^ 149 ∧ ieeeValue ⟨false, 128, 2 ^ 22⟩ = 3 := by
  refine ⟨by decide, ?_, ?_⟩ <;> norm_num [ieeeValue, zpow_neg]

/-! ## C41 -/

theorem maxRange_val : maxRange.val = 2 ^ 31 := by decide +kernel
theorem maxRange_fin : maxRange.isFin = true := by decide +kernel
theorem maxRange_pos : maxRange.neg = false := by decide +kernel

theorem shiftBackForth_eq (checks : Bool) {n d : Nat} (hn : n < 2 ^ 32) (hd : d < 32) :
    shiftBackForth checks n d = .ok (n / 2 ^ d * 2 ^ d) := by
  have h : n / 2 ^ d * 2 ^ d < 2 ^ 32 := lt_of_le_of_lt (Nat.div_mul_le_self n (2 ^ d)) hn
  simp only [shiftBackForth, U32.shr, U32.shl, if_pos hd, bind, Except.bind, Nat.mod_eq_of_lt h]

/-- The core of `bit_reduce` on the magnitude: scale, truncate, scale back, all exactly. -/
theorem bit_core (checks : Bool) {y : F32} (h0 : 0 ≤ y.val) (h1 : y.val ≤ 1) {d : Nat} (hd : d ≤ 30) :
    ∃ N : Nat, shiftBackForth checks (F32.toIntSat 0 (2 ^ 32 - 1) (y * maxRange)).toNat d = .ok N ∧
      (F32.ofInt N).isFin = true ∧ (F32.ofInt N).val = N ∧ Rep ((N : ℚ) / 2 ^ 31) ∧ Rep (-(N : ℚ) / 2 ^ 31) ∧
      IsTrunc (2 ^ d / 2 ^ 31) y.val ((N : ℚ) / 2 ^ 31) := by
  have hyf : y.isFin = true := fin_of_val (by rw [abs_of_nonneg h0]; exact lt_of_le_of_lt h1 (by norm_num))
  have hle : y.val * 2 ^ 31 ≤ 2 ^ 31 := by nlinarith
  have h0' : 0 ≤ y.val * 2 ^ 31 := by positivity
  have hrep : Rep (y.val * maxRange.val) := by
    rw [maxRange_val]
    exact rep_scale hyf 31 (by rw [abs_of_nonneg h0']; exact lt_of_le_of_lt hle (by norm_num))
  obtain ⟨pf, pv⟩ := mul_exact hyf maxRange_fin hrep
  rw [maxRange_val] at pv
  generalize y * maxRange = p at *
  have hp0 : 0 ≤ p.val := by rw [pv]; exact h0'
  have hfl0 : 0 ≤ ⌊p.val⌋ := Int.floor_nonneg.2 hp0
  have hfl1 : ⌊p.val⌋ ≤ 2 ^ 31 := by
    have : (⌊p.val⌋ : ℚ) ≤ ((2 ^ 31 : Int) : ℚ) := by push_cast; rw [← pv] at hle; exact (Int.floor_le _).trans hle
    exact_mod_cast this
  have hcast : (F32.toIntSat 0 (2 ^ 32 - 1) p).toNat = ⌊p.val⌋.toNat := by
    unfold toIntSat
    rw [isFin.not_nan pf, truncInt_nonneg hp0]
    simp only [Bool.false_eq_true, if_false]
    omega
  rw [hcast]
  refine ⟨⌊p.val⌋.toNat / 2 ^ d * 2 ^ d, shiftBackForth_eq checks (by omega) (by omega), ?_⟩
  have hN : ((⌊p.val⌋.toNat / 2 ^ d * 2 ^ d : Nat) : ℚ) = (⌊p.val / 2 ^ d⌋ : ℚ) * 2 ^ d := by
    have : ⌊p.val / 2 ^ d⌋ = ((⌊p.val⌋.toNat / 2 ^ d : Nat) : Int) := by
      have e := Int.floor_div_natCast p.val (2 ^ d)
      push_cast at e
      rw [e]; push_cast; rw [Int.toNat_of_nonneg hfl0]
    rw [this]; push_cast; rfl
  obtain ⟨m, e, hm, he, hme⟩ := grid_floor pf hp0 d
  have hq0 : 0 ≤ (⌊p.val / 2 ^ d⌋ : ℚ) := by exact_mod_cast Int.floor_nonneg.2 (by positivity)
  have hq1 : (⌊p.val / 2 ^ d⌋ : ℚ) * 2 ^ d ≤ p.val := by
    rw [← le_div_iff₀ (by positivity)]; exact Int.floor_le _
  have hq2 : p.val < (⌊p.val / 2 ^ d⌋ : ℚ) * 2 ^ d + 2 ^ d := by
    have := Int.lt_floor_add_one (p.val / 2 ^ d)
    rw [div_lt_iff₀ (by positivity)] at this; linarith
  have hb : (⌊p.val / 2 ^ d⌋ : ℚ) * 2 ^ d ≤ 2 ^ 31 := hq1.trans (by rw [pv]; exact hle)
  have hq0' : 0 ≤ (⌊p.val / 2 ^ d⌋ : ℚ) * 2 ^ d := by positivity
  have hR : Rep ((⌊p.val / 2 ^ d⌋ : ℚ) * 2 ^ d) :=
    rep_of_zpow hm (by omega) hme (by rw [abs_of_nonneg hq0']; exact lt_of_le_of_lt hb (by norm_num))
  have hR2 : Rep ((⌊p.val / 2 ^ d⌋ : ℚ) * 2 ^ d / 2 ^ 31) := by
    refine rep_of_zpow (m := m) (e := e - 31) hm (by omega) ?_ ?_
    · rw [hme, zpow_sub₀ (by norm_num), mul_div_assoc]; norm_num
    · rw [abs_of_nonneg (by positivity)]
      exact lt_of_le_of_lt ((div_le_one (by positivity)).2 hb) (by norm_num)
  have hofv : (F32.ofInt ((⌊p.val⌋.toNat / 2 ^ d * 2 ^ d : Nat) : Int)).val = ((⌊p.val⌋.toNat / 2 ^ d * 2 ^ d : Nat) : ℚ) := by
    unfold ofInt
    rw [Int.cast_natCast, hN]; exact rep_ofRat_val hR
  have hoff : (F32.ofInt ((⌊p.val⌋.toNat / 2 ^ d * 2 ^ d : Nat) : Int)).isFin = true := by
    unfold ofInt
    rw [Int.cast_natCast, hN]; exact rep_ofRat_fin hR
  refine ⟨hoff, hofv, by rw [hN]; exact hR2, by rw [hN, neg_div]; exact hR2.neg, ?_, ?_, ?_⟩
  · refine ⟨⌊p.val⌋.toNat / 2 ^ d, ?_⟩
    push_cast; ring
  · rw [hN, div_le_iff₀ (by positivity), ← pv]; exact hq1
  · rw [hN, ← add_div, lt_div_iff₀ (by positivity), ← pv]; exact hq2

/-- C41: the result has the sign of `x`, and its magnitude is `|x|` truncated to a multiple of `2^d / 2^31`, with no
rounding error. -/
theorem C41_bit_reduce (checks : Bool) {x : F32} (hx : |x.val| ≤ 1) {d : Nat} (hd : d ≤ 30) :
    ∃ r, bitReduce checks x d = .ok (.ok r) ∧ r.neg = x.neg ∧
      (if d = 0 then r = x else IsTrunc (2 ^ d / 2 ^ 31) |x.val| |r.val|) := by
  have hxf : x.isFin = true := fin_of_val (lt_of_le_of_lt hx (by norm_num))
  have hx' := abs_le.1 hx
  have c1 : F32.lt x (lit (-1)) = false := by
    rw [← Bool.not_eq_true, lt_iff, litm1_val]; rintro ⟨-, -, h⟩; linarith
  have c2 : F32.lt (lit 1) x = false := by
    rw [← Bool.not_eq_true, lt_iff, lit1_val]; rintro ⟨-, -, h⟩; linarith
  unfold bitReduce
  rw [if_neg (by omega), c1, c2]
  simp only [Bool.or_false, Bool.false_eq_true, if_false]
  unfold bitReduceUnchecked
  by_cases hd0 : d = 0
  · subst hd0
    exact ⟨x, rfl, rfl, rfl⟩
  rw [if_pos hd0]
  simp only [isSignPositive, isSignNegative, if_neg hd0]
  rcases Bool.eq_false_or_eq_true x.neg with hn | hn
  rotate_left
  · have hv : 0 ≤ x.val := by rw [val_of_pos hn]; exact magVal_nonneg _
    rw [abs_of_nonneg hv] at hx ⊢
    obtain ⟨N, e, nf, nv, r1, -, r2⟩ := bit_core checks hv hx hd
    simp only [hn, Bool.not_false, if_true, e, bind, Except.bind, pure, Except.pure]
    have hdiv := div_exact nf maxRange_fin (by rw [maxRange_val]; norm_num) (by rw [nv, maxRange_val]; exact r1)
    rw [nv, maxRange_val] at hdiv
    refine ⟨_, rfl, ?_, ?_⟩
    · rw [div_fin nf maxRange_fin (by rw [maxRange_val]; norm_num), nv, maxRange_val, maxRange_pos]
      have hneg : (F32.ofInt (N : Int)).neg = false := by
        unfold ofInt ofRat
        rcases Nat.eq_zero_or_pos N with h | h
        · subst h; decide
        · exact rnd_neg_of_nonneg (by exact_mod_cast h)
      rw [hneg]
      rcases Nat.eq_zero_or_pos N with h | h
      · subst h; simp [rnd_zero]
      · exact rnd_neg_of_nonneg (by have : (0:ℚ) < N := by exact_mod_cast h
                                    positivity)
    · rw [hdiv.2, abs_of_nonneg (by positivity)]; exact r2
  · have hv : 0 ≤ (-x).val := by rw [val_neg', val_of_neg hn]; linarith [magVal_nonneg x.mag]
    have hv1 : |x.val| = (-x).val := by rw [← abs_of_nonneg hv, val_neg', abs_neg]
    rw [hv1] at hx ⊢
    obtain ⟨N, e, nf, nv, -, r1, r2⟩ := bit_core checks hv hx hd
    simp only [hn, Bool.not_true, Bool.false_eq_true, if_false, if_true, e, bind, Except.bind, pure, Except.pure]
    have nf' : (-F32.ofInt (N : Int)).isFin = true := by rw [isFin_neg']; exact nf
    have nv' : (-F32.ofInt (N : Int)).val = -(N : ℚ) := by rw [val_neg', nv]
    have hdiv := div_exact nf' maxRange_fin (by rw [maxRange_val]; norm_num) (by rw [nv', maxRange_val]; exact r1)
    rw [nv', maxRange_val] at hdiv
    refine ⟨_, rfl, ?_, ?_⟩
    · rw [div_fin nf' maxRange_fin (by rw [maxRange_val]; norm_num), nv', maxRange_val, maxRange_pos]
      have hneg : (-F32.ofInt (N : Int)).neg = true := by
        rw [neg_neg']
        unfold ofInt ofRat
        rcases Nat.eq_zero_or_pos N with h | h
        · subst h; decide
        · rw [rnd_neg_of_nonneg (by exact_mod_cast h)]; rfl
      rw [hneg]
      rcases Nat.eq_zero_or_pos N with h | h
      · subst h; simp [rnd_zero]
      · exact rnd_neg_of_neg (by have : (0:ℚ) < N := by exact_mod_cast h
                                 rw [neg_div]; exact neg_neg_of_pos (by positivity))
    · rw [hdiv.2, neg_div, abs_neg, abs_of_nonneg (by positivity)]; exact r2

-- 0.7 reduced by 29 bits: multiples of 1/4
example : |(lit (7/10) : F32).val| ≤ 1 ∧ bitReduce true (lit (7/10)) 29 = .ok (.ok (lit (1/2))) ∧
    bitReduce true (lit (-7/10)) 29 = .ok (.ok (lit (-1/2))) := by
  refine ⟨?_, by decide +kernel, by decide +kernel⟩
  decide +kernel

/-! ## C42 -/

/-- Uniform form of C41: `r` is determined by `x` and `d`. -/
theorem bitReduce_form (checks : Bool) {x : F32} (hx : |x.val| ≤ 1) {d : Nat} (hd : d ≤ 30) {r : F32}
    (h : bitReduce checks x d = .ok (.ok r)) :
    r.neg = x.neg ∧ (d = 0 → r = x) ∧ (d ≠ 0 → IsTrunc (2 ^ d / 2 ^ 31) |x.val| |r.val|) := by
  obtain ⟨s, h1, h2, h3⟩ := C41_bit_reduce checks hx hd
  have : s = r := by rw [h] at h1; simpa using h1.symm
  subst this
  refine ⟨h2, fun h0 => by rwa [if_pos h0] at h3, fun h0 => by rwa [if_neg h0] at h3⟩

theorem step_pos (d : Nat) : (0:ℚ) < 2 ^ d / 2 ^ 31 := by positivity

theorem eq_of_neg_abs {x y : F32} (h1 : x.neg = y.neg) (h2 : |x.val| = |y.val|) : x = y := by
  refine ext_neg_mag h1 ?_
  rw [abs_val, abs_val] at h2; exact magVal_inj.1 h2

/-- C42: never amplifies, and moves by less than one step. -/
theorem C42_error (checks : Bool) {x : F32} (hx : |x.val| ≤ 1) {d : Nat} (hd : d ≤ 30) {r : F32}
    (h : bitReduce checks x d = .ok (.ok r)) : |r.val| ≤ |x.val| ∧ |r.val - x.val| < 2 ^ d / 2 ^ 31 := by
  obtain ⟨hn, h0, h1⟩ := bitReduce_form checks hx hd h
  by_cases hd0 : d = 0
  · rw [h0 hd0]; exact ⟨le_rfl, by rw [sub_self, abs_zero]; exact step_pos d⟩
  · obtain ⟨-, a, b⟩ := h1 hd0
    refine ⟨a, ?_⟩
    rw [abs_val, abs_val] at a b
    rw [val_eq, val_eq, hn]
    split <;> rw [abs_lt] <;> constructor <;> linarith [step_pos d]

/-- C42: idempotent, bit for bit. -/
theorem C42_idempotent (checks : Bool) {x : F32} (hx : |x.val| ≤ 1) {d : Nat} (hd : d ≤ 30) {r : F32}
    (h : bitReduce checks x d = .ok (.ok r)) : bitReduce checks r d = .ok (.ok r) := by
  obtain ⟨hn, h0, h1⟩ := bitReduce_form checks hx hd h
  have hr : |r.val| ≤ 1 := (C42_error checks hx hd h).1.trans hx
  obtain ⟨s, e, -, -⟩ := C41_bit_reduce checks hr hd
  obtain ⟨sn, s0, s1⟩ := bitReduce_form checks hr hd e
  rw [e]
  congr 2
  by_cases hd0 : d = 0
  · exact s0 hd0
  · refine eq_of_neg_abs sn (IsTrunc.unique (step_pos d) (s1 hd0) ⟨(h1 hd0).1, le_rfl, by linarith [step_pos d]⟩)

/-- C42: odd, bit for bit. -/
theorem C42_odd (checks : Bool) {x : F32} (hx : |x.val| ≤ 1) {d : Nat} (hd : d ≤ 30) {r : F32}
    (h : bitReduce checks x d = .ok (.ok r)) : bitReduce checks (-x) d = .ok (.ok (-r)) := by
  obtain ⟨hn, h0, h1⟩ := bitReduce_form checks hx hd h
  have hx' : |(-x).val| ≤ 1 := by rwa [val_neg', abs_neg]
  obtain ⟨s, e, -, -⟩ := C41_bit_reduce checks hx' hd
  obtain ⟨sn, s0, s1⟩ := bitReduce_form checks hx' hd e
  rw [e]
  congr 2
  by_cases hd0 : d = 0
  · rw [s0 hd0, h0 hd0]
  · refine eq_of_neg_abs (by rw [sn, neg_neg', neg_neg', hn]) ?_
    have := s1 hd0
    rw [val_neg', abs_neg] at this ⊢
    exact IsTrunc.unique (step_pos d) this (h1 hd0)

theorem IsTrunc.mono {step v w r s : ℚ} (hs : 0 < step) (hvw : v ≤ w) (h1 : IsTrunc step v r) (h2 : IsTrunc step w s) :
    r ≤ s := by
  obtain ⟨⟨n, hn⟩, h3, -⟩ := h1
  obtain ⟨⟨m, hm⟩, -, h6⟩ := h2
  by_contra hc
  have hlt : (m : ℚ) * step < n * step := by rw [← hm, ← hn]; exact not_le.1 hc
  have h7 : (m : ℚ) < n := lt_of_mul_lt_mul_right hlt hs.le
  have h8 : (m : ℚ) + 1 ≤ n := by exact_mod_cast h7
  have := mul_le_mul_of_nonneg_right h8 hs.le
  linarith

/-- C42: monotone. -/
theorem C42_monotone (checks : Bool) {x y : F32} (hx : |x.val| ≤ 1) (hy : |y.val| ≤ 1) (hxy : x.val ≤ y.val) {d : Nat}
    (hd : d ≤ 30) {r s : F32} (hr : bitReduce checks x d = .ok (.ok r)) (hs : bitReduce checks y d = .ok (.ok s)) :
    r.val ≤ s.val := by
  obtain ⟨rn, r0, r1⟩ := bitReduce_form checks hx hd hr
  obtain ⟨sn, s0, s1⟩ := bitReduce_form checks hy hd hs
  by_cases hd0 : d = 0
  · rw [r0 hd0, s0 hd0]; exact hxy
  have r1 := r1 hd0
  have s1 := s1 hd0
  rw [abs_val, abs_val] at r1 s1
  rw [val_eq, val_eq] at hxy
  rw [val_eq, val_eq, rn, sn]
  have p := magVal_nonneg
  rcases hxn : x.neg with _ | _ <;> rcases hyn : y.neg with _ | _ <;>
    simp only [hxn, hyn, Bool.false_eq_true, if_false, if_true] at hxy ⊢
  · exact IsTrunc.mono (step_pos d) hxy r1 s1
  · have := p x.mag; have := p y.mag
    have hx0 : magVal x.mag = 0 := by linarith
    have hy0 : magVal y.mag = 0 := by linarith
    have a := r1.2.1; have b := s1.2.1
    rw [hx0] at a; rw [hy0] at b
    linarith [p r.mag, p s.mag]
  · linarith [p r.mag, p s.mag]
  · have := IsTrunc.mono (step_pos d) (neg_le_neg_iff.1 hxy) s1 r1
    linarith

/-! ## C43 -/

theorem bitReduceUnchecked_ok (checks : Bool) (x : F32) {d : Nat} (hd : d ≤ 30) :
    ∃ r, bitReduceUnchecked checks x d = .ok r := by
  have hcast : ∀ y : F32, (F32.toIntSat 0 (2 ^ 32 - 1) y).toNat < 2 ^ 32 := by
    intro y; have := toIntSat_mem (lo := 0) (hi := 2 ^ 32 - 1) y (by omega) (by omega); omega
  unfold bitReduceUnchecked
  simp only [shiftBackForth_eq checks (hcast _) (by omega : d < 32), bind, Except.bind, pure, Except.pure]
  split
  · split
    · exact ⟨_, rfl⟩
    · split
      · exact ⟨_, rfl⟩
      · exact ⟨_, rfl⟩
  · exact ⟨_, rfl⟩

/-- C43: exactly which error, for every input and depth; never a panic. -/
theorem C43_errors_partial (checks : Bool) (x : F32) (d : Nat) :
    (bitReduce checks x d = .ok (.error .overBitReduction) ↔ 30 < d) ∧
    (bitReduce checks x d = .ok (.error .inputExceedsRange) ↔
      d ≤ 30 ∧ x.isNaN = false ∧ (x.val < -1 ∨ 1 < x.val)) ∧
    ((∃ r, bitReduce checks x d = .ok (.ok r)) ↔ d ≤ 30 ∧ (x.isNaN = true ∨ (-1 ≤ x.val ∧ x.val ≤ 1))) := by
  have c1 : F32.lt x (lit (-1)) = true ↔ x.isNaN = false ∧ x.val < -1 := by
    rw [lt_iff, litm1_val]; simp [lit_not_nan]
  have c2 : F32.lt (lit 1) x = true ↔ x.isNaN = false ∧ 1 < x.val := by
    rw [lt_iff, lit1_val]; simp [lit_not_nan]
  unfold bitReduce
  by_cases hd : 30 < d
  · rw [if_pos hd]
    refine ⟨by simp [hd], ?_, ?_⟩
    · simp; omega
    · simp; omega
  rw [if_neg hd]
  by_cases hc : (F32.lt x (lit (-1)) || F32.lt (lit 1) x) = true
  · rw [if_pos hc]
    rw [Bool.or_eq_true, c1, c2] at hc
    refine ⟨by simp [hd], ?_, ?_⟩
    · simp only [true_iff]
      exact ⟨by omega, hc.elim (·.1) (·.1), hc.elim (fun h => Or.inl h.2) (fun h => Or.inr h.2)⟩
    · simp only [Except.ok.injEq, reduceCtorEq, exists_false, false_iff, not_and, not_or]
      intro _
      constructor
      · rw [Bool.not_eq_true]; exact hc.elim (·.1) (·.1)
      · intro h1 h2; rcases hc with h | h <;> linarith [h.2]
  · rw [if_neg hc]
    rw [Bool.or_eq_true, c1, c2] at hc
    obtain ⟨r, hr⟩ := bitReduceUnchecked_ok checks x (d := d) (by omega)
    simp only [hr, bind, Except.bind, pure, Except.pure]
    refine ⟨by simp [hd], ?_, ?_⟩
    · simp only [Except.ok.injEq, reduceCtorEq, false_iff, not_and]
      intro _ h1 h2
      exact hc (h2.elim (fun h => Or.inl ⟨h1, h⟩) (fun h => Or.inr ⟨h1, h⟩))
    · simp only [Except.ok.injEq, exists_eq', true_iff]
      refine ⟨by omega, ?_⟩
      rcases hn : x.isNaN with _ | _
      · right
        constructor
        · by_contra h; exact hc (Or.inl ⟨hn, by linarith⟩)
        · by_contra h; exact hc (Or.inr ⟨hn, by linarith⟩)
      · left; rfl

/-- The last sentence of C43 in full. -/
def BitReduceKeepsNaN : Prop :=
  ∀ (checks : Bool) (x : F32) (d : Nat) (r : F32), x.isNaN = true → bitReduce checks x d = .ok (.ok r) → r.isNaN = true

/-- What happens: every NaN becomes zero, at every depth except 0. -/
theorem C43_nan_actual (checks : Bool) {x : F32} (hx : x.isNaN = true) {d : Nat} (hd0 : d ≠ 0) (hd : d ≤ 30) :
    ∃ r, bitReduce checks x d = .ok (.ok r) ∧ r.val = 0 ∧ r.isNaN = false := by
  have n1 : F32.toIntSat 0 (2 ^ 32 - 1) (x * maxRange) = 0 := by
    rw [mul_nan_left hx]; exact toIntSat_nan isNaN_nan
  have n2 : F32.toIntSat 0 (2 ^ 32 - 1) (-x * maxRange) = 0 := by
    rw [mul_nan_left (by rw [isNaN_neg']; exact hx)]; exact toIntSat_nan isNaN_nan
  unfold bitReduce
  rw [if_neg (by omega), lt_nan_left hx, lt_nan_right hx]
  simp only [Bool.or_false, Bool.false_eq_true, if_false]
  unfold bitReduceUnchecked
  rw [if_pos hd0, n1, n2]
  simp only [shiftBackForth_eq checks (show Int.toNat 0 < 2 ^ 32 by simp) (show d < 32 by omega)]
  simp only [Int.toNat_zero, Nat.zero_div, Nat.zero_mul, bind, Except.bind, pure, Except.pure, isSignPositive,
    isSignNegative]
  rcases x.neg with _ | _
  · exact ⟨_, rfl, by decide +kernel, by decide +kernel⟩
  · exact ⟨_, rfl, by decide +kernel, by decide +kernel⟩

theorem C43_nan_refuted : ¬ BitReduceKeepsNaN := by
  intro h
  obtain ⟨r, h1, -, h2⟩ := C43_nan_actual true isNaN_nan (d := 8) (by omega) (by omega)
  rw [h true nan 8 r isNaN_nan h1] at h2; exact absurd h2 (by decide)

/-! ## C44 -/

theorem fromRawWord_pack {neg : Bool} {a b c : Nat} (h : c = a + b) (hc : a + b < 2 ^ 31) :
    fromRawWord ((if neg then 2 ^ 31 else 0) + a + b) = pack neg c := by
  subst h
  apply F32.ext; apply BitVec.eq_of_toNat_eq
  rw [fromRawWord_bits (by split <;> omega)]
  unfold pack
  simp only [BitVec.toNat_ofNat]
  split <;> omega

theorem bitReduceExp_eq (checks : Bool) (x : F32) {d : Nat} (hd : d ≤ 23) :
    bitReduceExp checks x d = .ok (.ok (pack x.neg (x.mag / 2 ^ d * 2 ^ d))) := by
  unfold bitReduceExp
  rw [if_neg (by omega)]
  unfold bitReduceExpUnchecked
  by_cases h0 : d = 0
  · subst h0; simp [bind, Except.bind, pure, Except.pure]
  rw [if_pos h0]
  have hb := mag_lt x
  have hdiv : x.mag % 2 ^ 23 / 2 ^ d * 2 ^ d < 2 ^ 23 :=
    lt_of_le_of_lt (Nat.div_mul_le_self _ _) (Nat.mod_lt _ (by norm_num))
  have hsplit : x.mag / 2 ^ d * 2 ^ d = x.mag / 2 ^ 23 * 2 ^ 23 + x.mag % 2 ^ 23 / 2 ^ d * 2 ^ d := by
    obtain ⟨e, he⟩ : ∃ e, 23 = d + e := ⟨23 - d, by omega⟩
    have h23 : (2 : Nat) ^ 23 = 2 ^ d * 2 ^ e := by rw [← pow_add, ← he]
    have h1 : x.mag = 2 ^ d * (2 ^ e * (x.mag / 2 ^ 23)) + x.mag % 2 ^ 23 := by
      rw [← mul_assoc, ← h23]; exact (Nat.div_add_mod _ _).symm
    have h2 : x.mag / 2 ^ d = 2 ^ e * (x.mag / 2 ^ 23) + x.mag % 2 ^ 23 / 2 ^ d := by
      conv_lhs => rw [h1]
      rw [Nat.mul_add_div (by positivity)]
    rw [h2, add_mul, h23]; ring
  have hm : x.mag % 2 ^ 23 < 2 ^ 32 := lt_trans (Nat.mod_lt _ (by norm_num)) (by norm_num)
  have he : x.mag / 2 ^ 23 < 256 := by omega
  have hs : x.mag / 2 ^ 23 * 2 ^ 23 + x.mag % 2 ^ 23 / 2 ^ d * 2 ^ d < 2 ^ 31 := by omega
  have fin := fromRawWord_pack (neg := x.neg) hsplit hs
  rw [toComponents_eq, ok_bind, shiftBackForth_eq checks hm (by omega), ok_bind]
  generalize x.mag % 2 ^ 23 / 2 ^ d * 2 ^ d = m at hdiv fin ⊢
  generalize x.mag / 2 ^ 23 = e at he fin ⊢
  unfold fromComponents
  rw [wordFromComponents_eq checks (k := ⟨x.neg, e, m⟩) he hdiv, ok_bind]
  exact congrArg (fun z => (Except.ok (Except.ok z) : M (Except BitReductionError F32))) fin

/-- C44: sign and exponent are kept and exactly the low `d` bits of the word are cleared. -/
theorem C44_bits (checks : Bool) (x : F32) {d : Nat} (hd : d ≤ 23) :
    ∃ r, bitReduceExp checks x d = .ok (.ok r) ∧ ∀ i, r.bits.getLsbD i = (decide (d ≤ i) && x.bits.getLsbD i) := by
  refine ⟨_, bitReduceExp_eq checks x hd, fun i => ?_⟩
  have hbits : (pack x.neg (x.mag / 2 ^ d * 2 ^ d)).bits = BitVec.ofNat 32 (x.bits.toNat / 2 ^ d * 2 ^ d) := by
    unfold pack
    simp only
    congr 1
    rw [bits_toNat x]
    have hm := mag_lt x
    have h2 : x.mag / 2 ^ d * 2 ^ d < 2 ^ 31 := lt_of_le_of_lt (Nat.div_mul_le_self _ _) hm
    rw [Nat.mod_eq_of_lt h2]
    split
    · obtain ⟨e, he⟩ : ∃ e, 31 = d + e := ⟨31 - d, by omega⟩
      have h31 : (2 : Nat) ^ 31 = 2 ^ d * 2 ^ e := by rw [← pow_add, ← he]
      rw [h31, Nat.mul_add_div (by positivity)]; ring
    · simp
  rw [hbits, BitVec.getLsbD_ofNat, ← Nat.shiftRight_eq_div_pow, ← Nat.shiftLeft_eq, Nat.testBit_shiftLeft,
    Nat.testBit_shiftRight]
  rcases Nat.lt_or_ge i 32 with hi | hi
  · rcases Nat.lt_or_ge i d with hid | hid
    · simp [Nat.not_le.2 hid]
    · rw [show d + (i - d) = i by omega]
      simp [hi, hid, BitVec.getLsbD]
  · rw [BitVec.getLsbD_of_ge _ _ hi]; simp [Nat.not_lt.2 hi]

/-- C44: too large a depth is an error. -/
theorem C44_over (checks : Bool) (x : F32) {d : Nat} (hd : 23 < d) :
    bitReduceExp checks x d = .ok (.error .overBitReduction) := by
  unfold bitReduceExp; rw [if_pos hd]

/-- C44: never amplifies; idempotent; the sign is kept. -/
theorem C44_shrinks (checks : Bool) (x : F32) {d : Nat} (hd : d ≤ 23) :
    ∃ r, bitReduceExp checks x d = .ok (.ok r) ∧ r.neg = x.neg ∧ |r.val| ≤ |x.val| ∧
      bitReduceExp checks r d = .ok (.ok r) := by
  have h2 : x.mag / 2 ^ d * 2 ^ d < 2 ^ 31 := lt_of_le_of_lt (Nat.div_mul_le_self _ _) (mag_lt x)
  refine ⟨_, bitReduceExp_eq checks x hd, neg_pack _ _, ?_, ?_⟩
  · rw [abs_val, abs_val, mag_pack_of_lt h2, magVal_le]; exact Nat.div_mul_le_self _ _
  · rw [bitReduceExp_eq checks _ hd, neg_pack, mag_pack_of_lt h2, Nat.mul_div_cancel _ (by positivity)]

/-- C44: the relative error on normal numbers. -/
theorem C44_relative_error (checks : Bool) {x : F32} (hn : 1 / 2 ^ 126 ≤ |x.val|) {d : Nat}
    (hd : d ≤ 23) :
    ∃ r, bitReduceExp checks x d = .ok (.ok r) ∧ |x.val - r.val| < 2 ^ d / 2 ^ 23 * |x.val| := by
  have h2 : x.mag / 2 ^ d * 2 ^ d < 2 ^ 31 := lt_of_le_of_lt (Nat.div_mul_le_self _ _) (mag_lt x)
  refine ⟨_, bitReduceExp_eq checks x hd, ?_⟩
  have hnorm : 2 ^ 23 ≤ x.mag := by
    have h1 : magVal (2 ^ 23) = 1 / 2 ^ 126 := by
      unfold magVal magInt unit; norm_num
    rw [abs_val, ← h1, magVal_le] at hn; exact hn
  have hmag : (pack x.neg (x.mag / 2 ^ d * 2 ^ d)).mag = x.mag / 2 ^ d * 2 ^ d := mag_pack_of_lt h2
  set n := x.mag / 2 ^ d * 2 ^ d with hndef
  have hexp : n / 2 ^ 23 = x.mag / 2 ^ 23 ∧ x.mag - n < 2 ^ d ∧ n ≤ x.mag := by
    have h3 := Nat.div_add_mod x.mag (2 ^ d)
    have h4 := Nat.mod_lt x.mag (show 0 < 2 ^ d by positivity)
    have h5 : n = 2 ^ d * (x.mag / 2 ^ d) := by rw [hndef]; ring
    refine ⟨?_, by omega, by omega⟩
    obtain ⟨e, he⟩ : ∃ e, 23 = d + e := ⟨23 - d, by omega⟩
    rw [he, pow_add, ← Nat.div_div_eq_div_mul, ← Nat.div_div_eq_div_mul, h5, Nat.mul_div_cancel_left _ (by positivity)]
  obtain ⟨e1, e2, e3⟩ := hexp
  have hn2 : 2 ^ 23 ≤ n := by omega
  have hmodn : x.mag % 2 ^ 23 = n % 2 ^ 23 + (x.mag - n) := by omega
  have hdiff : magInt x.mag = magInt n + (x.mag - n) * 2 ^ (x.mag / 2 ^ 23 - 1) := by
    unfold magInt
    rw [if_neg (by omega), if_neg (by omega), hmodn, e1]; ring
  have hlow : 2 ^ 23 * 2 ^ (x.mag / 2 ^ 23 - 1) ≤ magInt x.mag := by
    unfold magInt; rw [if_neg (by omega)]; exact Nat.mul_le_mul_right _ (by omega)
  have hstrict : (x.mag - n) * 2 ^ (x.mag / 2 ^ 23 - 1) < 2 ^ d * 2 ^ (x.mag / 2 ^ 23 - 1) :=
    Nat.mul_lt_mul_of_pos_right e2 (by positivity)
  have hq : magVal x.mag - magVal n < 2 ^ d / 2 ^ 23 * magVal x.mag := by
    have a : ((magInt x.mag : ℚ) - magInt n) * 2 ^ 23 < 2 ^ d * magInt x.mag := by
      have h6 : (magInt x.mag - magInt n) * 2 ^ 23 < 2 ^ d * magInt x.mag := by
        have : magInt x.mag - magInt n = (x.mag - n) * 2 ^ (x.mag / 2 ^ 23 - 1) := by omega
        rw [this]
        calc (x.mag - n) * 2 ^ (x.mag / 2 ^ 23 - 1) * 2 ^ 23 < 2 ^ d * 2 ^ (x.mag / 2 ^ 23 - 1) * 2 ^ 23 :=
              Nat.mul_lt_mul_of_pos_right hstrict (by positivity)
          _ = 2 ^ d * (2 ^ 23 * 2 ^ (x.mag / 2 ^ 23 - 1)) := by ring
          _ ≤ _ := Nat.mul_le_mul_left _ hlow
      have h7 : ((magInt x.mag - magInt n : Nat) : ℚ) = (magInt x.mag : ℚ) - magInt n := by
        rw [Nat.cast_sub (magInt_le.2 e3)]
      rw [← h7]; exact_mod_cast h6
    unfold magVal
    rw [← sub_div, div_mul_div_comm, div_lt_div_iff₀ unit_pos (by have := unit_pos; positivity)]
    have := mul_lt_mul_of_pos_right a unit_pos
    linarith
  have hle : magVal n ≤ magVal x.mag := magVal_le.2 e3
  rw [abs_val, val_eq, val_eq, neg_pack, hmag]
  split
  · rw [abs_of_nonpos (by linarith)]; linarith
  · rw [abs_of_nonneg (by linarith)]; exact hq

example : bitReduceExp true ⟨0x40490fdb#32⟩ 4 = .ok (.ok ⟨0x40490fd0#32⟩) ∧ (⟨0x40490fdb#32⟩ : F32).isFin = true ∧
    1 / 2 ^ 126 ≤ |(⟨0x40490fdb#32⟩ : F32).val| := by
  refine ⟨by decide, by decide, by decide +kernel⟩

/-! ## C45 -/

/-- C45 in full. -/
def BitReduceExpKeepsClass : Prop :=
  ∀ (checks : Bool) (x : F32) (d : Nat) (r : F32), d ≤ 23 → bitReduceExp checks x d = .ok (.ok r) →
    (x.isNaN = true → r.isNaN = true) ∧ (x.isInf = true → r = x) ∧ (x.isFin = true → r.isFin = true)

/-- C45 is false: at depth 23 the default NaN turns into infinity. -/
theorem C45_class_refuted : ¬ BitReduceExpKeepsClass := by
  intro h
  have h1 : bitReduceExp true nan 23 = .ok (.ok inf) := by decide
  exact absurd ((h true nan 23 inf (by omega) h1).1 isNaN_nan) (by decide)

/-- What holds: infinities and finite numbers keep their class; a NaN stays one exactly when its payload has a bit at or
above position `d`. -/
theorem C45_class_partial (checks : Bool) (x : F32) {d : Nat} (hd : d ≤ 23) :
    ∃ r, bitReduceExp checks x d = .ok (.ok r) ∧ (x.isInf = true → r = x) ∧ (x.isFin = true → r.isFin = true) ∧
      (x.isNaN = true → (r.isNaN = true ↔ 2 ^ d ≤ x.mag % 2 ^ 23)) := by
  have h2 : x.mag / 2 ^ d * 2 ^ d < 2 ^ 31 := lt_of_le_of_lt (Nat.div_mul_le_self _ _) (mag_lt x)
  have hle := Nat.div_mul_le_self x.mag (2 ^ d)
  obtain ⟨e, he⟩ : ∃ e, 23 = d + e := ⟨23 - d, by omega⟩
  have h23 : (2 : Nat) ^ 23 = 2 ^ d * 2 ^ e := by rw [← pow_add, ← he]
  have hinf : infMag = 255 * 2 ^ e * 2 ^ d := by
    have : infMag = 255 * 2 ^ 23 := by decide
    rw [this, h23]; ring
  refine ⟨_, bitReduceExp_eq checks x hd, fun h => ?_, fun h => ?_, fun h => ?_⟩
  · rw [isInf_iff] at h
    apply ext_neg_mag (neg_pack _ _)
    rw [mag_pack_of_lt h2, h, hinf, Nat.mul_div_cancel _ (by positivity)]
  · rw [isFin_iff] at h ⊢
    rw [mag_pack_of_lt h2]; omega
  · rw [isNaN_iff] at h
    rw [isNaN_iff, mag_pack_of_lt h2]
    have hm := mag_lt x
    have hx : x.mag = infMag + x.mag % 2 ^ 23 := by
      have : infMag = 255 * 2 ^ 23 := by decide
      omega
    have hdiv : x.mag / 2 ^ d * 2 ^ d = infMag + x.mag % 2 ^ 23 / 2 ^ d * 2 ^ d := by
      conv_lhs => rw [hx]
      rw [hinf, mul_comm (255 * 2 ^ e) (2 ^ d), Nat.mul_add_div (by positivity)]; ring
    rw [hdiv]
    constructor
    · intro h3
      by_contra hc
      rw [Nat.div_eq_of_lt (by omega)] at h3; omega
    · intro h3
      have : 1 ≤ x.mag % 2 ^ 23 / 2 ^ d := (Nat.one_le_div_iff (by positivity)).2 h3
      have : 0 < x.mag % 2 ^ 23 / 2 ^ d * 2 ^ d := by positivity
      omega

end Verif
