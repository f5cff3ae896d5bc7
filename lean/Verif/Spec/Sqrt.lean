import Verif.F32.More

/-! # Contracts of the square root, and the implementation they are made for

micromath's `sqrt` is an approximation on the bits. The contracts are loose enough for it: below the least normal float
(zero included, where it returns about 2^-64) they only ask for something small. -/

namespace Verif
open F32

/-- A square root whose square is off by at most the share `ε`, small for subnormal arguments. -/
def SqrtWithin (ε : ℚ) (sqrt : F32 → F32) : Prop :=
  ∀ x : F32, x.isFin = true → x.neg = false → (sqrt x).isFin = true ∧ 0 ≤ (sqrt x).val ∧
    (1 / 2 ^ 126 ≤ x.val → |(sqrt x).val ^ 2 - x.val| ≤ ε * x.val) ∧
    (x.val ≤ 1 / 2 ^ 126 → (sqrt x).val ^ 2 ≤ 1 / 2 ^ 100)

/-- What the float filter designs need of micromath's `sqrt`: within a factor of two (its documentation says about five
per cent) for normal floats. -/
def SqrtRough (sqrt : F32 → F32) : Prop :=
  ∀ x, x.isFin = true → 1 / 2 ^ 126 ≤ x.val →
    (sqrt x).isFin = true ∧ 0 ≤ (sqrt x).val ∧ x.val ≤ 4 * (sqrt x).val ^ 2 ∧ (sqrt x).val ^ 2 ≤ 4 * x.val

theorem SqrtWithin.rough {sqrt : F32 → F32} {ε : ℚ} (h : SqrtWithin ε sqrt) (hε : ε ≤ 3 / 4) : SqrtRough sqrt := by
  intro x hx h0
  have hp : 0 < x.val := lt_of_lt_of_le (by positivity) h0
  obtain ⟨a, b, c, -⟩ := h x hx (neg_of_val_pos hp)
  obtain ⟨c1, c2⟩ := abs_le.1 (c h0)
  have : ε * x.val ≤ 3 / 4 * x.val := mul_le_mul_of_nonneg_right hε hp.le
  exact ⟨a, b, by linarith, by linarith⟩

/-- micromath's `sqrt` (2.0, from memory) on numbers that are not negative: half the bits, half the exponent bias. -/
def mmSqrt (x : F32) : F32 := ⟨(x.bits + 0x3F800000#32) >>> 1⟩

theorem mmSqrt_mag {x : F32} (hx : x.isFin = true) (hn : x.neg = false) :
    (mmSqrt x).neg = false ∧ (mmSqrt x).mag = (x.mag + 127 * 2 ^ 23) / 2 := by
  have h1 := isFin_iff.1 hx
  have hb := bits_toNat x
  rw [hn] at hb
  simp only [Bool.false_eq_true, if_false, Nat.zero_add] at hb
  unfold infMag at h1
  have c : (0x3F800000#32 : BitVec 32).toNat = 127 * 2 ^ 23 := by decide +kernel
  have e : (mmSqrt x).bits.toNat = (x.mag + 127 * 2 ^ 23) / 2 := by
    have e1 : (mmSqrt x).bits = (x.bits + 0x3F800000#32) >>> 1 := rfl
    rw [e1, BitVec.toNat_ushiftRight, BitVec.toNat_add, hb, c, Nat.shiftRight_eq_div_pow, pow_one]
    generalize x.mag = n at *
    omega
  constructor
  · rw [neg_iff, e]; simp only [decide_eq_false_iff_not, not_le]; omega
  · have e2 : (mmSqrt x).mag = (mmSqrt x).bits.toNat % 2 ^ 31 := rfl
    rw [e2, e]
    generalize x.mag = n at *
    omega

theorem magVal_normal {n E m : ℕ} (hn : n = 2 ^ 23 * (E + 1) + m) (hm : m < 2 ^ 23) :
    magVal n = (2 ^ 23 + m) * 2 ^ E / 2 ^ 149 := by
  have h1 : ¬ n < 2 ^ 23 := by omega
  have h2 : n % 2 ^ 23 = m := by omega
  have h3 : n / 2 ^ 23 - 1 = E := by omega
  unfold magVal magInt unit
  rw [if_neg h1, h2, h3]
  push_cast
  ring

/-- The implementation meets the contract with an eighth (a sixteenth of the root itself). -/
theorem mmSqrt_within : SqrtWithin (126 / 1000) mmSqrt := by
  intro x hx hn
  obtain ⟨sn, sm⟩ := mmSqrt_mag hx hn
  have hf := isFin_iff.1 hx
  unfold infMag at hf
  have xv : x.val = magVal x.mag := val_of_pos hn
  have sv : (mmSqrt x).val = magVal ((x.mag + 127 * 2 ^ 23) / 2) := by rw [val_of_pos sn, sm]
  refine ⟨isFin_iff.2 (by rw [sm]; unfold infMag; omega), by rw [sv]; exact magVal_nonneg _, ?_, ?_⟩
  · intro h0
    have hbig : 2 ^ 23 ≤ x.mag := by
      by_contra hc
      have hm : magVal x.mag = x.mag / 2 ^ 149 := by
        unfold magVal magInt unit; rw [if_pos (not_le.1 hc)]
      have : (x.mag : ℚ) < 2 ^ 23 := by exact_mod_cast not_le.1 hc
      rw [xv, hm, le_div_iff₀ (by positivity)] at h0
      norm_num at h0 this
      linarith
    obtain ⟨E, m, hm, hE⟩ : ∃ E m, m < 2 ^ 23 ∧ x.mag = 2 ^ 23 * (E + 1) + m :=
      ⟨x.mag / 2 ^ 23 - 1, x.mag % 2 ^ 23, by omega, by omega⟩
    have xe := magVal_normal hE hm
    rw [xv, sv, xe]
    obtain ⟨j, hj⟩ := Nat.even_or_odd' E
    have dm : ((m / 2 : ℕ) : ℚ) ≤ m / 2 := by
      have : 2 * (m / 2) ≤ m := by omega
      have : 2 * ((m / 2 : ℕ) : ℚ) ≤ m := by exact_mod_cast this
      linarith
    have dm' : (m : ℚ) / 2 - 1 / 2 ≤ ((m / 2 : ℕ) : ℚ) := by
      have : m ≤ 2 * (m / 2) + 1 := by omega
      have : (m : ℚ) ≤ 2 * ((m / 2 : ℕ) : ℚ) + 1 := by exact_mod_cast this
      linarith
    have mq : (m : ℚ) ≤ 2 ^ 23 := by exact_mod_cast hm.le
    have m0 : (0 : ℚ) ≤ m := by positivity
    generalize hd : ((m / 2 : ℕ) : ℚ) = d at *
    rcases hj with hj | hj
    · have hs : (x.mag + 127 * 2 ^ 23) / 2 = 2 ^ 23 * ((j + 63) + 1) + m / 2 := by omega
      rw [magVal_normal hs (by omega), hj, hd]
      have e1 : ((2 ^ 23 + d) * 2 ^ (j + 63) / 2 ^ 149 : ℚ) ^ 2 = (2 ^ 23 + d) ^ 2 * 2 ^ (2 * j) / 2 ^ 172 := by
        rw [pow_add, pow_mul']; ring
      rw [e1]
      have e2 : ((2 ^ 23 + d) ^ 2 * 2 ^ (2 * j) / 2 ^ 172 - (2 ^ 23 + m) * 2 ^ (2 * j) / 2 ^ 149 : ℚ) =
          ((2 ^ 23 + d) ^ 2 - 2 ^ 23 * (2 ^ 23 + m)) * (2 ^ (2 * j) / 2 ^ 172) := by ring
      have e3 : (126 / 1000 * ((2 ^ 23 + m) * 2 ^ (2 * j) / 2 ^ 149) : ℚ) =
          (126 / 1000 * (2 ^ 23 * (2 ^ 23 + m))) * (2 ^ (2 * j) / 2 ^ 172) := by ring
      rw [e2, e3, abs_mul, abs_of_pos (a := (2 ^ (2 * j) / 2 ^ 172 : ℚ)) (by positivity)]
      apply mul_le_mul_of_nonneg_right _ (by positivity)
      rw [abs_le]
      constructor <;> nlinarith
    · have hs : (x.mag + 127 * 2 ^ 23) / 2 = 2 ^ 23 * ((j + 63) + 1) + (2 ^ 22 + m / 2) := by omega
      have c : (((2 ^ 22 + m / 2 : ℕ)) : ℚ) = 2 ^ 22 + d := by rw [Nat.cast_add, hd]; norm_num
      rw [magVal_normal hs (by omega), hj, c]
      have e1 : ((2 ^ 23 + (2 ^ 22 + d)) * 2 ^ (j + 63) / 2 ^ 149 : ℚ) ^ 2 = (3 * 2 ^ 22 + d) ^ 2 * 2 ^ (2 * j) / 2 ^ 172 := by
        rw [pow_add, pow_mul']; ring
      rw [e1]
      have e2 : ((3 * 2 ^ 22 + d) ^ 2 * 2 ^ (2 * j) / 2 ^ 172 - (2 ^ 23 + m) * 2 ^ (2 * j + 1) / 2 ^ 149 : ℚ) =
          ((3 * 2 ^ 22 + d) ^ 2 - 2 ^ 24 * (2 ^ 23 + m)) * (2 ^ (2 * j) / 2 ^ 172) := by rw [pow_succ]; ring
      have e3 : (126 / 1000 * ((2 ^ 23 + m) * 2 ^ (2 * j + 1) / 2 ^ 149) : ℚ) =
          (126 / 1000 * (2 ^ 24 * (2 ^ 23 + m))) * (2 ^ (2 * j) / 2 ^ 172) := by rw [pow_succ]; ring
      rw [e2, e3, abs_mul, abs_of_pos (a := (2 ^ (2 * j) / 2 ^ 172 : ℚ)) (by positivity)]
      apply mul_le_mul_of_nonneg_right _ (by positivity)
      rw [abs_le]
      constructor <;> nlinarith
  · intro h0
    have hsmall : x.mag ≤ 2 ^ 23 := by
      by_contra hc
      have h1 : magVal (2 ^ 23) < magVal x.mag := magVal_lt.2 (not_le.1 hc)
      have h2 : magVal (2 ^ 23) = 1 / 2 ^ 126 := by
        rw [magVal_normal (n := 2 ^ 23) (E := 0) (m := 0) (by norm_num) (by norm_num)]; norm_num
      rw [xv] at h0; rw [h2] at h1; exact absurd h0 (not_le.2 h1)
    have h1 : magVal ((x.mag + 127 * 2 ^ 23) / 2) ≤ magVal (64 * 2 ^ 23) := magVal_le.2 (by omega)
    have h2 : magVal (64 * 2 ^ 23) = 1 / 2 ^ 63 := by
      rw [magVal_normal (n := 64 * 2 ^ 23) (E := 63) (m := 0) (by norm_num) (by norm_num)]; norm_num
    rw [sv]
    calc magVal ((x.mag + 127 * 2 ^ 23) / 2) ^ 2 ≤ (1 / 2 ^ 63) ^ 2 := pow_le_pow_left₀ (magVal_nonneg _) (h1.trans_eq h2) 2
      _ ≤ 1 / 2 ^ 100 := by norm_num

/-- Zero is off by little, and four comes out as two. -/
example : (mmSqrt (lit 0)).val = 3 / 2 ^ 65 ∧ mmSqrt (lit 4) = lit 2 ∧ (mmSqrt (lit 2)).val = 3 / 2 := by decide +kernel

end Verif
