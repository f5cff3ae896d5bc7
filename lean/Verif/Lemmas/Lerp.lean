import Verif.F32.More
import Verif.Lemmas.Slice

/-! # Helper lemmas: the lerp kernel, casts -/

namespace Verif
open F32 Interpolation

theorem lerpUnchecked_zero {a b t : F32} (ha : a.isFin = true) (hb : b.isFin = true) (ht : t.isFin = true)
    (h0 : t.val = 0) : (lerpUnchecked a b t).isFin = true ∧ (lerpUnchecked a b t).val = a.val := by
  unfold lerpUnchecked
  obtain ⟨f1, v1⟩ := sub_exact lit1_fin ht (by rw [h0]; simpa using rep_one)
  rw [h0, lit1_val, sub_zero] at v1
  obtain ⟨f2, v2⟩ := mul_exact ha f1 (by rw [v1, mul_one]; exact rep_val ha)
  rw [v1, mul_one] at v2
  obtain ⟨f3, v3⟩ := mul_exact hb ht (by rw [h0, mul_zero]; exact rep_zero)
  rw [h0, mul_zero] at v3
  have := add_exact f2 f3 (by rw [v2, v3, add_zero]; exact rep_val ha)
  rw [v2, v3, add_zero] at this
  exact this

theorem lerpUnchecked_one {a b t : F32} (ha : a.isFin = true) (hb : b.isFin = true) (ht : t.isFin = true)
    (h1 : t.val = 1) : (lerpUnchecked a b t).isFin = true ∧ (lerpUnchecked a b t).val = b.val := by
  unfold lerpUnchecked
  obtain ⟨f1, v1⟩ := sub_exact lit1_fin ht (by rw [h1]; simpa using rep_zero)
  rw [h1, lit1_val, sub_self] at v1
  obtain ⟨f2, v2⟩ := mul_exact ha f1 (by rw [v1, mul_zero]; exact rep_zero)
  rw [v1, mul_zero] at v2
  obtain ⟨f3, v3⟩ := mul_exact hb ht (by rw [h1, mul_one]; exact rep_val hb)
  rw [h1, mul_one] at v3
  have := add_exact f2 f3 (by rw [v2, v3, zero_add]; exact rep_val hb)
  rw [v2, v3, zero_add] at this
  exact this

namespace Cfg
variable (c : Cfg)

theorem f2u_nan {x : F32} (h : x.isNaN = true) : c.f2u x = 0 := by
  unfold f2u; rw [toIntSat_nan h]; rfl

theorem f2u_nonneg {x : F32} (h : x.isNaN = false) (h0 : 0 ≤ x.val) :
    c.f2u x = min c.usizeMax ⌊x.val⌋.toNat := by
  unfold f2u toIntSat
  rw [h, truncInt_nonneg h0]
  have := Int.floor_nonneg.2 h0
  simp only [Bool.false_eq_true, if_false]
  omega

theorem f2u_neg {x : F32} (h : x.val ≤ 0) : c.f2u x = 0 := by
  unfold f2u toIntSat
  split
  · rfl
  · have : x.truncInt ≤ 0 := by
      unfold truncInt
      split
      · exact Int.ceil_le.2 (by simpa using h)
      · exact Int.floor_le_iff.2 (by push_cast; linarith)
    omega

theorem f2u_nat {x : F32} {n : Nat} (h : x.isNaN = false) (hv : x.val = n) (hn : n ≤ c.usizeMax) :
    c.f2u x = n := by
  rw [c.f2u_nonneg h (by rw [hv]; positivity), hv]
  simp; omega

theorem f2i_int {x : F32} {n : Int} (h : x.isNaN = false) (hv : x.val = n) (hn : c.IsIsize n) :
    c.f2i x = n := by
  unfold f2i toIntSat truncInt
  rw [h, hv]
  simp only [Bool.false_eq_true, if_false, Int.ceil_intCast, Int.floor_intCast, ite_self]
  have := hn.1; have := hn.2; omega

theorem u2f_val {n : Nat} (h : n ≤ 2 ^ 24) : (c.u2f n).val = n := by
  unfold u2f; rw [ofInt_val (by rw [abs_of_nonneg (by omega)]; omega)]; simp
theorem u2f_fin {n : Nat} (h : n ≤ 2 ^ 24) : (c.u2f n).isFin = true := by
  unfold u2f; exact ofInt_fin (by rw [abs_of_nonneg (by omega)]; omega)
theorem u2f_not_nan (n : Nat) : (c.u2f n).isNaN = false := ofInt_not_nan _

theorem i2f_val {n : Int} (h : |n| ≤ 2 ^ 24) : (c.i2f n).val = n := ofInt_val h
theorem i2f_fin {n : Int} (h : |n| ≤ 2 ^ 24) : (c.i2f n).isFin = true := ofInt_fin h

end Cfg
end Verif
