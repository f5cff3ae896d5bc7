import Verif.F32.Ops
import Verif.Model.Base

/-! # More binary32 facts: nearest value, exact operations, integers, literals, fractional parts -/

namespace Verif.F32

/-! ## nearest -/

theorem roundIdx_nearest {Q : ℚ} (hQ : 0 ≤ Q) (k : Nat) :
    |(magInt (roundIdx Q) : ℚ) - Q| ≤ |(magInt k : ℚ) - Q| := by
  obtain ⟨n, h1, h2, h3⟩ := roundIdx_cases hQ
  have hs : (magInt (n + 1) : ℚ) = magInt n + gap n := by exact_mod_cast magInt_succ n
  rcases Nat.lt_or_ge n k with hk | hk
  · have hk' : (magInt (n + 1) : ℚ) ≤ magInt k := by exact_mod_cast magInt_le.2 hk
    rw [abs_of_nonneg (a := (magInt k : ℚ) - Q) (by linarith)]
    rcases h3 with ⟨e, h, -⟩ | ⟨e, h, -⟩
    · rw [e, abs_le]; constructor <;> linarith
    · rw [e, abs_le]; constructor <;> linarith
  · have hk' : (magInt k : ℚ) ≤ magInt n := by exact_mod_cast magInt_le.2 hk
    rw [abs_of_nonpos (a := (magInt k : ℚ) - Q) (by linarith)]
    rcases h3 with ⟨e, h, -⟩ | ⟨e, h, -⟩
    · rw [e, abs_le]; constructor <;> linarith
    · rw [e, abs_le]; constructor <;> linarith

theorem rnd_nearest {s : Bool} {q : ℚ} {y : F32} (h : (rnd s q).isFin = true) :
    |(rnd s q).val - q| ≤ |y.val - q| := by
  have main : ∀ (q : ℚ) (y : F32), 0 < q → (rnd s q).isFin = true → |(rnd s q).val - q| ≤ |y.val - q| := by
    intro q y hq hf
    have hm : (rnd s q).mag = roundIdx (q * unit) := by
      have := rnd_mag s q; rw [abs_of_pos hq] at this
      have h2 := isFin_iff.1 hf
      rw [this] at h2 ⊢
      rcases le_total (roundIdx (q * unit)) infMag with h | h
      · exact min_eq_left h
      · rw [min_eq_right h] at h2; exact absurd h2 (lt_irrefl _)
    rw [val_of_pos (rnd_neg_of_nonneg hq), hm]
    have hQ : 0 ≤ q * unit := mul_nonneg hq.le unit_pos.le
    have key : ∀ k : Nat, |magVal (roundIdx (q * unit)) - q| ≤ |magVal k - q| := by
      intro k
      have he := roundIdx_nearest hQ k
      have conv : ∀ j : Nat, magVal j - q = ((magInt j : ℚ) - q * unit) / unit := by
        intro j; unfold magVal; field_simp [unit_ne]
      rw [conv, conv, abs_div, abs_div]
      exact div_le_div_of_nonneg_right he (abs_nonneg _)
    rcases hy : y.neg with _ | _
    · rw [val_of_pos hy]; exact key _
    · rw [val_of_neg hy]
      refine (key 0).trans ?_
      have := magVal_nonneg y.mag
      rw [magVal_zero, abs_of_nonpos (by linarith), abs_of_nonpos (by linarith)]; linarith
  rcases lt_trichotomy q 0 with hq | rfl | hq
  · have hf : (rnd s (-q)).isFin = true := by
      rw [isFin_iff] at *; rw [rnd_mag] at *; rwa [abs_neg]
    have := main (-q) (-y) (by linarith) hf
    rw [rnd_val_odd s s q, val_neg'] at this
    rw [show -(rnd s q).val - -q = -((rnd s q).val - q) by ring, abs_neg,
      show -y.val - -q = -(y.val - q) by ring, abs_neg] at this
    exact this
  · rw [rnd_val_zero]; simp
  · exact main q y hq h

/-! ## exact operations -/

theorem add_exact {x y : F32} (hx : x.isFin = true) (hy : y.isFin = true) (h : Rep (x.val + y.val)) :
    (x + y).isFin = true ∧ (x + y).val = x.val + y.val := by
  rw [add_fin hx hy]; exact ⟨h.rnd_fin _, h.rnd_val _⟩

theorem sub_exact {x y : F32} (hx : x.isFin = true) (hy : y.isFin = true) (h : Rep (x.val - y.val)) :
    (x - y).isFin = true ∧ (x - y).val = x.val - y.val := by
  rw [sub_fin hx hy]; exact ⟨h.rnd_fin _, h.rnd_val _⟩

theorem mul_exact {x y : F32} (hx : x.isFin = true) (hy : y.isFin = true) (h : Rep (x.val * y.val)) :
    (x * y).isFin = true ∧ (x * y).val = x.val * y.val := by
  rw [mul_fin hx hy]; exact ⟨h.rnd_fin _, h.rnd_val _⟩

theorem div_exact {x y : F32} (hx : x.isFin = true) (hy : y.isFin = true) (h0 : y.val ≠ 0)
    (h : Rep (x.val / y.val)) : (x / y).isFin = true ∧ (x / y).val = x.val / y.val := by
  rw [div_fin hx hy h0]; exact ⟨h.rnd_fin _, h.rnd_val _⟩

theorem rep_zero : Rep 0 := ⟨zero, by decide, by decide +kernel⟩
theorem rep_one : Rep 1 := by simpa using rep_int (n := 1) (by norm_num)

theorem rep_nat {n : Nat} (h : n ≤ 2 ^ 24) : Rep (n : ℚ) := by
  have := rep_int (n := (n : Int)) (by rw [abs_of_nonneg (by omega)]; exact_mod_cast h)
  simpa using this

/-! ## literals -/

theorem lit_val {q : ℚ} (h : Rep q) : (lit q : F32).val = q := rep_ofRat_val h
theorem lit_fin {q : ℚ} (h : Rep q) : (lit q : F32).isFin = true := rep_ofRat_fin h
theorem lit_not_nan (q : ℚ) : (lit q : F32).isNaN = false := ofRat_not_nan q

@[simp] theorem lit0_val : (lit 0 : F32).val = 0 := lit_val rep_zero
@[simp] theorem lit0_fin : (lit 0 : F32).isFin = true := lit_fin rep_zero
@[simp] theorem lit1_val : (lit 1 : F32).val = 1 := lit_val rep_one
@[simp] theorem lit1_fin : (lit 1 : F32).isFin = true := lit_fin rep_one
theorem rep_two : Rep 2 := by simpa using rep_int (n := 2) (by norm_num)
@[simp] theorem lit2_val : (lit 2 : F32).val = 2 := lit_val rep_two
@[simp] theorem lit2_fin : (lit 2 : F32).isFin = true := lit_fin rep_two
theorem rep_neg_one : Rep (-1) := rep_one.neg
@[simp] theorem litm1_val : (lit (-1) : F32).val = -1 := lit_val rep_neg_one
@[simp] theorem litm1_fin : (lit (-1) : F32).isFin = true := lit_fin rep_neg_one
theorem rep_half : Rep (1/2) :=
  rep_of_zpow (m := 1) (e := -1) (by norm_num) (by norm_num) (by norm_num) (by norm_num)
@[simp] theorem lithalf_val : (lit (1/2) : F32).val = 1/2 := lit_val rep_half
@[simp] theorem lithalf_fin : (lit (1/2) : F32).isFin = true := lit_fin rep_half

theorem lit0_eq : (lit 0 : F32) = zero := by decide

/-! ## integers -/

/-- A float of size at least `2^23` is a whole number. -/
theorem int_of_ge {x : F32} (h : x.isFin = true) (hx : 2 ^ 23 ≤ |x.val|) : ∃ n : Int, x.val = n := by
  obtain ⟨m, k, hm, hk, he⟩ := fin_decomp h
  have hk' : 149 ≤ k := by
    by_contra hcon
    have hkl : k ≤ 148 := by omega
    have h1 : |x.val| * unit = |(m : ℚ)| * 2 ^ k := by
      rw [← abs_of_pos unit_pos, ← abs_mul, he, abs_mul, abs_of_pos (by positivity : (0:ℚ) < 2 ^ k)]
    have h2 : |(m : ℚ)| < 2 ^ 24 := by
      have : ((|m| : Int) : ℚ) < ((2 ^ 24 : Int) : ℚ) := by exact_mod_cast hm
      push_cast at this; exact this
    have h3 : (2 : ℚ) ^ k ≤ 2 ^ 148 := pow_le_pow_right₀ (by norm_num) hkl
    have h4 : |(m : ℚ)| * 2 ^ k < 2 ^ 24 * 2 ^ 148 := by
      calc |(m : ℚ)| * 2 ^ k ≤ |(m : ℚ)| * 2 ^ 148 := by
            exact mul_le_mul_of_nonneg_left h3 (abs_nonneg _)
        _ < _ := by exact mul_lt_mul_of_pos_right h2 (by positivity)
    have h5 : (2 : ℚ) ^ 23 * 2 ^ 149 ≤ |x.val| * unit := by
      unfold unit; exact mul_le_mul_of_nonneg_right hx (by positivity)
    rw [h1] at h5
    have : (2 : ℚ) ^ 23 * 2 ^ 149 = 2 ^ 24 * 2 ^ 148 := by norm_num
    linarith
  refine ⟨m * 2 ^ (k - 149), ?_⟩
  have : (2 : ℚ) ^ k = 2 ^ (k - 149) * unit := by
    unfold unit; rw [← pow_add]; congr 1; omega
  rw [this, ← mul_assoc] at he
  push_cast
  exact mul_right_cancel₀ unit_ne he

/-- Floats of size at least `2^(23+j)` are multiples of `2^j`. -/
theorem grid_of_ge {x : F32} (h : x.isFin = true) {j : Int} (hj : -149 ≤ j) (hx : (2:ℚ) ^ (23 + j) ≤ |x.val|) :
    ∃ n : Int, x.val = n * (2:ℚ) ^ j := by
  obtain ⟨m, k, hm, hk, he⟩ := fin_decomp h
  obtain ⟨e, rfl⟩ : ∃ e : Nat, j = e - 149 := ⟨(j + 149).toNat, by omega⟩
  have hu : unit = (2:ℚ) ^ (149 : Int) := by unfold unit; norm_cast
  have hk' : e ≤ k := by
    by_contra hcon
    have hkl : k + 1 ≤ e := by omega
    have h1 : |x.val| * unit = |(m : ℚ)| * 2 ^ k := by
      rw [← abs_of_pos unit_pos, ← abs_mul, he, abs_mul, abs_of_pos (by positivity : (0:ℚ) < 2 ^ k)]
    have h2 : |(m : ℚ)| < 2 ^ 24 := by
      have : ((|m| : Int) : ℚ) < ((2 ^ 24 : Int) : ℚ) := by exact_mod_cast hm
      push_cast at this; exact this
    have h3 : (2 : ℚ) ^ (k + 1) ≤ 2 ^ e := pow_le_pow_right₀ (by norm_num) hkl
    have h4 : |(m : ℚ)| * 2 ^ k < 2 ^ 23 * 2 ^ e := by
      calc |(m : ℚ)| * 2 ^ k < 2 ^ 24 * 2 ^ k := mul_lt_mul_of_pos_right h2 (by positivity)
        _ = 2 ^ 23 * 2 ^ (k + 1) := by rw [pow_succ (2:ℚ) k]; ring
        _ ≤ _ := mul_le_mul_of_nonneg_left h3 (by positivity)
    have h5 : (2 : ℚ) ^ 23 * 2 ^ e ≤ |x.val| * unit := by
      have := mul_le_mul_of_nonneg_right hx unit_pos.le
      rw [hu, ← zpow_add₀ (by norm_num)] at this
      rw [hu]
      refine le_trans (le_of_eq ?_) this
      rw [show (23 + ((e:Int) - 149) + 149) = ((23 + e : Nat) : Int) by push_cast; ring, zpow_natCast, pow_add]
    linarith
  refine ⟨m * 2 ^ (k - e), ?_⟩
  apply mul_right_cancel₀ unit_ne
  rw [he, hu, mul_assoc, ← zpow_add₀ (by norm_num), show ((e:Int) - 149 + 149) = (e : Int) by ring, zpow_natCast]
  push_cast
  rw [mul_assoc, ← pow_add]
  congr 2; omega

/-- The fractional part of a non-negative float is a float. -/
theorem rep_fract {x : F32} (h : x.isFin = true) (hx : 0 ≤ x.val) : Rep (Int.fract x.val) := by
  obtain ⟨m, k, hm, hk, he⟩ := fin_decomp h
  rcases le_or_gt 149 k with hk' | hk'
  · have : (2 : ℚ) ^ k = 2 ^ (k - 149) * unit := by
      unfold unit; rw [← pow_add]; congr 1; omega
    rw [this, ← mul_assoc] at he
    have hv : x.val = ((m * 2 ^ (k - 149) : Int) : ℚ) := by
      push_cast; exact mul_right_cancel₀ unit_ne he
    rw [hv, Int.fract_intCast]; exact rep_zero
  · -- x = m / 2^(149-k)
    have hm0 : 0 ≤ m := by
      have : (0 : ℚ) ≤ m * 2 ^ k := by rw [← he]; exact mul_nonneg hx unit_pos.le
      have := nonneg_of_mul_nonneg_left this (by positivity)
      exact_mod_cast this
    have hu : unit = 2 ^ (149 - k) * 2 ^ k := by unfold unit; rw [← pow_add]; congr 1; omega
    have hv : x.val = (m : ℚ) / ((2 ^ (149 - k) : Int) : ℚ) := by
      rw [eq_div_iff (by push_cast; positivity)]
      push_cast
      rw [hu, ← mul_assoc] at he
      exact mul_right_cancel₀ (by positivity) he
    have hfr : Int.fract x.val = ((m % 2 ^ (149 - k) : Int) : ℚ) / 2 ^ (149 - k) := by
      have hfl : ⌊x.val⌋ = m / 2 ^ (149 - k) := by
        have := Rat.floor_intCast_div_natCast m (2 ^ (149 - k))
        rw [hv]; push_cast at this ⊢; exact this
      rw [Int.fract, hfl, hv, eq_div_iff (by positivity), sub_mul]
      push_cast
      rw [div_mul_cancel₀ _ (by positivity)]
      have := Int.emod_add_mul_ediv m (2 ^ (149 - k))
      have h' : ((m % 2 ^ (149 - k) : Int) : ℚ) + 2 ^ (149 - k) * ((m / 2 ^ (149 - k) : Int) : ℚ) = m := by
        exact_mod_cast this
      linarith
    rw [hfr]
    have h1 := Int.emod_nonneg m (show (2 : Int) ^ (149 - k) ≠ 0 by positivity)
    have h2 : m % 2 ^ (149 - k) ≤ m := by
      have := Int.emod_add_mul_ediv m (2 ^ (149 - k))
      have h3 : 0 ≤ m / 2 ^ (149 - k) := Int.ediv_nonneg hm0 (by positivity)
      have h4 : 0 ≤ 2 ^ (149 - k) * (m / 2 ^ (149 - k)) := mul_nonneg (by positivity) h3
      omega
    refine rep_of_zpow (m := m % 2 ^ (149 - k)) (e := -((149 - k : Nat) : Int)) ?_ (by omega) ?_ ?_
    · rw [abs_of_nonneg h1]; rw [abs_of_nonneg hm0] at hm; omega
    · rw [zpow_neg, zpow_natCast, div_eq_mul_inv]
    · rw [← hfr, abs_of_nonneg (Int.fract_nonneg _)]
      exact lt_trans (Int.fract_lt_one _) (by norm_num)

end Verif.F32

namespace Verif.F32

/-! ## scaling and truncation to a grid -/

/-- A non-negative float, truncated to a multiple of `2^d`, still has at most 24 significant bits. -/
theorem grid_floor {x : F32} (h : x.isFin = true) (hx : 0 ≤ x.val) (d : Nat) :
    ∃ m e : Int, |m| ≤ 2 ^ 24 ∧ 0 ≤ e ∧ (⌊x.val / 2 ^ d⌋ : ℚ) * 2 ^ d = m * (2:ℚ) ^ e := by
  obtain ⟨m, k, hm, hk, he⟩ := fin_decomp h
  have hm0 : 0 ≤ m := by
    have : (0 : ℚ) ≤ m * 2 ^ k := by rw [← he]; exact mul_nonneg hx unit_pos.le
    have := nonneg_of_mul_nonneg_left this (by positivity)
    exact_mod_cast this
  rcases le_or_gt (d + 149) k with hk' | hk'
  · have hv : x.val = m * 2 ^ (k - 149) := by
      have : (2 : ℚ) ^ k = 2 ^ (k - 149) * unit := by unfold unit; rw [← pow_add]; congr 1; omega
      rw [this, ← mul_assoc] at he
      exact mul_right_cancel₀ unit_ne he
    have hd : x.val / 2 ^ d = ((m * 2 ^ (k - 149 - d) : Int) : ℚ) := by
      rw [hv, div_eq_iff (by positivity)]; push_cast; rw [mul_assoc, ← pow_add, Nat.sub_add_cancel (by omega)]
    refine ⟨m, (k - 149 : Nat), hm.le, by omega, ?_⟩
    rw [hd, Int.floor_intCast, zpow_natCast]; push_cast; rw [mul_assoc, ← pow_add, Nat.sub_add_cancel (by omega)]
  · refine ⟨⌊x.val / 2 ^ d⌋, d, ?_, by omega, by rw [zpow_natCast]⟩
    have h0 : 0 ≤ ⌊x.val / 2 ^ d⌋ := Int.floor_nonneg.2 (by positivity)
    rw [abs_of_nonneg h0]
    have hle : x.val / 2 ^ d ≤ m := by
      rw [div_le_iff₀ (by positivity)]
      have : (m : ℚ) * 2 ^ k ≤ m * 2 ^ d * unit := by
        unfold unit
        rw [mul_assoc, ← pow_add]
        exact mul_le_mul_of_nonneg_left (pow_le_pow_right₀ (by norm_num) hk'.le) (by exact_mod_cast hm0)
      rw [← he] at this
      exact le_of_mul_le_mul_right this unit_pos
    have : ⌊x.val / 2 ^ d⌋ ≤ m := by exact_mod_cast (Int.floor_le _).trans hle
    rw [abs_of_nonneg hm0] at hm
    omega

/-- Multiplying by a power of two is exact if the result is in range. -/
theorem rep_scale {x : F32} (h : x.isFin = true) (e : Nat) (hb : |x.val * 2 ^ e| < 2 ^ 128) : Rep (x.val * 2 ^ e) := by
  obtain ⟨m, k, hm, hk, he⟩ := fin_decomp h
  refine rep_of_int_pow (m := m) (k := k + e) hm.le ?_ hb
  rw [pow_add, ← mul_assoc, ← he]; ring

end Verif.F32
