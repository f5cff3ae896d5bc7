import Verif.F32.More

/-! # Contracts of the external float functions, and implementations meeting them

The crate calls `floor`, `rem_euclid`, `sqrt`, `powf`, `powi`, `exp`, `log10` through `micromath::F32Ext` (not in
/repo). They are parameters of the model. Where a theorem needs something about them, it assumes one of the contracts
below; each contract is shown to be satisfiable here. -/

namespace Verif

/-- `floor`: exact on finite floats of size up to `2^23` (larger floats are whole numbers already; the contract says
nothing there, which allows implementations going through `i32`). -/
def FloorContract (floor : F32 → F32) : Prop :=
  ∀ x : F32, x.isFin = true → |x.val| ≤ 2 ^ 23 → (floor x).isFin = true ∧ (floor x).val = (⌊x.val⌋ : ℚ)

/-- `std`'s `f32::floor`: correct on every float. Used as the concrete `floor` in examples. -/
def stdFloor (x : F32) : F32 :=
  if x.isFin then F32.rnd x.neg (⌊x.val⌋ : ℚ) else x

/-- micromath's `floor` (2.0, from memory): truncate through `i32`, step down if that went up. -/
def mmFloor (x : F32) : F32 :=
  let res := F32.ofInt (F32.toIntSat (-2 ^ 31) (2 ^ 31 - 1) x)
  if F32.lt x res then res - lit 1 else res

theorem abs_floor_le {q : ℚ} (h : |q| ≤ 2 ^ 23) : |⌊q⌋| ≤ 2 ^ 23 := by
  rw [abs_le] at h ⊢
  constructor
  · exact Int.le_floor.2 (by push_cast; linarith)
  · have : ⌊q⌋ < 2 ^ 23 + 1 := Int.floor_lt.2 (by push_cast; linarith)
    omega

theorem stdFloor_contract : FloorContract stdFloor := by
  intro x hx h
  have hr : F32.Rep ((⌊x.val⌋ : Int) : ℚ) := F32.rep_int (by have := abs_floor_le h; omega)
  unfold stdFloor
  rw [if_pos hx]
  exact ⟨hr.rnd_fin _, hr.rnd_val _⟩

theorem mmFloor_contract : FloorContract mmFloor := by
  intro x hx h
  have hnn := F32.isFin.not_nan hx
  have hfl := abs_floor_le h
  have htr : x.truncInt = ⌊x.val⌋ ∨ (x.truncInt = ⌊x.val⌋ + 1 ∧ x.val < ((⌊x.val⌋ + 1 : Int) : ℚ)) := by
    unfold F32.truncInt
    split
    · by_cases hi : x.val = (⌊x.val⌋ : ℚ)
      · left; rw [hi]; simp
      · right
        have h1 : (⌊x.val⌋ : ℚ) < x.val := lt_of_le_of_ne (Int.floor_le _) (Ne.symm hi)
        have h2 := Int.lt_floor_add_one x.val
        refine ⟨?_, by push_cast; exact h2⟩
        rw [Int.ceil_eq_iff]; push_cast; constructor <;> linarith
    · left; rfl
  have habs : |x.truncInt| ≤ 2 ^ 24 := by
    rw [abs_le] at hfl ⊢; rcases htr with h | ⟨h, -⟩ <;> omega
  have hcast : F32.toIntSat (-2 ^ 31) (2 ^ 31 - 1) x = x.truncInt := by
    unfold F32.toIntSat; rw [hnn]; rw [abs_le] at habs
    simp only [Bool.false_eq_true, if_false]; omega
  have hres := F32.ofInt_val habs
  have hresf := F32.ofInt_fin habs
  unfold mmFloor
  simp only [hcast]
  rcases htr with e | ⟨e, hlt⟩
  · have : F32.lt x (F32.ofInt x.truncInt) = false := by
      rw [← Bool.not_eq_true, F32.lt_iff, hres, e]
      rintro ⟨-, -, h3⟩
      exact absurd (Int.floor_le x.val) (not_le.2 h3)
    rw [this]; simp only [Bool.false_eq_true, if_false]
    exact ⟨hresf, by rw [hres, e]⟩
  · have : F32.lt x (F32.ofInt x.truncInt) = true := by
      rw [F32.lt_iff, hres, e]; exact ⟨hnn, F32.ofInt_not_nan _, hlt⟩
    rw [this, if_pos rfl]
    have hv : (F32.ofInt x.truncInt).val - (lit 1 : F32).val = ((⌊x.val⌋ : Int) : ℚ) := by
      rw [hres, e, F32.lit1_val]; push_cast; ring
    have := F32.sub_exact hresf F32.lit1_fin (by rw [hv]; exact F32.rep_int (by omega))
    rw [hv] at this; exact this

/-- `rem_euclid` with a positive divisor: NaN unless the dividend is finite, otherwise a number of `[0, y]` (the sum
`r + y` may round up to `y`), a whole multiple of `y` away from `x` up to rounding. -/
def RemContract (rem : F32 → F32 → F32) : Prop :=
  ∀ x y : F32, y.isFin = true → 0 < y.val →
    (x.isFin = false → (rem x y).isNaN = true) ∧
    (x.isFin = true → (rem x y).isFin = true ∧ 0 ≤ (rem x y).val ∧ (rem x y).val ≤ y.val ∧
      ∃ k : Int, |(rem x y).val - (x.val - k * y.val)| ≤ y.val / 2 ^ 23 + 1 / 2 ^ 149)

/-- `x % y` on `f32` (C `fmod`). -/
def fmod (x y : F32) : F32 :=
  if x.isFin = false ∨ y.isNaN = true ∨ y.val = 0 then F32.nan
  else if y.isInf then x
  else F32.rnd x.neg (x.val - y.val * (if x.val / y.val < 0 then ⌈x.val / y.val⌉ else ⌊x.val / y.val⌋ : Int))

/-- micromath's `rem_euclid` (from memory; also the definition in `std`). -/
def mmRem (x y : F32) : F32 :=
  let r := fmod x y
  if F32.lt r (lit 0) then r + y.abs else r

theorem mmRem_contract : RemContract mmRem := by
  intro x y hy hy0
  have hnn : y.isNaN = false := F32.isFin.not_nan hy
  have hni : y.isInf = false := by
    have := F32.isFin_iff.1 hy
    simp only [F32.isInf, beq_eq_false_iff_ne, ne_eq]; omega
  constructor
  · intro hx
    have : fmod x y = F32.nan := by unfold fmod; rw [if_pos (Or.inl hx)]
    unfold mmRem
    simp only [this]
    rw [show F32.lt F32.nan (lit 0) = false by decide +kernel, if_neg (by simp)]
    decide
  · intro hx
    obtain ⟨k, hk⟩ : ∃ k : Int, k = if x.val / y.val < 0 then ⌈x.val / y.val⌉ else ⌊x.val / y.val⌋ := ⟨_, rfl⟩
    have hfm : fmod x y = F32.rnd x.neg (x.val - y.val * (k : ℚ)) := by
      unfold fmod
      rw [if_neg (by rw [hx, hnn]; simp; exact hy0.ne'), hni, hk]
      simp
    obtain ⟨q, hq⟩ : ∃ q : ℚ, q = x.val - y.val * (k : ℚ) := ⟨_, rfl⟩
    rw [← hq] at hfm
    have hxe : x.val = y.val * (x.val / y.val) := by field_simp
    have hqb : (0 ≤ q ∧ q ≤ y.val) ∨ (q ≤ 0 ∧ -y.val ≤ q) := by
      split_ifs at hk with h
      · right
        have h1 := Int.ceil_lt_add_one (x.val / y.val)
        have h2 := Int.le_ceil (x.val / y.val)
        rw [← hk] at h1 h2
        constructor <;> nlinarith
      · left
        have h1 := Int.floor_le (x.val / y.val)
        have h2 := Int.lt_floor_add_one (x.val / y.val)
        rw [← hk] at h1 h2
        constructor <;> nlinarith
    have hqa : |q| ≤ |y.val| := by
      rw [abs_of_pos hy0, abs_le]
      rcases hqb with h | h <;> constructor <;> linarith
    obtain ⟨r, hr⟩ : ∃ r, r = F32.rnd x.neg q := ⟨_, rfl⟩
    have rf : r.isFin = true := by rw [hr]; exact F32.rnd_fin hy hqa
    have hra : |r.val| ≤ y.val := by
      have := F32.rnd_abs_le (s := x.neg) hqa
      rwa [← hr, abs_of_pos hy0] at this
    have herr : |r.val - q| ≤ 1 / 2 ^ 150 + y.val / 2 ^ 24 := by
      have rf' := rf
      rw [hr] at rf' ⊢
      refine (F32.rnd_error rf').trans ((max_le_add_of_nonneg (by positivity) (by positivity)).trans ?_)
      rw [abs_of_pos hy0] at hqa
      linarith [div_le_div_of_nonneg_right hqa (show (0:ℚ) ≤ 2 ^ 24 by positivity)]
    unfold mmRem
    simp only
    rw [hfm, ← hr]
    have hz : (1:ℚ) / 2 ^ 149 = 2 * (1 / 2 ^ 150) := by norm_num
    have hzp : (0:ℚ) < 1 / 2 ^ 150 := by positivity
    obtain ⟨ε, hε⟩ : ∃ ε : ℚ, ε = 1 / 2 ^ 150 := ⟨_, rfl⟩
    rw [hz, ← hε]
    rw [← hε] at herr hzp
    cases hlt : F32.lt r (lit 0) with
    | false =>
      have h0 : 0 ≤ r.val := by
        by_contra hc
        have : F32.lt r (lit 0) = true := by
          rw [F32.lt_iff]; exact ⟨F32.isFin.not_nan rf, F32.lit_not_nan _, by rw [F32.lit0_val]; linarith⟩
        rw [this] at hlt; exact absurd hlt (by simp)
      rw [if_neg (by simp)]
      refine ⟨rf, h0, (le_abs_self _).trans hra, k, ?_⟩
      rw [mul_comm (k : ℚ), ← hq]
      refine herr.trans ?_
      have : y.val / 2 ^ 24 ≤ y.val / 2 ^ 23 := by
        apply div_le_div_of_nonneg_left hy0.le (by norm_num) (by norm_num)
      linarith
    | true =>
      have h0 : r.val < 0 := by have := (F32.lt_iff.1 hlt).2.2; rwa [F32.lit0_val] at this
      rw [if_pos rfl]
      have hyabs : y.abs.isFin = true ∧ y.abs.val = y.val := by
        have hm : y.abs.mag = y.mag := by unfold F32.abs; rw [F32.mag_pack_of_lt (F32.mag_lt y)]
        constructor
        · rw [F32.isFin_iff, hm]; exact F32.isFin_iff.1 hy
        · rw [F32.val_of_pos (by unfold F32.abs; rw [F32.neg_pack]), hm, ← F32.abs_val, abs_of_pos hy0]
      rw [F32.add_fin rf hyabs.1, hyabs.2]
      have hrl := (abs_le.1 hra).1
      have hsb : |r.val + y.val| ≤ |y.val| := by rw [abs_of_pos hy0, abs_of_nonneg (by linarith)]; linarith
      have sf := F32.rnd_fin (s := r.neg && y.abs.neg) hy hsb
      refine ⟨sf, F32.rnd_val_nonneg (by linarith), ?_, k - 1, ?_⟩
      · have := F32.rnd_abs_le (s := r.neg && y.abs.neg) hsb
        rw [abs_of_pos hy0] at this
        exact (le_abs_self _).trans this
      · have e2 : |(F32.rnd (r.neg && y.abs.neg) (r.val + y.val)).val - (r.val + y.val)| ≤ ε + y.val / 2 ^ 24 := by
          rw [hε]
          refine (F32.rnd_error sf).trans ((max_le_add_of_nonneg (by positivity) (by positivity)).trans ?_)
          rw [abs_of_pos hy0] at hsb
          linarith [div_le_div_of_nonneg_right hsb (show (0:ℚ) ≤ 2 ^ 24 by positivity)]
        have hsplit : (F32.rnd (r.neg && y.abs.neg) (r.val + y.val)).val - (x.val - ((k - 1 : Int) : ℚ) * y.val) =
            ((F32.rnd (r.neg && y.abs.neg) (r.val + y.val)).val - (r.val + y.val)) + (r.val - q) := by
          rw [hq]; push_cast; ring
        rw [hsplit]
        refine (abs_add_le _ _).trans ((add_le_add e2 herr).trans (le_of_eq ?_))
        ring

end Verif
