import Verif.F32.Round

/-! # Theory of binary32 operations: values, exactness, error bounds, casts. No modelled code here. -/

namespace Verif
namespace F32

/-! ## negation and absolute value -/

@[simp] theorem neg_negate (x : F32) : (negate x).neg = !x.neg := by simp [negate]
@[simp] theorem mag_negate (x : F32) : (negate x).mag = x.mag := by
  unfold negate; exact mag_pack_of_lt (mag_lt x)
@[simp] theorem neg_abs (x : F32) : (abs x).neg = false := by simp [abs]
@[simp] theorem mag_abs (x : F32) : (abs x).mag = x.mag := by
  unfold abs; exact mag_pack_of_lt (mag_lt x)
@[simp] theorem isNaN_negate (x : F32) : (negate x).isNaN = x.isNaN := by simp [isNaN]
@[simp] theorem isInf_negate (x : F32) : (negate x).isInf = x.isInf := by simp [isInf]
@[simp] theorem isFin_negate (x : F32) : (negate x).isFin = x.isFin := by simp [isFin]
@[simp] theorem isNaN_abs (x : F32) : (abs x).isNaN = x.isNaN := by simp [isNaN]
@[simp] theorem isFin_abs (x : F32) : (abs x).isFin = x.isFin := by simp [isFin]
@[simp] theorem isInf_abs (x : F32) : (abs x).isInf = x.isInf := by simp [isInf]
@[simp] theorem val_negate (x : F32) : (negate x).val = - x.val := by
  rw [val_eq, val_eq]; simp; cases x.neg <;> simp
@[simp] theorem val_abs (x : F32) : (abs x).val = |x.val| := by
  rw [abs_val, val_of_pos (by simp)]; simp
@[simp] theorem negate_negate (x : F32) : negate (negate x) = x := by
  apply ext_neg_mag <;> simp

theorem neg_def (x : F32) : -x = negate x := rfl
theorem add_def (x y : F32) : x + y = add x y := rfl
theorem sub_def (x y : F32) : x - y = sub x y := rfl
theorem mul_def (x y : F32) : x * y = mul x y := rfl
theorem div_def (x y : F32) : x / y = div x y := rfl

@[simp] theorem val_neg' (x : F32) : (-x).val = - x.val := val_negate x
@[simp] theorem isNaN_neg' (x : F32) : (-x).isNaN = x.isNaN := isNaN_negate x
@[simp] theorem isFin_neg' (x : F32) : (-x).isFin = x.isFin := isFin_negate x
@[simp] theorem isInf_neg' (x : F32) : (-x).isInf = x.isInf := isInf_negate x
@[simp] theorem neg_neg' (x : F32) : (-x).neg = !x.neg := neg_negate x
@[simp] theorem mag_neg' (x : F32) : (-x).mag = x.mag := mag_negate x
@[simp] theorem neg_neg_eq (x : F32) : - (-x) = x := negate_negate x

theorem isNaN_nan : nan.isNaN = true := by decide

/-! ## arithmetic on finite operands -/

theorem add_fin {x y : F32} (hx : x.isFin = true) (hy : y.isFin = true) :
    x + y = rnd (x.neg && y.neg) (x.val + y.val) := by
  rw [add_def, add]
  simp [isFin.not_nan hx, isFin.not_nan hy, isFin.not_inf hx, isFin.not_inf hy]

theorem sub_fin {x y : F32} (hx : x.isFin = true) (hy : y.isFin = true) :
    x - y = rnd (x.neg && !y.neg) (x.val - y.val) := by
  rw [sub_def, sub, if_neg (by simp [isFin.not_nan hx, isFin.not_nan hy]), ← add_def,
    add_fin hx (by simpa using hy)]
  simp [sub_eq_add_neg]

theorem mul_fin {x y : F32} (hx : x.isFin = true) (hy : y.isFin = true) :
    x * y = rnd (x.neg != y.neg) (x.val * y.val) := by
  rw [mul_def, mul]
  simp [isFin.not_nan hx, isFin.not_nan hy, isFin.not_inf hx, isFin.not_inf hy]

theorem div_fin {x y : F32} (hx : x.isFin = true) (hy : y.isFin = true) (h0 : y.val ≠ 0) :
    x / y = rnd (x.neg != y.neg) (x.val / y.val) := by
  have h0' : y.mag ≠ 0 := fun h => h0 (val_eq_zero.2 h)
  rw [div_def, div]
  simp [isFin.not_nan hx, isFin.not_nan hy, isFin.not_inf hx, isFin.not_inf hy, h0']

/-! ## NaN propagation -/

theorem add_nan_left {x : F32} (h : x.isNaN = true) (y : F32) : x + y = nan := by
  rw [add_def, add]; simp [h]
theorem add_nan_right {y : F32} (h : y.isNaN = true) (x : F32) : x + y = nan := by
  rw [add_def, add]; simp [h]
theorem sub_nan_left {x : F32} (h : x.isNaN = true) (y : F32) : x - y = nan := by
  rw [sub_def, sub]; simp [h]
theorem sub_nan_right {y : F32} (h : y.isNaN = true) (x : F32) : x - y = nan := by
  rw [sub_def, sub]; simp [h]
theorem mul_nan_left {x : F32} (h : x.isNaN = true) (y : F32) : x * y = nan := by
  rw [mul_def, mul]; simp [h]
theorem mul_nan_right {y : F32} (h : y.isNaN = true) (x : F32) : x * y = nan := by
  rw [mul_def, mul]; simp [h]
theorem div_nan_left {x : F32} (h : x.isNaN = true) (y : F32) : x / y = nan := by
  rw [div_def, div]; simp [h]
theorem div_nan_right {y : F32} (h : y.isNaN = true) (x : F32) : x / y = nan := by
  rw [div_def, div]; simp [h]

/-! ## comparisons -/

theorem lt_iff {x y : F32} : lt x y = true ↔ x.isNaN = false ∧ y.isNaN = false ∧ x.val < y.val := by
  simp [lt, and_assoc]
theorem le_iff {x y : F32} : le x y = true ↔ x.isNaN = false ∧ y.isNaN = false ∧ x.val ≤ y.val := by
  simp [le, and_assoc]
theorem feq_iff {x y : F32} : feq x y = true ↔ x.isNaN = false ∧ y.isNaN = false ∧ x.val = y.val := by
  simp [feq, and_assoc]
theorem lt_of_nn {x y : F32} (hx : x.isNaN = false) (hy : y.isNaN = false) :
    lt x y = decide (x.val < y.val) := by simp [lt, hx, hy]
theorem le_of_nn {x y : F32} (hx : x.isNaN = false) (hy : y.isNaN = false) :
    le x y = decide (x.val ≤ y.val) := by simp [le, hx, hy]
theorem feq_of_nn {x y : F32} (hx : x.isNaN = false) (hy : y.isNaN = false) :
    feq x y = decide (x.val = y.val) := by simp [feq, hx, hy]
theorem lt_nan_left {x : F32} (h : x.isNaN = true) (y : F32) : lt x y = false := by simp [lt, h]
theorem lt_nan_right {y : F32} (h : y.isNaN = true) (x : F32) : lt x y = false := by simp [lt, h]
theorem le_nan_left {x : F32} (h : x.isNaN = true) (y : F32) : le x y = false := by simp [le, h]
theorem le_nan_right {y : F32} (h : y.isNaN = true) (x : F32) : le x y = false := by simp [le, h]
theorem feq_nan_left {x : F32} (h : x.isNaN = true) (y : F32) : feq x y = false := by simp [feq, h]
theorem feq_nan_right {y : F32} (h : y.isNaN = true) (x : F32) : feq x y = false := by simp [feq, h]

/-! ## representable numbers -/

/-- `q` is the value of a finite float. -/
def Rep (q : ℚ) : Prop := ∃ x : F32, x.isFin = true ∧ x.val = q

theorem rep_val {x : F32} (h : x.isFin = true) : Rep x.val := ⟨x, h, rfl⟩

theorem Rep.neg {q : ℚ} (h : Rep q) : Rep (-q) := by
  obtain ⟨x, h1, h2⟩ := h; exact ⟨-x, by simpa using h1, by simp [h2]⟩

theorem Rep.rnd_val {q : ℚ} (h : Rep q) (s : Bool) : (rnd s q).val = q := by
  obtain ⟨x, h1, rfl⟩ := h; exact rnd_val_self (isFin.not_nan h1)

theorem Rep.rnd_fin {q : ℚ} (h : Rep q) (s : Bool) : (rnd s q).isFin = true := by
  obtain ⟨x, h1, rfl⟩ := h; exact F32.rnd_fin h1 le_rfl

theorem rep_ofRat_val {q : ℚ} (h : Rep q) : (ofRat q).val = q := h.rnd_val _
theorem rep_ofRat_fin {q : ℚ} (h : Rep q) : (ofRat q).isFin = true := h.rnd_fin _

theorem magInt_surj_of_small {m k : Nat} (hm : m ≤ 2 ^ 24) : ∃ n, magInt n = m * 2 ^ k := by
  have key : ∀ (m k : Nat), m < 2 ^ 24 → magInt (floorIdx (m * 2 ^ k)) = m * 2 ^ k := by
    intro m k hm
    set N := m * 2 ^ k with hN
    unfold floorIdx
    by_cases h : N < 2 ^ 23
    · rw [if_pos h]; unfold magInt; rw [if_pos h]
    · rw [if_neg h]
      have hN0 : N ≠ 0 := by intro h0; rw [h0] at h; exact h (by norm_num)
      have hlog : 23 ≤ N.log2 := (Nat.le_log2 hN0).2 (by omega)
      obtain ⟨e, he⟩ : ∃ e, N.log2 = e + 23 := ⟨N.log2 - 23, by omega⟩
      have h1 : 2 ^ (e + 23) ≤ N := (Nat.le_log2 hN0).1 (by omega)
      have h2 : N < 2 ^ (e + 24) := (Nat.log2_lt hN0).1 (by omega)
      have hlt : N < 2 ^ (k + 24) := by
        rw [hN, pow_add, mul_comm]; exact Nat.mul_lt_mul_of_pos_left hm (by positivity)
      have hek : e ≤ k := by
        have : 2 ^ (e + 23) < 2 ^ (k + 24) := lt_of_le_of_lt h1 hlt
        have := (Nat.pow_lt_pow_iff_right (by norm_num : 1 < 2)).1 this
        omega
      rw [he]; simp only [Nat.add_sub_cancel]
      have hp : 0 < 2 ^ e := by positivity
      have q1 : 2 ^ 23 ≤ N / 2 ^ e := by
        rw [Nat.le_div_iff_mul_le hp]; rw [pow_add] at h1; linarith
      have q2 : N / 2 ^ e < 2 ^ 24 := by
        rw [Nat.div_lt_iff_lt_mul hp]; rw [pow_add] at h2; linarith
      have hmod : (e * 2 ^ 23 + N / 2 ^ e) % 2 ^ 23 = N / 2 ^ e - 2 ^ 23 := by omega
      have hdiv : (e * 2 ^ 23 + N / 2 ^ e) / 2 ^ 23 = e + 1 := by omega
      have hge : ¬ (e * 2 ^ 23 + N / 2 ^ e < 2 ^ 23) := by omega
      unfold magInt; rw [if_neg hge, hmod, hdiv]
      have hs : 2 ^ 23 + (N / 2 ^ e - 2 ^ 23) = N / 2 ^ e := by omega
      rw [hs, Nat.add_sub_cancel]
      apply Nat.div_mul_cancel
      rw [hN]; exact Dvd.dvd.mul_left (pow_dvd_pow 2 hek) m
  rcases Nat.lt_or_ge m (2 ^ 24) with h | h
  · exact ⟨_, key m k h⟩
  · have : m = 2 ^ 24 := le_antisymm hm h
    subst this
    refine ⟨_, (key (2 ^ 23) (k + 1) (by norm_num)).trans ?_⟩
    rw [pow_succ]; ring

/-- Numbers with at most 24 significant bits, at or above the subnormal grid, below 2^128. -/
theorem rep_of_int_pow {q : ℚ} {m : Int} {k : Nat} (hm : |m| ≤ 2 ^ 24) (hq : q * unit = m * 2 ^ k)
    (hlt : |q| < 2 ^ 128) : Rep q := by
  obtain ⟨n, hn⟩ := magInt_surj_of_small (m := m.natAbs) (k := k)
    (by rw [Int.abs_eq_natAbs] at hm; omega)
  have habs : |q| = magVal n := by
    unfold magVal
    have e : |q| * unit = |q * unit| := by rw [abs_mul, abs_of_pos unit_pos]
    rw [eq_div_iff unit_ne, hn, e, hq, abs_mul, abs_of_pos (by positivity : (0:ℚ) < 2 ^ k)]
    push_cast [Nat.cast_natAbs]; rfl
  have hinf : n < infMag := by
    rw [← magVal_lt, magVal_infMag, ← habs]; exact hlt
  rcases le_or_gt 0 q with h | h
  · refine ⟨pack false n, ?_, ?_⟩
    · rw [isFin_iff, mag_pack_le hinf.le]; exact hinf
    · rw [val_of_pos (by simp), mag_pack_le hinf.le, ← habs, abs_of_nonneg h]
  · refine ⟨pack true n, ?_, ?_⟩
    · rw [isFin_iff, mag_pack_le hinf.le]; exact hinf
    · rw [val_of_neg (by simp), mag_pack_le hinf.le, ← habs, abs_of_neg h]; ring

/-- Same, with the grid given by a binary exponent. -/
theorem rep_of_zpow {q : ℚ} {m e : Int} (hm : |m| ≤ 2 ^ 24) (he : -149 ≤ e) (hq : q = m * 2 ^ e)
    (hlt : |q| < 2 ^ 128) : Rep q := by
  refine rep_of_int_pow (m := m) (k := (e + 149).toNat) hm ?_ hlt
  rw [hq]; unfold unit
  have : ((e + 149).toNat : ℤ) = e + 149 := Int.toNat_of_nonneg (by omega)
  rw [← zpow_natCast (2:ℚ) (e+149).toNat, this, zpow_add₀ (by norm_num)]
  norm_num; ring

theorem rep_int {n : Int} (h : |n| ≤ 2 ^ 24) : Rep (n : ℚ) := by
  refine rep_of_zpow (m := n) (e := 0) h (by norm_num) (by simp) ?_
  have : ((|n| : ℤ) : ℚ) ≤ ((2 ^ 24 : ℤ) : ℚ) := by exact_mod_cast h
  push_cast at this
  exact lt_of_le_of_lt this (by norm_num)

/-- Every finite float is an integer of at most 24 bits times a power of two. -/
theorem fin_decomp {x : F32} (h : x.isFin = true) :
    ∃ (m : Int) (k : Nat), |m| < 2 ^ 24 ∧ k ≤ 253 ∧ x.val * unit = m * 2 ^ k := by
  rw [isFin_iff] at h
  have : ∃ (m k : Nat), m < 2 ^ 24 ∧ k ≤ 253 ∧ magInt x.mag = m * 2 ^ k := by
    unfold magInt
    split
    · exact ⟨x.mag, 0, by omega, by omega, by simp⟩
    · refine ⟨_, _, ?_, ?_, rfl⟩
      · omega
      · unfold infMag at h; omega
  obtain ⟨m, k, h1, h2, h3⟩ := this
  have hv : |x.val| * unit = m * 2 ^ k := by
    rw [abs_val, magVal, div_mul_cancel₀ _ unit_ne, h3]; push_cast; ring
  rcases le_or_gt 0 x.val with hs | hs
  · refine ⟨m, k, ?_, h2, ?_⟩
    · rw [abs_of_nonneg (by omega)]; exact_mod_cast h1
    · rw [abs_of_nonneg hs] at hv; rw [hv]; push_cast; ring
  · refine ⟨-m, k, ?_, h2, ?_⟩
    · rw [abs_neg, abs_of_nonneg (by omega)]; exact_mod_cast h1
    · rw [abs_of_neg hs] at hv; push_cast; linarith

/-! ## error of rounding -/

theorem gap_le (n : Nat) : (gap n : ℚ) ≤ max (1 : ℚ) ((magInt n : ℚ) / 2 ^ 23) := by
  by_cases h : n < 2 ^ 23
  · have : n / 2 ^ 23 = 0 := Nat.div_eq_of_lt h
    unfold gap; rw [this]; simp
  · apply le_max_of_le_right
    rw [le_div_iff₀ (by positivity)]
    have : gap n * 2 ^ 23 ≤ magInt n := by
      unfold gap magInt; rw [if_neg h, mul_comm]
      exact Nat.mul_le_mul_right _ (by omega)
    exact_mod_cast this

theorem roundIdx_error {Q : ℚ} (hQ : 0 ≤ Q) :
    |(magInt (roundIdx Q) : ℚ) - Q| ≤ max (1 / 2) (Q / 2 ^ 24) := by
  obtain ⟨n, h1, h2, h3⟩ := roundIdx_cases hQ
  have hg := gap_le n
  have hhalf : (gap n : ℚ) / 2 ≤ max (1 / 2) (Q / 2 ^ 24) := by
    rcases le_max_iff.1 hg with h | h
    · exact le_max_of_le_left (by linarith)
    · apply le_max_of_le_right
      have : (magInt n : ℚ) / 2 ^ 23 ≤ Q / 2 ^ 23 := by
        exact div_le_div_of_nonneg_right h1 (by positivity)
      have e : Q / 2 ^ 24 = Q / 2 ^ 23 / 2 := by norm_num; ring
      rw [e]; linarith
  refine le_trans ?_ hhalf
  rcases h3 with ⟨e, a, -⟩ | ⟨e, a, -⟩
  · rw [e, abs_le]; constructor <;> linarith
  · rw [e, magInt_succ] at *
    push_cast at *
    rw [abs_le]; constructor <;> linarith

/-- Standard model: absolute error at most half an ulp. -/
theorem rnd_error {s : Bool} {q : ℚ} (h : (rnd s q).isFin = true) :
    |(rnd s q).val - q| ≤ max (1 / 2 ^ 150) (|q| / 2 ^ 24) := by
  have main : ∀ (q : ℚ), 0 < q → (rnd s q).isFin = true →
      |(rnd s q).val - q| ≤ max (1 / 2 ^ 150) (q / 2 ^ 24) := by
    intro q hq hf
    have hm : (rnd s q).mag = roundIdx (q * unit) := by
      have := rnd_mag s q; rw [abs_of_pos hq] at this
      have h2 := isFin_iff.1 hf
      rw [this] at h2 ⊢
      rcases le_total (roundIdx (q * unit)) infMag with h | h
      · exact min_eq_left h
      · rw [min_eq_right h] at h2; exact absurd h2 (lt_irrefl _)
    rw [val_of_pos (rnd_neg_of_nonneg hq), hm]
    have he := roundIdx_error (mul_nonneg hq.le unit_pos.le)
    have : magVal (roundIdx (q * unit)) - q = ((magInt (roundIdx (q * unit)) : ℚ) - q * unit) / unit := by
      unfold magVal; field_simp [unit_ne]
    rw [this, abs_div, abs_of_pos unit_pos, div_le_iff₀ unit_pos, max_mul_of_nonneg _ _ unit_pos.le]
    refine he.trans (max_le_max ?_ ?_)
    · unfold unit; norm_num
    · rw [div_mul_eq_mul_div]
  rcases lt_trichotomy q 0 with hq | rfl | hq
  · have hf : (rnd s (-q)).isFin = true := by
      rw [isFin_iff] at *; rw [rnd_mag] at *; rwa [abs_neg]
    have := main (-q) (by linarith) hf
    rw [rnd_val_odd s s q] at this
    rw [abs_of_neg hq]
    rw [show -(rnd s q).val - -q = -((rnd s q).val - q) by ring, abs_neg] at this
    exact this
  · rw [rnd_val_zero]; simp
  · rw [abs_of_pos hq]; exact main q hq h

/-- Relative error 2^-24 in the normal range. -/
theorem rnd_rel_error {s : Bool} {q : ℚ} (h : (rnd s q).isFin = true) (hn : 1 / 2 ^ 126 ≤ |q|) :
    |(rnd s q).val - q| ≤ |q| / 2 ^ 24 := by
  refine (rnd_error h).trans (max_le ?_ le_rfl)
  have : (1:ℚ) / 2 ^ 150 = 1 / 2 ^ 126 / 2 ^ 24 := by norm_num
  rw [this]; exact div_le_div_of_nonneg_right hn (by positivity)

theorem rnd_abs_error_max {s : Bool} {q : ℚ} (h : (rnd s q).isFin = true) :
    |(rnd s q).val - q| ≤ |q| / 2 ^ 24 + 1 / 2 ^ 150 :=
  (rnd_error h).trans (max_le (by have := abs_nonneg q; have : 0 ≤ |q| / 2 ^ 24 := by positivity
                                  linarith)
    (by have : (0:ℚ) ≤ 1 / 2 ^ 150 := by positivity
        linarith))

theorem maxFin_fin : maxFin.isFin = true := by decide
theorem maxFin_val : maxFin.val = (2 ^ 24 - 1) * 2 ^ 104 := by
  have h : magInt maxFin.mag = (2 ^ 24 - 1) * 2 ^ 253 := by decide +kernel
  rw [val_of_pos (by decide), magVal, h, div_eq_iff unit_ne]; unfold unit
  rw [mul_assoc, ← pow_add]; push_cast; norm_num

theorem rnd_fin_of_le_max {s : Bool} {q : ℚ} (h : |q| ≤ (2 ^ 24 - 1) * 2 ^ 104) :
    (rnd s q).isFin = true := by
  apply rnd_fin maxFin_fin
  rw [maxFin_val, abs_of_pos (a := (2 ^ 24 - 1) * 2 ^ 104) (by norm_num)]; exact h

theorem fin_le_max {x : F32} (h : x.isFin = true) : |x.val| ≤ (2 ^ 24 - 1) * 2 ^ 104 := by
  have h2 : magVal x.mag ≤ magVal maxFin.mag := by
    rw [magVal_le]
    have h1 := isFin_iff.1 h
    have : maxFin.mag = 0x7F7FFFFF := by decide
    rw [this]; unfold infMag at h1; omega
  rw [← abs_val, ← abs_val, maxFin_val, abs_of_pos (a := (2 ^ 24 - 1) * 2 ^ 104) (by norm_num)] at h2
  exact h2

theorem fin_of_val {x : F32} (h : |x.val| < 2 ^ 128) : x.isFin = true := by
  rw [isFin_iff, ← magVal_lt, magVal_infMag, ← abs_val]; exact h

/-! ## casts -/

theorem toIntSat_nan {lo hi : Int} {x : F32} (h : x.isNaN = true) : toIntSat lo hi x = 0 := by
  simp [toIntSat, h]

theorem truncInt_nonneg {x : F32} (h : 0 ≤ x.val) : x.truncInt = ⌊x.val⌋ := by
  unfold truncInt; rw [if_neg (not_lt.2 h)]

theorem truncInt_neg {x : F32} (h : x.val < 0) : x.truncInt = ⌈x.val⌉ := by
  unfold truncInt; rw [if_pos h]

theorem toIntSat_mem {lo hi : Int} (x : F32) (h0 : lo ≤ 0) (h1 : 0 ≤ hi) :
    lo ≤ toIntSat lo hi x ∧ toIntSat lo hi x ≤ hi := by
  unfold toIntSat; split <;> omega

theorem ofInt_val {n : Int} (h : |n| ≤ 2 ^ 24) : (ofInt n).val = n := (rep_int h).rnd_val _
theorem ofInt_fin {n : Int} (h : |n| ≤ 2 ^ 24) : (ofInt n).isFin = true := (rep_int h).rnd_fin _
theorem ofInt_not_nan (n : Int) : (ofInt n).isNaN = false := rnd_not_nan _ _
theorem ofRat_not_nan (q : ℚ) : (ofRat q).isNaN = false := rnd_not_nan _ _

end F32
end Verif
