import Verif.F32.Basic

/-! # Theory of binary32 rounding: grid, monotonicity, exactness, error. No modelled code here. -/

namespace Verif
namespace F32

theorem unit_pos : (0 : ℚ) < unit := by unfold unit; positivity
theorem unit_ne : unit ≠ 0 := unit_pos.ne'

/-! ## sign and magnitude -/

theorem mag_lt (x : F32) : x.mag < 2 ^ 31 := Nat.mod_lt _ (by norm_num)

theorem neg_iff (x : F32) : x.neg = decide (2 ^ 31 ≤ x.bits.toNat) := by
  unfold neg; rw [BitVec.msb_eq_decide]

@[simp] theorem mag_pack (s : Bool) (m : Nat) : (pack s m).mag = m % 2 ^ 31 := by
  unfold mag pack
  cases s <;> simp [BitVec.toNat_ofNat]

@[simp] theorem neg_pack (s : Bool) (m : Nat) : (pack s m).neg = s := by
  rw [neg_iff]; unfold pack
  cases s <;> simp [BitVec.toNat_ofNat] <;> omega

theorem mag_pack_of_lt {s : Bool} {m : Nat} (h : m < 2 ^ 31) : (pack s m).mag = m := by
  rw [mag_pack, Nat.mod_eq_of_lt h]

theorem mag_pack_le {s : Bool} {m : Nat} (h : m ≤ infMag) : (pack s m).mag = m :=
  mag_pack_of_lt (lt_of_le_of_lt h (by unfold infMag; norm_num))

theorem bits_toNat (x : F32) : x.bits.toNat = (if x.neg then 2 ^ 31 else 0) + x.mag := by
  rw [neg_iff]; unfold mag
  have := x.bits.isLt
  split <;> rename_i h <;> simp only [decide_eq_true_eq] at h <;> omega

@[simp] theorem pack_eta (x : F32) : pack x.neg x.mag = x := by
  apply F32.ext; unfold pack
  apply BitVec.eq_of_toNat_eq
  rw [BitVec.toNat_ofNat, bits_toNat]
  have := mag_lt x
  split <;> omega

theorem ext_neg_mag {x y : F32} (h₁ : x.neg = y.neg) (h₂ : x.mag = y.mag) : x = y := by
  rw [← pack_eta x, ← pack_eta y, h₁, h₂]

/-! ## the grid -/

theorem gap_pos (n : Nat) : 0 < gap n := by unfold gap; positivity

theorem magInt_zero : magInt 0 = 0 := by simp [magInt]

theorem magInt_succ (n : Nat) : magInt (n + 1) = magInt n + gap n := by
  unfold magInt gap
  by_cases h : n + 1 < 2 ^ 23
  · have h' : n < 2 ^ 23 := by omega
    have : n / 2 ^ 23 = 0 := Nat.div_eq_of_lt h'
    simp only [h, h', if_true, this]; norm_num
  · by_cases h' : n < 2 ^ 23
    · have hn : n = 2 ^ 23 - 1 := by omega
      subst hn; norm_num
    · simp only [h, h', if_false]
      by_cases hm : n % 2 ^ 23 = 2 ^ 23 - 1
      · have h1 : (n + 1) % 2 ^ 23 = 0 := by omega
        have h2 : (n + 1) / 2 ^ 23 = n / 2 ^ 23 + 1 := by omega
        have h3 : n / 2 ^ 23 = (n / 2 ^ 23 - 1) + 1 := by omega
        rw [hm, h1, h2]
        have h4 : n / 2 ^ 23 + 1 - 1 = (n / 2 ^ 23 - 1) + 1 := by omega
        rw [h4, pow_succ]; norm_num; ring
      · have h1 : (n + 1) % 2 ^ 23 = n % 2 ^ 23 + 1 := by omega
        have h2 : (n + 1) / 2 ^ 23 = n / 2 ^ 23 := by omega
        rw [h1, h2]; ring

theorem magInt_strictMono : StrictMono magInt :=
  strictMono_nat_of_lt_succ fun n => by rw [magInt_succ]; have := gap_pos n; omega

theorem magInt_lt {a b : Nat} : magInt a < magInt b ↔ a < b := magInt_strictMono.lt_iff_lt
theorem magInt_le {a b : Nat} : magInt a ≤ magInt b ↔ a ≤ b := magInt_strictMono.le_iff_le
theorem magInt_inj {a b : Nat} : magInt a = magInt b ↔ a = b := magInt_strictMono.injective.eq_iff

theorem floorIdx_spec (N : Nat) : magInt (floorIdx N) ≤ N ∧ N < magInt (floorIdx N + 1) := by
  rw [magInt_succ]
  unfold floorIdx
  by_cases h : N < 2 ^ 23
  · rw [if_pos h]
    have h0 : N / 2 ^ 23 = 0 := Nat.div_eq_of_lt h
    unfold magInt gap
    rw [if_pos h, h0]; norm_num
  · rw [if_neg h]
    have hN : N ≠ 0 := by rintro rfl; exact h (by norm_num)
    have hlog : 23 ≤ N.log2 := (Nat.le_log2 hN).2 (by omega)
    obtain ⟨e, he⟩ : ∃ e, N.log2 = e + 23 := ⟨N.log2 - 23, by omega⟩
    have h1 : 2 ^ (e + 23) ≤ N := (Nat.le_log2 hN).1 (by omega)
    have h2 : N < 2 ^ (e + 24) := (Nat.log2_lt hN).1 (by omega)
    rw [he]
    simp only [Nat.add_sub_cancel]
    have hp : 0 < 2 ^ e := by positivity
    have q1 : 2 ^ 23 ≤ N / 2 ^ e := by
      rw [Nat.le_div_iff_mul_le hp]; rw [pow_add] at h1; linarith
    have q2 : N / 2 ^ e < 2 ^ 24 := by
      rw [Nat.div_lt_iff_lt_mul hp]; rw [pow_add] at h2; linarith
    have hmod : (e * 2 ^ 23 + N / 2 ^ e) % 2 ^ 23 = N / 2 ^ e - 2 ^ 23 := by omega
    have hdiv : (e * 2 ^ 23 + N / 2 ^ e) / 2 ^ 23 = e + 1 := by omega
    have hge : ¬ (e * 2 ^ 23 + N / 2 ^ e < 2 ^ 23) := by omega
    unfold magInt gap
    rw [if_neg hge, hmod, hdiv]
    have hs : 2 ^ 23 + (N / 2 ^ e - 2 ^ 23) = N / 2 ^ e := by omega
    rw [hs, Nat.add_sub_cancel]
    refine ⟨Nat.div_mul_le_self _ _, ?_⟩
    have := Nat.lt_div_mul_add (a := N) hp
    exact this

theorem floorIdx_rat {Q : ℚ} (hQ : 0 ≤ Q) :
    (magInt (floorIdx ⌊Q⌋.toNat) : ℚ) ≤ Q ∧ Q < (magInt (floorIdx ⌊Q⌋.toNat + 1) : ℚ) := by
  obtain ⟨h1, h2⟩ := floorIdx_spec ⌊Q⌋.toNat
  have hf : 0 ≤ ⌊Q⌋ := Int.floor_nonneg.2 hQ
  have hc : ((⌊Q⌋.toNat : ℕ) : ℤ) = ⌊Q⌋ := Int.toNat_of_nonneg hf
  have hc' : ((⌊Q⌋.toNat : ℕ) : ℚ) = (⌊Q⌋ : ℚ) := by exact_mod_cast congrArg (Int.cast (R := ℚ)) hc
  constructor
  · calc (magInt (floorIdx ⌊Q⌋.toNat) : ℚ) ≤ (⌊Q⌋.toNat : ℕ) := by exact_mod_cast h1
      _ = ⌊Q⌋ := hc'
      _ ≤ Q := Int.floor_le Q
  · have h3 : ⌊Q⌋.toNat + 1 ≤ magInt (floorIdx ⌊Q⌋.toNat + 1) := h2
    calc Q < ⌊Q⌋ + 1 := Int.lt_floor_add_one Q
      _ = ((⌊Q⌋.toNat + 1 : ℕ) : ℚ) := by push_cast; rw [hc']
      _ ≤ _ := by exact_mod_cast h3

/-- Rounding lands on one of the two neighbours, within half a gap, with ties to even. -/
theorem roundIdx_cases {Q : ℚ} (hQ : 0 ≤ Q) :
    ∃ n : Nat, (magInt n : ℚ) ≤ Q ∧ Q < magInt (n + 1) ∧
      ((roundIdx Q = n ∧ 2 * (Q - magInt n) ≤ gap n ∧ (2 * (Q - magInt n) = gap n → n % 2 = 0)) ∨
       (roundIdx Q = n + 1 ∧ (gap n : ℚ) ≤ 2 * (Q - magInt n) ∧
          (2 * (Q - magInt n) = gap n → n % 2 = 1))) := by
  obtain ⟨h1, h2⟩ := floorIdx_rat hQ
  refine ⟨floorIdx ⌊Q⌋.toNat, h1, h2, ?_⟩
  unfold roundIdx
  dsimp only
  split_ifs with c1 c2 c3
  · exact Or.inl ⟨rfl, c1.le, fun h => absurd h c1.ne⟩
  · exact Or.inr ⟨rfl, c2.le, fun h => absurd h.symm c2.ne⟩
  · exact Or.inl ⟨rfl, not_lt.1 c2, fun _ => c3⟩
  · exact Or.inr ⟨rfl, not_lt.1 c1, fun _ => by omega⟩

theorem roundIdx_le_of_le {Q : ℚ} (hQ : 0 ≤ Q) {k : Nat} (h : Q ≤ magInt k) : roundIdx Q ≤ k := by
  obtain ⟨n, h1, h2, h3⟩ := roundIdx_cases hQ
  have hnk : n ≤ k := by
    have : (magInt n : ℚ) ≤ magInt k := h1.trans h
    exact magInt_le.1 (by exact_mod_cast this)
  rcases h3 with ⟨e, -, -⟩ | ⟨e, hg, -⟩
  · omega
  · rcases Nat.lt_or_ge n k with hlt | hge
    · omega
    · exfalso
      have hk : k = n := by omega
      subst hk
      have : Q = magInt k := le_antisymm h h1
      have hgp : (0 : ℚ) < gap k := by exact_mod_cast gap_pos k
      rw [this] at hg; linarith

theorem le_roundIdx_of_le {Q : ℚ} (hQ : 0 ≤ Q) {k : Nat} (h : (magInt k : ℚ) ≤ Q) : k ≤ roundIdx Q := by
  obtain ⟨n, h1, h2, h3⟩ := roundIdx_cases hQ
  have hnk : k < n + 1 := by
    have : (magInt k : ℚ) < magInt (n + 1) := h.trans_lt h2
    exact magInt_lt.1 (by exact_mod_cast this)
  rcases h3 with ⟨e, -⟩ | ⟨e, -⟩ <;> omega

theorem roundIdx_exact (k : Nat) : roundIdx (magInt k) = k :=
  le_antisymm (roundIdx_le_of_le (by positivity) le_rfl) (le_roundIdx_of_le (by positivity) le_rfl)

theorem roundIdx_mono {P Q : ℚ} (hP : 0 ≤ P) (h : P ≤ Q) : roundIdx P ≤ roundIdx Q := by
  have hQ := hP.trans h
  obtain ⟨n, a1, a2, a3⟩ := roundIdx_cases hP
  obtain ⟨m, b1, b2, b3⟩ := roundIdx_cases hQ
  have hnm : n ≤ m := by
    have : (magInt n : ℚ) < magInt (m + 1) := lt_of_le_of_lt (a1.trans h) b2
    have := magInt_lt.1 (show magInt n < magInt (m+1) by exact_mod_cast this)
    omega
  rcases Nat.lt_or_ge n m with hlt | hge
  · rcases a3 with ⟨e, -⟩ | ⟨e, -⟩ <;> rcases b3 with ⟨f, -⟩ | ⟨f, -⟩ <;> omega
  · have : n = m := by omega
    subst this
    rcases a3 with ⟨e, x1, x2⟩ | ⟨e, x1, x2⟩ <;> rcases b3 with ⟨f, y1, y2⟩ | ⟨f, y1, y2⟩ <;>
      try omega
    have hPQ : P = Q := by linarith
    subst hPQ
    have := x2 (by linarith); have := y2 (by linarith); omega

/-! ## values -/

/-- Value of magnitude pattern. -/
def magVal (n : Nat) : ℚ := magInt n / unit

theorem magVal_nonneg (n : Nat) : 0 ≤ magVal n := div_nonneg (by positivity) unit_pos.le
theorem magVal_zero : magVal 0 = 0 := by simp [magVal, magInt_zero]
theorem magVal_lt {a b : Nat} : magVal a < magVal b ↔ a < b := by
  unfold magVal; rw [div_lt_div_iff_of_pos_right unit_pos, Nat.cast_lt, magInt_lt]
theorem magVal_le {a b : Nat} : magVal a ≤ magVal b ↔ a ≤ b := by
  unfold magVal; rw [div_le_div_iff_of_pos_right unit_pos, Nat.cast_le, magInt_le]
theorem magVal_inj {a b : Nat} : magVal a = magVal b ↔ a = b := by
  constructor
  · intro h; exact le_antisymm (magVal_le.1 h.le) (magVal_le.1 h.ge)
  · rintro rfl; rfl
theorem magVal_pos {n : Nat} : 0 < magVal n ↔ 0 < n := by rw [← magVal_zero, magVal_lt]
theorem magVal_eq_zero {n : Nat} : magVal n = 0 ↔ n = 0 := by rw [← magVal_zero, magVal_inj]

theorem val_eq (x : F32) : x.val = if x.neg then - magVal x.mag else magVal x.mag := by
  unfold val magVal; split <;> simp

theorem val_of_pos {x : F32} (h : x.neg = false) : x.val = magVal x.mag := by rw [val_eq, h]; simp
theorem val_of_neg {x : F32} (h : x.neg = true) : x.val = - magVal x.mag := by rw [val_eq, h]; simp

theorem abs_val (x : F32) : |x.val| = magVal x.mag := by
  rw [val_eq]; split
  · rw [abs_neg, abs_of_nonneg (magVal_nonneg _)]
  · rw [abs_of_nonneg (magVal_nonneg _)]

theorem val_eq_zero {x : F32} : x.val = 0 ↔ x.mag = 0 := by
  rw [← abs_eq_zero, abs_val, magVal_eq_zero]

theorem neg_of_val_neg {x : F32} (h : x.val < 0) : x.neg = true := by
  by_contra hn
  rw [val_of_pos (by simpa using hn)] at h
  exact absurd h (not_lt.2 (magVal_nonneg _))

theorem neg_of_val_pos {x : F32} (h : 0 < x.val) : x.neg = false := by
  by_contra hn
  rw [val_of_neg (by simpa using hn)] at h
  have := magVal_nonneg x.mag; linarith

/-- Two floats with the same nonzero value are the same. -/
theorem eq_of_val_eq {x y : F32} (h : x.val = y.val) (h0 : x.val ≠ 0) : x = y := by
  have hm : x.mag = y.mag := by
    have := congrArg (fun q : ℚ => |q|) h; simp only [abs_val] at this; exact magVal_inj.1 this
  rcases lt_or_gt_of_ne h0 with hn | hp
  · exact ext_neg_mag ((neg_of_val_neg hn).trans (neg_of_val_neg (h ▸ hn)).symm) hm
  · exact ext_neg_mag ((neg_of_val_pos hp).trans (neg_of_val_pos (h ▸ hp)).symm) hm

theorem mag_eq_of_val_eq {x y : F32} (h : x.val = y.val) : x.mag = y.mag := by
  have := congrArg (fun q : ℚ => |q|) h; simp only [abs_val] at this; exact magVal_inj.1 this

theorem mag_le_of_abs_le {x y : F32} (h : |x.val| ≤ |y.val|) : x.mag ≤ y.mag := by
  rw [abs_val, abs_val] at h; exact magVal_le.1 h

/-! ## class tests -/

theorem isFin_iff {x : F32} : x.isFin = true ↔ x.mag < infMag := by simp [isFin]
theorem isNaN_iff {x : F32} : x.isNaN = true ↔ infMag < x.mag := by simp [isNaN]
theorem isInf_iff {x : F32} : x.isInf = true ↔ x.mag = infMag := by simp [isInf]
theorem isNaN_false_iff {x : F32} : x.isNaN = false ↔ x.mag ≤ infMag := by simp [isNaN]
theorem isFin.not_nan {x : F32} (h : x.isFin = true) : x.isNaN = false := by
  rw [isNaN_false_iff]; exact (isFin_iff.1 h).le
theorem isFin.not_inf {x : F32} (h : x.isFin = true) : x.isInf = false := by
  have := isFin_iff.1 h; simp [isInf]; omega
theorem isFin_of_not {x : F32} (h : x.isNaN = false) (h' : x.isInf = false) : x.isFin = true := by
  rw [isNaN_false_iff] at h; rw [isFin_iff]; simp [isInf] at h'; omega

theorem class_cases (x : F32) : x.isNaN = true ∨ x.isInf = true ∨ x.isFin = true := by
  rw [isNaN_iff, isInf_iff, isFin_iff]; omega

theorem isFin_of_abs_le {x y : F32} (h : |x.val| ≤ |y.val|) (hy : y.isFin = true) : x.isFin = true := by
  rw [isFin_iff] at *; exact lt_of_le_of_lt (mag_le_of_abs_le h) hy

theorem not_nan_of_abs_le {x y : F32} (h : |x.val| ≤ |y.val|) (hy : y.isNaN = false) : x.isNaN = false := by
  rw [isNaN_false_iff] at *; exact (mag_le_of_abs_le h).trans hy

theorem abs_val_inf {x : F32} (h : x.isInf = true) : |x.val| = magVal infMag := by
  rw [abs_val, isInf_iff.1 h]

theorem abs_val_le_inf {x : F32} (h : x.isNaN = false) : |x.val| ≤ magVal infMag := by
  rw [abs_val, magVal_le]; exact isNaN_false_iff.1 h

theorem abs_val_lt_inf {x : F32} (h : x.isFin = true) : |x.val| < magVal infMag := by
  rw [abs_val, magVal_lt]; exact isFin_iff.1 h

theorem magVal_infMag : magVal infMag = 2 ^ 128 := by
  have : magInt infMag = 2 ^ 277 := by decide +kernel
  unfold magVal unit; rw [this, Nat.cast_pow, Nat.cast_ofNat, div_eq_iff (by positivity), ← pow_add]

/-! ## rounding of rationals -/

theorem rnd_zero (s : Bool) : rnd s 0 = pack s 0 := by simp [rnd]

theorem rnd_of_pos {s : Bool} {q : ℚ} (h : 0 < q) :
    rnd s q = pack false (min (roundIdx (q * unit)) infMag) := by
  unfold rnd; rw [if_neg h.ne', abs_of_pos h, decide_eq_false (not_lt.2 h.le)]

theorem rnd_of_neg {s : Bool} {q : ℚ} (h : q < 0) :
    rnd s q = pack true (min (roundIdx (-q * unit)) infMag) := by
  unfold rnd; rw [if_neg h.ne, abs_of_neg h, decide_eq_true h]

theorem rnd_sign_irrel {s t : Bool} {q : ℚ} (h : q ≠ 0) : rnd s q = rnd t q := by
  unfold rnd; rw [if_neg h, if_neg h]

theorem rnd_mag (s : Bool) (q : ℚ) : (rnd s q).mag = min (roundIdx (|q| * unit)) infMag := by
  unfold rnd
  split_ifs with h
  · subst h
    have : roundIdx (|(0:ℚ)| * unit) = 0 := by
      have := roundIdx_exact 0; rw [magInt_zero] at this; simpa using this
    rw [this, mag_pack]; simp
  · exact mag_pack_le (min_le_right _ _)

theorem rnd_not_nan (s : Bool) (q : ℚ) : (rnd s q).isNaN = false := by
  rw [isNaN_false_iff, rnd_mag]; exact min_le_right _ _

theorem rnd_neg_of_nonneg {s : Bool} {q : ℚ} (h : 0 < q) : (rnd s q).neg = false := by
  rw [rnd_of_pos h, neg_pack]

theorem rnd_neg_of_neg {s : Bool} {q : ℚ} (h : q < 0) : (rnd s q).neg = true := by
  rw [rnd_of_neg h, neg_pack]

theorem rnd_val_zero (s : Bool) : (rnd s 0).val = 0 := by
  rw [rnd_zero, val_eq_zero, mag_pack]; simp

theorem rnd_val_pos {s : Bool} {q : ℚ} (h : 0 < q) :
    (rnd s q).val = magVal (min (roundIdx (q * unit)) infMag) := by
  rw [val_of_pos (rnd_neg_of_nonneg h), rnd_mag, abs_of_pos h]

theorem rnd_val_neg {s : Bool} {q : ℚ} (h : q < 0) :
    (rnd s q).val = - magVal (min (roundIdx (-q * unit)) infMag) := by
  rw [val_of_neg (rnd_neg_of_neg h), rnd_mag, abs_of_neg h]

theorem rnd_val_nonneg {s : Bool} {q : ℚ} (h : 0 ≤ q) : 0 ≤ (rnd s q).val := by
  rcases h.eq_or_lt with rfl | h
  · rw [rnd_val_zero]
  · rw [rnd_val_pos h]; exact magVal_nonneg _

theorem rnd_val_nonpos {s : Bool} {q : ℚ} (h : q ≤ 0) : (rnd s q).val ≤ 0 := by
  rcases h.eq_or_lt with rfl | h
  · rw [rnd_val_zero]
  · rw [rnd_val_neg h]; have := magVal_nonneg (min (roundIdx (-q * unit)) infMag); linarith

/-- value of the rounded rational is odd in q -/
theorem rnd_val_odd (s t : Bool) (q : ℚ) : (rnd s (-q)).val = - (rnd t q).val := by
  rcases lt_trichotomy q 0 with h | rfl | h
  · rw [rnd_val_neg h, rnd_val_pos (by linarith : 0 < -q)]; simp
  · rw [neg_zero, rnd_val_zero, rnd_val_zero]; simp
  · rw [rnd_val_pos h, rnd_val_neg (by linarith : -q < 0)]; simp

theorem mul_unit_le_magInt {q : ℚ} {k : Nat} : q * unit ≤ magInt k ↔ q ≤ magVal k := by
  unfold magVal; rw [le_div_iff₀ unit_pos]
theorem magInt_le_mul_unit {q : ℚ} {k : Nat} : (magInt k : ℚ) ≤ q * unit ↔ magVal k ≤ q := by
  unfold magVal; rw [div_le_iff₀ unit_pos]

theorem rnd_val_le_pos {s : Bool} {q : ℚ} (hq : 0 ≤ q) {k : Nat} (h : q ≤ magVal k) :
    (rnd s q).val ≤ magVal k := by
  rcases hq.eq_or_lt with rfl | hq
  · rw [rnd_val_zero]; exact magVal_nonneg _
  · rw [rnd_val_pos hq, magVal_le]
    exact (min_le_left _ _).trans
      (roundIdx_le_of_le (mul_nonneg hq.le unit_pos.le) (mul_unit_le_magInt.2 h))

theorem le_rnd_val_pos {s : Bool} {q : ℚ} {k : Nat} (hk : k ≤ infMag) (h : magVal k ≤ q) :
    magVal k ≤ (rnd s q).val := by
  have hq := (magVal_nonneg k).trans h
  rcases hq.eq_or_lt with rfl | hq
  · rw [rnd_val_zero]; exact h
  · rw [rnd_val_pos hq, magVal_le]
    exact le_min (le_roundIdx_of_le (mul_nonneg hq.le unit_pos.le) (magInt_le_mul_unit.2 h)) hk

/-- Rounding does not cross a representable upper bound. -/
theorem rnd_le {s : Bool} {q : ℚ} {y : F32} (hy : y.isNaN = false) (h : q ≤ y.val) :
    (rnd s q).val ≤ y.val := by
  rcases le_or_gt 0 q with hq | hq
  · have hyv := hq.trans h
    rcases hyv.eq_or_lt with h0 | h0
    · have : q = 0 := le_antisymm (h0 ▸ h) hq
      subst this; rw [rnd_val_zero]; exact hyv
    · rw [val_of_pos (neg_of_val_pos h0)] at h ⊢
      exact rnd_val_le_pos hq h
  · rcases le_or_gt 0 y.val with hy0 | hy0
    · exact (rnd_val_nonpos hq.le).trans hy0
    · rw [val_of_neg (neg_of_val_neg hy0)] at h ⊢
      have := rnd_val_odd s s (-q)
      rw [neg_neg] at this; rw [this]
      have := le_rnd_val_pos (s := s) (q := -q) (isNaN_false_iff.1 hy) (by linarith)
      linarith

/-- Rounding does not cross a representable lower bound. -/
theorem le_rnd {s : Bool} {q : ℚ} {y : F32} (hy : y.isNaN = false) (h : y.val ≤ q) :
    y.val ≤ (rnd s q).val := by
  have hneg : (negate y).isNaN = false := by
    rw [isNaN_false_iff] at *; unfold negate; rw [mag_pack_le hy]; exact hy
  have hv : (negate y).val = - y.val := by
    have hm := isNaN_false_iff.1 hy
    rw [val_eq, val_eq]; unfold negate; rw [neg_pack, mag_pack_le hm]; cases y.neg <;> simp
  have := rnd_le (s := s) (q := -q) hneg (by rw [hv]; linarith)
  rw [rnd_val_odd s s, hv] at this
  linarith

theorem rnd_mono {s t : Bool} {p q : ℚ} (h : p ≤ q) : (rnd s p).val ≤ (rnd t q).val := by
  rcases le_or_gt 0 p with hp | hp
  · rcases hp.eq_or_lt with rfl | hp'
    · rw [rnd_val_zero]; exact rnd_val_nonneg h
    · rw [rnd_val_pos hp', rnd_val_pos (hp'.trans_le h), magVal_le]
      exact min_le_min_right _ (roundIdx_mono (mul_nonneg hp unit_pos.le)
        (mul_le_mul_of_nonneg_right h unit_pos.le))
  · rcases le_or_gt 0 q with hq | hq
    · exact (rnd_val_nonpos hp.le).trans (rnd_val_nonneg hq)
    · rw [rnd_val_neg hp, rnd_val_neg hq, neg_le_neg_iff, magVal_le]
      exact min_le_min_right _ (roundIdx_mono (mul_nonneg (by linarith) unit_pos.le)
        (mul_le_mul_of_nonneg_right (by linarith) unit_pos.le))

/-- Representable values round to themselves. -/
theorem rnd_val_self {s : Bool} {x : F32} (h : x.isNaN = false) : (rnd s x.val).val = x.val :=
  le_antisymm (rnd_le h le_rfl) (le_rnd h le_rfl)

theorem rnd_val_of_eq {s : Bool} {q : ℚ} {x : F32} (h : x.isNaN = false) (hq : q = x.val) :
    (rnd s q).val = q := by rw [hq]; exact rnd_val_self h

theorem rnd_eq_self {s : Bool} {x : F32} (h : x.isNaN = false) (h0 : x.val ≠ 0) : rnd s x.val = x :=
  eq_of_val_eq (rnd_val_self h) (by rw [rnd_val_self h]; exact h0)

theorem rnd_abs_le {s : Bool} {q : ℚ} {y : F32} (h : |q| ≤ |y.val|) :
    |(rnd s q).val| ≤ |y.val| := by
  rw [abs_val, rnd_mag, abs_val, magVal_le] at *
  refine (min_le_left _ _).trans (roundIdx_le_of_le (mul_nonneg (abs_nonneg _) unit_pos.le)
    (mul_unit_le_magInt.2 h))

theorem rnd_fin {s : Bool} {q : ℚ} {y : F32} (hy : y.isFin = true) (h : |q| ≤ |y.val|) :
    (rnd s q).isFin = true :=
  isFin_of_abs_le (rnd_abs_le h) hy

end F32
end Verif
