import Verif.F32.More
import Mathlib.Algebra.Order.Archimedean.Basic

/-! # Rounding near the top of the range and inside the unit interval -/

namespace Verif
namespace F32

/-- Below the halfway point to `2^128` nothing overflows. -/
theorem rnd_fin_of_lt {s : Bool} {q : ℚ} (h : |q| < 2 ^ 128 - 2 ^ 103) : (rnd s q).isFin = true := by
  rw [isFin_iff, rnd_mag]
  refine lt_of_le_of_lt (min_le_left _ _) ?_
  by_contra hc
  have hQ : 0 ≤ |q| * unit := mul_nonneg (abs_nonneg _) unit_pos.le
  have hn := roundIdx_nearest hQ maxFin.mag
  have hi := magVal_le.2 (not_lt.1 hc)
  rw [magVal_infMag] at hi
  have conv : ∀ j : Nat, (magInt j : ℚ) - |q| * unit = (magVal j - |q|) * unit := by
    intro j; unfold magVal; field_simp [unit_ne]
  rw [conv, conv, abs_mul, abs_mul, mul_le_mul_iff_left₀ (by rw [abs_of_pos unit_pos]; exact unit_pos)] at hn
  have hm : magVal maxFin.mag = (2 ^ 24 - 1) * 2 ^ 104 := by rw [← maxFin_val, val_of_pos (by decide)]
  rw [hm, abs_of_nonneg (by linarith)] at hn
  rcases abs_cases ((2 ^ 24 - 1) * 2 ^ 104 - |q|) with ⟨h1, h2⟩ | ⟨h1, h2⟩ <;> rw [h1] at hn
  · linarith
  · linarith

/-- Rounding a number of `[-1, 1]` moves it by at most `2^-25`. -/
theorem rnd_error_unit {s : Bool} {q : ℚ} (h : |q| ≤ 1) : |(rnd s q).val - q| ≤ 1 / 2 ^ 25 := by
  have hf : (rnd s q).isFin = true := rnd_fin_of_lt (lt_of_le_of_lt h (by norm_num))
  have hfl := Int.floor_le (q * 2 ^ 24 + 1 / 2)
  have hfl2 := Int.lt_floor_add_one (q * 2 ^ 24 + 1 / 2)
  have hk : |⌊q * 2 ^ 24 + 1 / 2⌋| ≤ 2 ^ 24 := by
    rw [abs_le] at h ⊢
    constructor
    · apply Int.le_floor.2; push_cast; linarith
    · apply Int.le_of_lt_add_one; apply Int.floor_lt.2; push_cast; linarith
  obtain ⟨y, yf, yv⟩ : Rep ((⌊q * 2 ^ 24 + 1 / 2⌋ : ℚ) / 2 ^ 24) := by
    refine rep_of_zpow (m := ⌊q * 2 ^ 24 + 1 / 2⌋) (e := -24) hk (by norm_num) (by norm_num; ring) ?_
    rw [abs_div, div_lt_iff₀ (by positivity)]
    have : ((|⌊q * 2 ^ 24 + 1 / 2⌋| : Int) : ℚ) ≤ ((2 ^ 24 : Int) : ℚ) := by exact_mod_cast hk
    push_cast at this
    exact lt_of_le_of_lt this (by norm_num)
  refine (rnd_nearest hf (y := y)).trans ?_
  rw [yv, abs_le]
  constructor
  · rw [neg_le_sub_iff_le_add, ← sub_nonneg]; linarith
  · linarith

/-- `f32::MAX` times a factor of `[0, 1]` never rounds up. -/
theorem rnd_max_mul {s : Bool} {u : F32} (h0 : 0 ≤ u.val) (h1 : u.val ≤ 1) :
    (rnd s (maxFin.val * u.val)).val ≤ maxFin.val * u.val := by
  have huf : u.isFin = true := fin_of_val (by rw [abs_of_nonneg h0]; exact lt_of_le_of_lt h1 (by norm_num))
  rcases h0.eq_or_lt with h | hpos
  · rw [← h, mul_zero, rnd_val_zero]
  rcases h1.eq_or_lt with h | hlt
  · rw [h, mul_one, rnd_val_self (isFin.not_nan maxFin_fin)]
  by_contra hc
  have hc := not_le.1 hc
  set q := maxFin.val * u.val with hq
  have hqw : q = (1 - 1 / 2 ^ 24) * (u.val * 2 ^ 128) := by rw [hq, maxFin_val]; ring
  obtain ⟨w, wf, wv⟩ : Rep (u.val * 2 ^ 128) := rep_scale huf (e := 128) (by
    rw [abs_of_pos (by positivity)]; nlinarith)
  rw [← wv] at hqw
  have wpos : 0 < w.val := by rw [wv]; positivity
  have hle : (rnd s q).val ≤ w.val := rnd_le (isFin.not_nan wf) (by rw [hqw]; nlinarith)
  have hrf : (rnd s q).isFin = true := rnd_fin wf (by
    rw [abs_of_pos wpos, abs_of_nonneg (by rw [hqw]; nlinarith), hqw]; nlinarith)
  obtain ⟨e, he1, he2⟩ := exists_mem_Ico_zpow wpos (show (1:ℚ) < 2 by norm_num)
  have hu149 : (1 : ℚ) ≤ u.val * 2 ^ 149 := by
    obtain ⟨m, k, -, -, he⟩ := fin_decomp huf
    unfold unit at he
    rw [he]
    have hm : (0:ℚ) < m * 2 ^ k := by rw [← he]; positivity
    have hm : (0:ℤ) < m * 2 ^ k := by exact_mod_cast hm
    exact_mod_cast hm
  have hE : -21 ≤ e := by
    by_contra hcon
    have h3 : (2:ℚ) ^ (e + 1) ≤ 2 ^ (-21 : Int) := zpow_le_zpow_right₀ (by norm_num) (by omega)
    have h4 : (2:ℚ) ^ (-21 : Int) = 1 / 2 ^ 21 := by norm_num
    have h5 : (2:ℚ) ^ 149 = 2 ^ 21 * 2 ^ 128 := by rw [← pow_add]
    rw [h5] at hu149
    rw [h4] at h3
    have h6 : w.val * 2 ^ 21 < 1 := by
      have := lt_of_lt_of_le he2 h3
      rwa [lt_div_iff₀ (by norm_num)] at this
    rw [wv] at h6
    linarith
  have hg : (0:ℚ) < 2 ^ (e - 23) := zpow_pos (by norm_num) _
  have hsp : (2:ℚ) ^ e = 2 ^ 23 * 2 ^ (e - 23) := by
    rw [show (2:ℚ) ^ 23 = 2 ^ (23 : Int) by norm_num, ← zpow_add₀ (by norm_num)]; congr 1; ring
  have hsp1 : (2:ℚ) ^ (e + 1) = 2 ^ 24 * 2 ^ (e - 23) := by
    rw [show (2:ℚ) ^ 24 = 2 ^ (24 : Int) by norm_num, ← zpow_add₀ (by norm_num)]; congr 1; ring
  have hsp2 : (2:ℚ) ^ (e - 23) = 2 * 2 ^ (e - 24) := by
    conv_rhs => rw [show (2:ℚ) * 2 ^ (e - 24) = 2 ^ (1 : Int) * 2 ^ (e - 24) by norm_num, ← zpow_add₀ (by norm_num)]
    congr 1; ring
  obtain ⟨n, hn⟩ := grid_of_ge wf (j := e - 23) (by omega) (by
    rw [abs_of_pos wpos, show 23 + (e - 23) = e by ring]; exact he1)
  have hn1 : 2 ^ 23 ≤ n := by
    rw [hn, hsp] at he1
    have := le_of_mul_le_mul_right he1 hg
    exact_mod_cast this
  have hn2 : n < 2 ^ 24 := by
    rw [hn, hsp1] at he2
    have := lt_of_mul_lt_mul_right he2 hg.le
    exact_mod_cast this
  have hw128 : w.val < 2 ^ 128 := by rw [wv]; nlinarith
  have hrep : ∀ (m : Int) (e : Int), |m| ≤ 2 ^ 24 → -149 ≤ e → 0 ≤ m * (2:ℚ) ^ e → m * (2:ℚ) ^ e ≤ w.val →
      Rep (m * (2:ℚ) ^ e) := fun m e h1 h2 h3 h4 =>
    rep_of_zpow h1 h2 rfl (by rw [abs_of_nonneg h3]; linarith)
  rcases hn1.eq_or_lt with h23 | h23
  · have hqv : q = ((2 ^ 24 - 1 : Int) : ℚ) * (2:ℚ) ^ (e - 24) := by
      rw [hqw, hn, ← h23, hsp2]; push_cast; ring
    have hqle : q ≤ w.val := by rw [hqw]; nlinarith
    have hq0 : 0 ≤ q := by rw [hqw]; nlinarith
    have := (hrep (2 ^ 24 - 1) (e - 24) (by norm_num) (by omega) (hqv ▸ hq0) (hqv ▸ hqle)).rnd_val s
    rw [← hqv] at this
    linarith
  · have hn3 : (2 ^ 23 + 1 : ℚ) ≤ n := by exact_mod_cast h23
    have hn4 : (n : ℚ) ≤ 2 ^ 24 - 1 := by
      have : n ≤ 2 ^ 24 - 1 := by omega
      exact_mod_cast this
    have hq2 : (2:ℚ) ^ e ≤ q := by
      rw [hqw, hn, hsp, ← mul_assoc]
      exact mul_le_mul_of_nonneg_right (by nlinarith) hg.le
    have he0 : (0:ℚ) < 2 ^ e := zpow_pos (by norm_num) _
    obtain ⟨n', hn'⟩ := grid_of_ge hrf (j := e - 23) (by omega) (by
      rw [abs_of_pos (by linarith), show 23 + (e - 23) = e by ring]; linarith)
    have h7 : n' ≤ n := by
      rw [hn, hn'] at hle
      exact_mod_cast le_of_mul_le_mul_right hle hg
    have h8 : n ≤ n' := by
      rw [hn', hqw, hn, ← mul_assoc] at hc
      have := lt_of_mul_lt_mul_right hc hg.le
      have h9 : (n:ℚ) - 1 < n' := by linarith
      have : n - 1 < n' := by exact_mod_cast h9
      omega
    have h9 : n' = n := by omega
    rw [h9, ← hn] at hn'
    obtain ⟨z, zf, zv⟩ := hrep (n - 1) (e - 23) (by rw [abs_le]; omega) (by omega)
      (by push_cast; exact mul_nonneg (by linarith) hg.le) (by rw [hn]; push_cast; exact mul_le_mul_of_nonneg_right (by linarith) hg.le)
    have hz := rnd_nearest hrf (y := z)
    rw [hn', zv, hqw, hn] at hz
    push_cast at hz
    rw [show (n:ℚ) * 2 ^ (e - 23) - (1 - 1 / 2 ^ 24) * (n * 2 ^ (e - 23)) = n / 2 ^ 24 * 2 ^ (e - 23) by ring,
      show ((n:ℚ) - 1) * 2 ^ (e - 23) - (1 - 1 / 2 ^ 24) * (n * 2 ^ (e - 23)) = -((1 - n / 2 ^ 24) * 2 ^ (e - 23)) by ring,
      abs_neg, abs_of_nonneg (mul_nonneg (by linarith) hg.le), abs_of_nonneg (mul_nonneg (by linarith) hg.le)] at hz
    have := le_of_mul_le_mul_right hz hg
    linarith
theorem rep_pow2 {k : Nat} (hk : k ≤ 127) : Rep ((2:ℚ) ^ k) := by
  refine rep_of_zpow (m := 1) (e := (k : Int)) (by norm_num) (by omega) (by simp) ?_
  rw [abs_of_pos (by positivity)]; exact pow_lt_pow_right₀ (by norm_num) (by omega)

/-- A hair above a power of two rounds to at most that power. -/
theorem rnd_pow2_cap {s : Bool} {q : ℚ} {k : Nat} (hk : k ≤ 126) (h : |q| ≤ 2 ^ k * (1 + 1 / 2 ^ 25)) :
    |(rnd s q).val| ≤ 2 ^ k := by
  have main : ∀ (s : Bool) (q : ℚ), q ≤ 2 ^ k * (1 + 1 / 2 ^ 25) → 0 ≤ q → (rnd s q).val ≤ 2 ^ k := by
    intro s q h h0
    obtain ⟨y, yf, yv⟩ := rep_pow2 (k := k) (by omega)
    rcases le_or_gt q (2 ^ k) with hq | hq
    · rw [← yv]; exact rnd_le (isFin.not_nan yf) (by rw [yv]; exact hq)
    · have hf : (rnd s q).isFin = true := by
        refine rnd_fin_of_lt ?_
        rw [abs_of_nonneg h0]
        refine lt_of_le_of_lt h ?_
        have : (2:ℚ) ^ k ≤ 2 ^ 126 := pow_le_pow_right₀ (by norm_num) hk
        refine lt_of_le_of_lt (mul_le_mul_of_nonneg_right this (by norm_num)) (by norm_num)
      have hn := rnd_nearest (y := y) hf
      rw [yv, abs_of_neg (show (2:ℚ) ^ k - q < 0 by linarith)] at hn
      have hup := (abs_le.1 hn).2
      have hge : (2:ℚ) ^ k ≤ (rnd s q).val := by
        rw [← yv]; exact le_rnd (isFin.not_nan yf) (by rw [yv]; exact hq.le)
      by_contra hc
      have hc := not_le.1 hc
      obtain ⟨n, hn⟩ := grid_of_ge hf (j := (k : Int) - 23) (by omega) (by
        rw [show (23 + ((k : Int) - 23)) = (k : Int) by ring, zpow_natCast, abs_of_nonneg (le_trans (by positivity) hge)]
        exact hge)
      have hz : (2:ℚ) ^ ((k : Int) - 23) = 2 ^ k / 2 ^ 23 := by
        rw [zpow_sub₀ (by norm_num), zpow_natCast]; norm_num
      rw [hz] at hn
      have hp : (0:ℚ) < 2 ^ k := by positivity
      have h1 : (2 ^ 23 : ℚ) < n := by
        rw [hn] at hc
        by_contra hcc
        have : (n:ℚ) * (2 ^ k / 2 ^ 23) ≤ 2 ^ 23 * (2 ^ k / 2 ^ 23) :=
          mul_le_mul_of_nonneg_right (not_lt.1 hcc) (by positivity)
        rw [mul_div_cancel₀ _ (by norm_num)] at this
        linarith
      have h2 : (2 ^ 23 + 1 : Int) ≤ n := by
        have : (2 ^ 23 : Int) < n := by exact_mod_cast h1
        omega
      have h3 : ((2 ^ 23 + 1 : Int) : ℚ) ≤ n := by exact_mod_cast h2
      push_cast at h3
      have h4 : (2 ^ 23 + 1 : ℚ) * (2 ^ k / 2 ^ 23) ≤ n * (2 ^ k / 2 ^ 23) :=
        mul_le_mul_of_nonneg_right (by norm_num; exact h3) (by positivity)
      rw [← hn] at h4
      have h5 : (2 ^ 23 + 1 : ℚ) * (2 ^ k / 2 ^ 23) = 2 ^ k * (1 + 1 / 2 ^ 23) := by field_simp
      rw [h5] at h4
      nlinarith
  rcases le_total 0 q with h0 | h0
  · rw [abs_of_nonneg h0] at h
    rw [abs_of_nonneg (rnd_val_nonneg h0)]; exact main s q h h0
  · rw [abs_of_nonpos h0] at h
    rw [abs_of_nonpos (rnd_val_nonpos h0)]
    have e : (rnd s q).val = - (rnd s (-q)).val := by
      conv_lhs => rw [← neg_neg q]
      exact rnd_val_odd _ _ _
    rw [e, neg_neg]; exact main s (-q) h (by linarith)

/-- Both products of a blend and their sum stay within a power of two bounding the two samples. -/
theorem blend_pow2 {a b s t : F32} {k : Nat} (hk : k ≤ 126) (ha : a.isFin = true) (hb : b.isFin = true)
    (ha' : |a.val| ≤ 2 ^ k) (hb' : |b.val| ≤ 2 ^ k) (hs : s.isFin = true) (ht : t.isFin = true)
    (hs0 : 0 ≤ s.val) (ht0 : 0 ≤ t.val) (hst : s.val + t.val ≤ 1 + 1 / 2 ^ 25) :
    (a * s).isFin = true ∧ (b * t).isFin = true ∧ (a * s + b * t).isFin = true ∧ |(a * s + b * t).val| ≤ 2 ^ k := by
  have hp : (0:ℚ) < 2 ^ k := by positivity
  have one : ∀ (a s : F32), a.isFin = true → |a.val| ≤ 2 ^ k → s.isFin = true → 0 ≤ s.val → s.val ≤ 1 + 1 / 2 ^ 25 →
      (a * s).isFin = true ∧ |(a * s).val| ≤ 2 ^ k * s.val := by
    intro a s ha ha' hs hs0 hs1
    obtain ⟨z, zf, zv⟩ := rep_scale hs k (by
      rw [abs_of_nonneg (by positivity)]
      have h1 : (2:ℚ) ^ k ≤ 2 ^ 126 := pow_le_pow_right₀ (by norm_num) hk
      have : s.val * 2 ^ k ≤ (1 + 1 / 2 ^ 25) * 2 ^ 126 := mul_le_mul hs1 h1 hp.le (by norm_num)
      exact lt_of_le_of_lt this (by norm_num))
    have hz : |a.val * s.val| ≤ |z.val| := by
      rw [zv, abs_mul, abs_of_nonneg hs0, abs_of_nonneg (show 0 ≤ s.val * 2 ^ k by positivity), mul_comm s.val]
      exact mul_le_mul_of_nonneg_right ha' hs0
    rw [mul_fin ha hs]
    refine ⟨rnd_fin zf hz, ?_⟩
    have := rnd_abs_le (s := a.neg != s.neg) hz
    rwa [zv, abs_of_nonneg (show 0 ≤ s.val * 2 ^ k by positivity), mul_comm s.val] at this
  obtain ⟨f1, b1⟩ := one a s ha ha' hs hs0 (by linarith)
  obtain ⟨f2, b2⟩ := one b t hb hb' ht ht0 (by linarith)
  have hsum : |(a * s).val + (b * t).val| ≤ 2 ^ k * (1 + 1 / 2 ^ 25) := by
    refine (abs_add_le _ _).trans ((add_le_add b1 b2).trans ?_)
    rw [← mul_add]
    exact mul_le_mul_of_nonneg_left hst hp.le
  have hcap := rnd_pow2_cap (s := (a * s).neg && (b * t).neg) hk hsum
  rw [add_fin f1 f2]
  refine ⟨f1, f2, ?_, hcap⟩
  obtain ⟨y, yf, yv⟩ := rep_pow2 (k := k) (by omega)
  exact isFin_of_abs_le (y := y) (by rw [yv, abs_of_pos hp]; exact hcap) yf

theorem rnd_abs_mono {s t : Bool} {p q : ℚ} (h : |p| ≤ q) : |(rnd s p).val| ≤ (rnd t q).val := by
  have h := abs_le.1 h
  rw [abs_le]
  refine ⟨?_, rnd_mono h.2⟩
  have := rnd_mono (s := false) (t := s) h.1
  rw [rnd_val_odd false t] at this
  exact this

theorem rnd_pow_bound {s : Bool} {q : ℚ} {k : Nat} (hk : k ≤ 127) (h : |q| ≤ 2 ^ k) :
    (rnd s q).isFin = true ∧ |(rnd s q).val| ≤ 2 ^ k := by
  obtain ⟨z, zf, zv⟩ : Rep ((2:ℚ) ^ k) := by
    refine rep_of_zpow (m := 1) (e := (k : Int)) (by norm_num) (by omega) (by simp) ?_
    rw [abs_of_pos (by positivity)]; exact pow_lt_pow_right₀ (by norm_num) (by omega)
  have hz : |z.val| = 2 ^ k := by rw [zv, abs_of_pos (by positivity)]
  rw [← hz] at h ⊢
  exact ⟨rnd_fin zf h, rnd_abs_le h⟩

theorem neg_neg_bit (x : F32) : (-x).neg = !x.neg := by
  show (pack (!x.neg) x.mag).neg = _
  rw [neg_pack]

theorem mag_neg_bit (x : F32) : (-x).mag = x.mag := by
  show (pack (!x.neg) x.mag).mag = _
  rw [mag_pack_of_lt (mag_lt x)]

theorem rnd_neg_bits (s : Bool) (q : ℚ) : rnd (!s) (-q) = - rnd s q := by
  refine ext_neg_mag ?_ ?_
  · rw [neg_neg_bit]
    rcases lt_trichotomy q 0 with h | h | h
    · rw [rnd_neg_of_nonneg (by linarith), rnd_neg_of_neg h]; rfl
    · subst h; rw [neg_zero, rnd_zero, rnd_zero, neg_pack, neg_pack]
    · rw [rnd_neg_of_neg (by linarith), rnd_neg_of_nonneg h]; rfl
  · rw [mag_neg_bit, rnd_mag, rnd_mag, abs_neg]

end F32
end Verif
