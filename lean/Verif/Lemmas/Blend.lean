import Verif.Spec.Blend
import Verif.Lemmas.Lerp
import Verif.F32.Extra

/-! # Helper lemmas: the lerp kernel computes a weighted mean -/

namespace Verif
open F32 Interpolation

theorem scaled_bounds {a s : F32} (ha : a.isFin = true) (hs0 : 0 ≤ s.val) (hs1 : s.val ≤ 1) :
    (a * s).isFin = true ∧ |(a * s).val| ≤ (2 ^ 24 - 1) * 2 ^ 104 * s.val ∧
      |(a * s).val - a.val * s.val| ≤ 1 / 2 ^ 150 + |a.val * s.val| / 2 ^ 24 := by
  have hsf : s.isFin = true := fin_of_val (by rw [abs_of_nonneg hs0]; exact lt_of_le_of_lt hs1 (by norm_num))
  have hle : |a.val * s.val| ≤ |a.val| := by
    rw [abs_mul, abs_of_nonneg hs0]; exact mul_le_of_le_one_right (abs_nonneg _) hs1
  have hmax := rnd_max_mul (s := false) hs0 hs1
  rw [maxFin_val] at hmax
  have hb : |a.val * s.val| ≤ (2 ^ 24 - 1) * 2 ^ 104 * s.val := by
    rw [abs_mul, abs_of_nonneg hs0]; exact mul_le_mul_of_nonneg_right (fin_le_max ha) hs0
  rw [mul_fin ha hsf]
  have hf := rnd_fin (s := a.neg != s.neg) ha hle
  refine ⟨hf, ?_, (rnd_error hf).trans (max_le_add_of_nonneg (by positivity) (by positivity))⟩
  rw [abs_le] at hb ⊢
  refine ⟨?_, (rnd_mono hb.2).trans hmax⟩
  have := rnd_mono (s := false) (t := a.neg != s.neg) hb.1
  rw [rnd_val_odd false false] at this
  linarith

theorem lerpUnchecked_blend {a b t : F32} (ha : a.isFin = true) (hb : b.isFin = true) (h0 : 0 ≤ t.val) (h1 : t.val ≤ 1) :
    IsBlend a b t.val (lerpUnchecked a b t) := by
  have ht : t.isFin = true := fin_of_val (by rw [abs_of_nonneg h0]; exact lt_of_le_of_lt h1 (by norm_num))
  unfold lerpUnchecked IsBlend
  set s := (lit 1 - t : F32) with hs
  have hse : s = rnd (((lit 1 : F32).neg) && !t.neg) (1 - t.val) := by rw [hs, sub_fin lit1_fin ht, lit1_val]
  have hs0 : 0 ≤ s.val := by rw [hse]; exact rnd_val_nonneg (by linarith)
  have hs1 : s.val ≤ 1 := by
    rw [hse, ← lit1_val]; exact rnd_le (isFin.not_nan lit1_fin) (by rw [lit1_val]; linarith)
  have hsd : |s.val - (1 - t.val)| ≤ 1 / 2 ^ 25 := by
    rw [hse]; exact rnd_error_unit (by rw [abs_le]; constructor <;> linarith)
  have hsf : s.isFin = true := fin_of_val (by rw [abs_of_nonneg hs0]; exact lt_of_le_of_lt hs1 (by norm_num))
  obtain ⟨pf, pm, pe⟩ := scaled_bounds ha hs0 hs1
  obtain ⟨qf, qm, qe⟩ := scaled_bounds hb h0 h1
  generalize a * s = p at pf pm pe ⊢
  generalize b * t = q at qf qm qe ⊢
  have hst := abs_le.1 hsd
  have hsum : |p.val + q.val| < 2 ^ 128 - 2 ^ 103 := by
    have hM : (0:ℚ) < (2 ^ 24 - 1) * 2 ^ 104 := by norm_num
    have h2 : |p.val + q.val| ≤ (2 ^ 24 - 1) * 2 ^ 104 * (s.val + t.val) := by
      rw [mul_add]; exact (abs_add_le _ _).trans (add_le_add pm qm)
    have h3 : (2 ^ 24 - 1) * 2 ^ 104 * (s.val + t.val) ≤ (2 ^ 24 - 1) * 2 ^ 104 * (1 + 1 / 2 ^ 25) :=
      mul_le_mul_of_nonneg_left (by linarith) hM.le
    exact lt_of_le_of_lt (h2.trans h3) (by norm_num)
  rw [add_fin pf qf]
  have hrf := rnd_fin_of_lt (s := p.neg && q.neg) hsum
  refine ⟨hrf, ?_⟩
  have hre := (rnd_error hrf).trans (max_le_add_of_nonneg (by positivity) (by positivity))
  generalize rnd (p.neg && q.neg) (p.val + q.val) = r at hre
  have hma := le_max_left |a.val| |b.val|
  have hmb := le_max_right |a.val| |b.val|
  have hm0 : 0 ≤ max |a.val| |b.val| := (abs_nonneg _).trans hma
  generalize max |a.val| |b.val| = m at hma hmb hm0 ⊢
  have e1 : |a.val * s.val| ≤ m * s.val := by
    rw [abs_mul, abs_of_nonneg hs0]; exact mul_le_mul_of_nonneg_right hma hs0
  have e2 : |b.val * t.val| ≤ m * t.val := by
    rw [abs_mul, abs_of_nonneg h0]; exact mul_le_mul_of_nonneg_right hmb h0
  have e3 : |a.val * (s.val - (1 - t.val))| ≤ m * (1 / 2 ^ 25) := by
    rw [abs_mul]; exact mul_le_mul hma hsd (abs_nonneg _) hm0
  have e4 : m * s.val + m * t.val ≤ m * (1 + 1 / 2 ^ 25) := by
    rw [← mul_add]; exact mul_le_mul_of_nonneg_left (by linarith) hm0
  have e5 : |p.val + q.val| ≤ |p.val - a.val * s.val| + |a.val * s.val| + (|q.val - b.val * t.val| + |b.val * t.val|) := by
    have h3 := abs_add_le (p.val - a.val * s.val) (a.val * s.val)
    have h4 := abs_add_le (q.val - b.val * t.val) (b.val * t.val)
    rw [sub_add_cancel] at h3 h4
    exact (abs_add_le _ _).trans (add_le_add h3 h4)
  have e6 : r.val - ((1 - t.val) * a.val + t.val * b.val) = (r.val - (p.val + q.val)) + (p.val - a.val * s.val) +
      (q.val - b.val * t.val) + a.val * (s.val - (1 - t.val)) := by ring
  have e7 : |r.val - ((1 - t.val) * a.val + t.val * b.val)| ≤ |r.val - (p.val + q.val)| + |p.val - a.val * s.val| +
      |q.val - b.val * t.val| + |a.val * (s.val - (1 - t.val))| := by
    rw [e6]
    refine (abs_add_le _ _).trans (add_le_add ((abs_add_le _ _).trans (add_le_add (abs_add_le _ _) le_rfl)) le_rfl)
  have hu : (0:ℚ) < 1 / 2 ^ 150 := by positivity
  rw [show (1:ℚ) / 2 ^ 148 = 4 * (1 / 2 ^ 150) by norm_num]
  generalize (1:ℚ) / 2 ^ 150 = ε at *
  linarith

end Verif
