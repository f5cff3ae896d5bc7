import Verif.Props.Phase
import Verif.Spec.External
import Verif.Spec.Slice
import Verif.Lemmas.Slice
import Verif.Lemmas.Lerp
import Verif.Lemmas.Blend
import Verif.Props.BlRect

/-! # C68 – C71: the oscillators on top of the phase accumulator

All theorems are about an arbitrary accumulator state, so they cover every history of calls and settings. -/

namespace Verif
open F32 FunctionalOscillator

/-! ## Helper lemmas: the waveforms as functions of a phase in [0,1] -/

/-- A phase value: a number in [0,1]. -/
def IsPhase (p : F32) : Prop := p.isFin = true ∧ 0 ≤ p.val ∧ p.val ≤ 1

theorem phase_isPhase (a : SoftPhaseAccumulator) : IsPhase a.nextValueNormalized.2 := phase_range a

theorem rnd_unit {s : Bool} {q : ℚ} (h : |q| ≤ 1) : (rnd s q).isFin = true ∧ |(rnd s q).val| ≤ 1 := by
  simpa using rnd_pow_bound (s := s) (k := 0) (by norm_num) (by simpa using h)

theorem mul_two_val {x : F32} (hx : x.isFin = true) (h : |x.val| ≤ 1) : (x * lit 2).isFin = true ∧ (x * lit 2).val = 2 * x.val := by
  have := mul_exact hx lit2_fin (by
    rw [lit2_val]
    have := rep_scale hx 1 (by rw [abs_mul]; norm_num; linarith)
    simpa using this)
  rw [lit2_val] at this
  exact ⟨this.1, by rw [this.2]; ring⟩

theorem saw_val {p : F32} (h : IsPhase p) :
    (sawOf p).isFin = true ∧ |(sawOf p).val| ≤ 1 ∧ ∃ s, sawOf p = rnd s (2 * p.val - 1) := by
  obtain ⟨hf, h0, h1⟩ := h
  obtain ⟨f1, v1⟩ := mul_two_val hf (by rw [abs_of_nonneg h0]; exact h1)
  have e : sawOf p = rnd ((p * lit 2).neg && !(lit 1 : F32).neg) (2 * p.val - 1) := by
    unfold sawOf; rw [sub_fin f1 lit1_fin, v1, lit1_val]
  have hb : |2 * p.val - 1| ≤ 1 := by rw [abs_le]; constructor <;> linarith
  have hu := rnd_unit (s := (p * lit 2).neg && !(lit 1 : F32).neg) hb
  rw [← e] at hu
  exact ⟨hu.1, hu.2, _, e⟩

/-- Both branches of the triangle compute `(1 - |saw|)*2 - 1`. -/
theorem tri_eq_abs (p : F32) : triOf p = (lit 1 - (sawOf p).abs) * lit 2 - lit 1 := by
  have ht : ∀ x : F32, (if x.isSignPositive then (lit 1 - x) * lit 2 - lit 1 else (lit 1 - (-x)) * lit 2 - lit 1) =
      (lit 1 - x.abs) * lit 2 - (lit 1 : F32) := by
    intro x
    unfold isSignPositive
    cases hn : x.neg with
    | false =>
      have : x.abs = x := ext_neg_mag (by rw [hn]; show (pack false x.mag).neg = _; rw [neg_pack])
        (by show (pack false x.mag).mag = _; rw [mag_pack_of_lt (mag_lt x)])
      rw [this]; simp
    | true =>
      have : x.abs = -x := ext_neg_mag (by rw [neg_neg_bit, hn]; show (pack false x.mag).neg = _; rw [neg_pack]; rfl)
        (by rw [mag_neg_bit]; show (pack false x.mag).mag = _; rw [mag_pack_of_lt (mag_lt x)])
      rw [this]; simp
  exact ht (sawOf p)

theorem tri_val {p : F32} (h : IsPhase p) :
    (triOf p).isFin = true ∧ |(triOf p).val| ≤ 1 ∧
    (triOf p).val = (rnd false (2 * (rnd false (1 - |(sawOf p).val|)).val - 1)).val := by
  obtain ⟨hf, hb, -⟩ := saw_val h
  obtain ⟨x, hx⟩ : ∃ x, x = (sawOf p).abs := ⟨_, rfl⟩
  have hxf : x.isFin = true := by rw [hx, isFin_abs]; exact hf
  have hxv : x.val = |(sawOf p).val| := by rw [hx, val_abs]
  have hx0 : 0 ≤ x.val := by rw [hxv]; exact abs_nonneg _
  rw [tri_eq_abs, ← hxv, ← hx]
  rw [← hxv] at hb
  have hb1 : |1 - x.val| ≤ 1 := by rw [abs_le]; constructor <;> linarith
  have hd : lit 1 - x = rnd ((lit 1 : F32).neg && !x.neg) (1 - x.val) := by rw [sub_fin lit1_fin hxf, lit1_val]
  have hdu := rnd_unit (s := (lit 1 : F32).neg && !x.neg) hb1
  rw [← hd] at hdu
  have hd0 : 0 ≤ (lit 1 - x).val := by rw [hd]; exact rnd_val_nonneg (by linarith)
  obtain ⟨mf, mv⟩ := mul_two_val hdu.1 hdu.2
  have hdv : (rnd false (1 - x.val)).val = (lit 1 - x).val := by
    rw [hd]; exact le_antisymm (rnd_mono le_rfl) (rnd_mono le_rfl)
  rw [hdv, sub_fin mf lit1_fin, mv, lit1_val]
  have hle := abs_le.1 hdu.2
  have hb2 : |2 * (lit 1 - x).val - 1| ≤ 1 := by rw [abs_le]; constructor <;> linarith
  obtain ⟨u1, u2⟩ := rnd_unit (s := ((lit 1 - x) * lit 2).neg && !(lit 1 : F32).neg) hb2
  exact ⟨u1, u2, le_antisymm (rnd_mono le_rfl) (rnd_mono le_rfl)⟩

variable (checks : Bool) (floor : F32 → F32) (rem : F32 → F32 → F32)

/-! ## C68 -/

/-- C68: the sawtooth and triangle oscillators return a number in [-1,1] from every state. -/
theorem C68_range (o : FunctionalOscillator SoftPhaseAccumulator) (hw : o.wave = .sawtooth ∨ o.wave = .triangle) :
    ∃ o' x, o.next checks floor rem = .ok (o', x) ∧ x.isFin = true ∧ -1 ≤ x.val ∧ x.val ≤ 1 := by
  have hp := phase_isPhase o.acc
  rcases hw with hw | hw
  · refine ⟨_, _, show o.next checks floor rem = .ok ({ o with acc := o.acc.nextValueNormalized.1 },
      sawOf o.acc.nextValueNormalized.2) by unfold FunctionalOscillator.next; rw [hw]; rfl, (saw_val hp).1, ?_⟩
    exact abs_le.1 (saw_val hp).2.1
  · refine ⟨_, _, show o.next checks floor rem = .ok ({ o with acc := o.acc.nextValueNormalized.1 },
      triOf o.acc.nextValueNormalized.2) by unfold FunctionalOscillator.next; rw [hw]; rfl, (tri_val hp).1, ?_⟩
    exact abs_le.1 (tri_val hp).2.1

/-- a triangle oscillator in mid flight -/
example : (FunctionalOscillator.next true stdFloor mmRem
    ({ acc := { counter := 2 ^ 30, freq := lit 0, shift := 0, minStep := lit 0 }, wave := .triangle } :
      FunctionalOscillator SoftPhaseAccumulator)).toOption.map (·.2.val) = some 0 := by decide +kernel

/-! ## C70 -/

/-- The output of `next` is the waveform applied to the phase the accumulator reports. -/
theorem next_saw (o : FunctionalOscillator SoftPhaseAccumulator) (hw : o.wave = .sawtooth) :
    o.next checks floor rem = .ok ({ o with acc := o.acc.nextValueNormalized.1 }, sawOf o.acc.nextValueNormalized.2) := by
  unfold FunctionalOscillator.next; rw [hw]; rfl
theorem next_tri (o : FunctionalOscillator SoftPhaseAccumulator) (hw : o.wave = .triangle) :
    o.next checks floor rem = .ok ({ o with acc := o.acc.nextValueNormalized.1 }, triOf o.acc.nextValueNormalized.2) := by
  unfold FunctionalOscillator.next; rw [hw]; rfl
theorem next_rect (o : FunctionalOscillator SoftPhaseAccumulator) (hw : o.wave = .rectangle) :
    o.next checks floor rem = .ok ({ o with acc := o.acc.nextValueNormalized.1 }, rectOf floor o.acc.nextValueNormalized.2) := by
  unfold FunctionalOscillator.next; rw [hw]; rfl

/-- Larger integer phase, no smaller float phase. -/
theorem phase_mono {a b : SoftPhaseAccumulator} (h : a.nextValue.2 ≤ b.nextValue.2) :
    a.nextValueNormalized.2.val ≤ b.nextValueNormalized.2.val := by
  rw [nextNormalized_eq, nextNormalized_eq, (normalized_val (phaseAfter_lt a)).2.1, (normalized_val (phaseAfter_lt b)).2.1]
  refine div_le_div_of_nonneg_right (rnd_mono ?_) (by norm_num)
  exact_mod_cast h

/-- Specification: one period of the ideal triangle, from -1 up to 1 at one half and back. -/
def idealTriangle (t : ℚ) : ℚ := if t ≤ 1 / 2 then 4 * t - 1 else 3 - 4 * t

theorem phase_err (a : SoftPhaseAccumulator) : |a.nextValueNormalized.2.val - (a.nextValue.2 : ℚ) / 2 ^ 32| ≤ 1 / 2 ^ 24 :=
  (C67_partial a).2.2.2.1

/-- C70: the sawtooth is `2*phase - 1`: to within `2^-25` of the float phase, `2^-22` of the integer phase `k/2^32`. -/
theorem C70_saw (o : FunctionalOscillator SoftPhaseAccumulator) (hw : o.wave = .sawtooth) :
    ∃ o' x, o.next checks floor rem = .ok (o', x) ∧
      |x.val - (2 * o.acc.nextValueNormalized.2.val - 1)| ≤ 1 / 2 ^ 25 ∧
      |x.val - (2 * ((o.acc.nextValue.2 : ℚ) / 2 ^ 32) - 1)| ≤ 1 / 2 ^ 22 := by
  refine ⟨_, _, next_saw checks floor rem o hw, ?_⟩
  have hp := phase_isPhase o.acc
  obtain ⟨s, hs⟩ := (saw_val hp).2.2
  have h1 : |(sawOf o.acc.nextValueNormalized.2).val - (2 * o.acc.nextValueNormalized.2.val - 1)| ≤ 1 / 2 ^ 25 := by
    rw [hs]; exact rnd_error_unit (by rw [abs_le]; constructor <;> linarith [hp.2.1, hp.2.2])
  refine ⟨h1, ?_⟩
  have h2 := phase_err o.acc
  rw [abs_le] at h1 h2 ⊢
  constructor <;> linarith [h1.1, h1.2, h2.1, h2.2]

/-- C70: the triangle follows the ideal one to within `2^-20`. -/
theorem C70_tri (o : FunctionalOscillator SoftPhaseAccumulator) (hw : o.wave = .triangle) :
    ∃ o' x, o.next checks floor rem = .ok (o', x) ∧
      |x.val - idealTriangle ((o.acc.nextValue.2 : ℚ) / 2 ^ 32)| ≤ 1 / 2 ^ 20 := by
  refine ⟨_, _, next_tri checks floor rem o hw, ?_⟩
  have hp := phase_isPhase o.acc
  obtain ⟨s, hs⟩ := (saw_val hp).2.2
  have hsb := (saw_val hp).2.1
  have h1 : |(sawOf o.acc.nextValueNormalized.2).val - (2 * o.acc.nextValueNormalized.2.val - 1)| ≤ 1 / 2 ^ 25 := by
    rw [hs]; exact rnd_error_unit (by rw [abs_le]; constructor <;> linarith [hp.2.1, hp.2.2])
  have h2 := phase_err o.acc
  rw [(tri_val hp).2.2]
  obtain ⟨y, hy⟩ : ∃ y, y = (sawOf o.acc.nextValueNormalized.2).val := ⟨_, rfl⟩
  obtain ⟨t, ht⟩ : ∃ t, t = (o.acc.nextValue.2 : ℚ) / 2 ^ 32 := ⟨_, rfl⟩
  rw [← hy] at h1 hsb ⊢; rw [← ht] at h2 ⊢
  have hy0 := abs_nonneg y
  have h3 := rnd_error_unit (s := false) (q := 1 - |y|) (by rw [abs_le]; constructor <;> linarith)
  have h3b := (rnd_unit (s := false) (q := 1 - |y|) (by rw [abs_le]; constructor <;> linarith)).2
  have h3c : 0 ≤ (rnd false (1 - |y|)).val := rnd_val_nonneg (by linarith)
  have h4 := rnd_error_unit (s := false) (q := 2 * (rnd false (1 - |y|)).val - 1)
    (by rw [abs_le] at h3b ⊢; constructor <;> linarith [h3b.2])
  have hyt : |(|y|) - (|2 * t - 1|)| ≤ 1 / 2 ^ 22 := by
    refine (abs_abs_sub_abs_le _ _).trans ?_
    rw [abs_le] at h1 h2 ⊢
    constructor <;> linarith [h1.1, h1.2, h2.1, h2.2]
  have hid : idealTriangle t = 1 - 2 * |(2 * t - 1)| := by
    unfold idealTriangle
    split
    · rw [abs_of_nonpos (by linarith)]; ring
    · rw [abs_of_nonneg (by linarith)]; ring
  rw [hid]
  rw [abs_le] at h3 h4 hyt ⊢
  constructor <;> linarith [h3.1, h3.2, h4.1, h4.2, hyt.1, hyt.2]

/-- C70: the sawtooth never falls while the integer phase grows. -/
theorem C70_saw_mono {o₁ o₂ : FunctionalOscillator SoftPhaseAccumulator} (h₁ : o₁.wave = .sawtooth) (h₂ : o₂.wave = .sawtooth)
    (h : o₁.acc.nextValue.2 ≤ o₂.acc.nextValue.2) :
    ∃ o₁' x₁ o₂' x₂, o₁.next checks floor rem = .ok (o₁', x₁) ∧ o₂.next checks floor rem = .ok (o₂', x₂) ∧
      x₁.val ≤ x₂.val := by
  refine ⟨_, _, _, _, next_saw checks floor rem o₁ h₁, next_saw checks floor rem o₂ h₂, ?_⟩
  obtain ⟨s, hs⟩ := (saw_val (phase_isPhase o₁.acc)).2.2
  obtain ⟨t, ht⟩ := (saw_val (phase_isPhase o₂.acc)).2.2
  rw [hs, ht]
  exact rnd_mono (by linarith [phase_mono h])

theorem saw_abs_first {p q : F32} (hp : IsPhase p) (hq : IsPhase q) (h : p.val ≤ q.val) (hq2 : q.val ≤ 1 / 2) :
    |(sawOf q).val| ≤ |(sawOf p).val| := by
  obtain ⟨s, hs⟩ := (saw_val hp).2.2
  obtain ⟨t, ht⟩ := (saw_val hq).2.2
  rw [hs, ht, abs_of_nonpos (rnd_val_nonpos (by linarith)), abs_of_nonpos (rnd_val_nonpos (by linarith))]
  exact neg_le_neg (rnd_mono (by linarith))

theorem saw_abs_second {p q : F32} (hp : IsPhase p) (hq : IsPhase q) (h : p.val ≤ q.val) (hp2 : 1 / 2 ≤ p.val) :
    |(sawOf p).val| ≤ |(sawOf q).val| := by
  obtain ⟨s, hs⟩ := (saw_val hp).2.2
  obtain ⟨t, ht⟩ := (saw_val hq).2.2
  rw [hs, ht, abs_of_nonneg (rnd_val_nonneg (by linarith)), abs_of_nonneg (rnd_val_nonneg (by linarith))]
  exact rnd_mono (by linarith)

theorem tri_of_abs {p q : F32} (hp : IsPhase p) (hq : IsPhase q) (h : |(sawOf q).val| ≤ |(sawOf p).val|) :
    (triOf p).val ≤ (triOf q).val := by
  rw [(tri_val hp).2.2, (tri_val hq).2.2]
  refine rnd_mono ?_
  have := rnd_mono (s := false) (t := false) (by linarith : 1 - |(sawOf p).val| ≤ 1 - |(sawOf q).val|)
  linarith

theorem phase_half_le {a : SoftPhaseAccumulator} (h : a.nextValue.2 ≤ 2 ^ 31) : a.nextValueNormalized.2.val ≤ 1 / 2 := by
  rw [nextNormalized_eq, (normalized_val (phaseAfter_lt a)).2.1, div_le_iff₀ (by norm_num)]
  have := (rnd_pow_bound (s := false) (k := 31) (q := ((phaseAfter a : Int) : ℚ)) (by norm_num)
    (by rw [abs_of_nonneg (by positivity)]; exact_mod_cast h)).2
  refine (le_abs_self _).trans (this.trans (by norm_num))

theorem phase_half_ge {a : SoftPhaseAccumulator} (h : 2 ^ 31 ≤ a.nextValue.2) : 1 / 2 ≤ a.nextValueNormalized.2.val := by
  rw [nextNormalized_eq, (normalized_val (phaseAfter_lt a)).2.1, le_div_iff₀ (by norm_num)]
  have e : (ofInt (2 ^ 31)).val = 2 ^ 31 := by decide +kernel
  refine le_trans (le_of_eq ?_) (le_trans (le_of_eq e.symm) (rnd_mono ?_))
  · norm_num
  · exact_mod_cast h

/-- C70: in the first half of the cycle the triangle never falls, in the second half it never rises. -/
theorem C70_tri_mono {o₁ o₂ : FunctionalOscillator SoftPhaseAccumulator} (h₁ : o₁.wave = .triangle) (h₂ : o₂.wave = .triangle)
    (h : o₁.acc.nextValue.2 ≤ o₂.acc.nextValue.2) :
    ∃ o₁' x₁ o₂' x₂, o₁.next checks floor rem = .ok (o₁', x₁) ∧ o₂.next checks floor rem = .ok (o₂', x₂) ∧
      (o₂.acc.nextValue.2 ≤ 2 ^ 31 → x₁.val ≤ x₂.val) ∧ (2 ^ 31 ≤ o₁.acc.nextValue.2 → x₂.val ≤ x₁.val) := by
  refine ⟨_, _, _, _, next_tri checks floor rem o₁ h₁, next_tri checks floor rem o₂ h₂, fun hh => ?_, fun hh => ?_⟩
  · exact tri_of_abs (phase_isPhase _) (phase_isPhase _)
      (saw_abs_first (phase_isPhase _) (phase_isPhase _) (phase_mono h) (phase_half_le hh))
  · exact tri_of_abs (phase_isPhase _) (phase_isPhase _)
      (saw_abs_second (phase_isPhase _) (phase_isPhase _) (phase_mono h) (phase_half_ge hh))

/-- the corners: start, quarter, half and three quarters of the cycle -/
example : (triOf (lit 0)).val = -1 ∧ (triOf (lit (1 / 4))).val = 0 ∧ (triOf (lit (1 / 2))).val = 1 ∧
    (triOf (lit (3 / 4))).val = 0 ∧ (sawOf (lit (3 / 4))).val = 1 / 2 := by decide +kernel

/-! ## C69 -/

/-- C69 in full: a rectangle oscillator returns -1 or 1, and 1 exactly in the second half. -/
def C69_Full (floor : F32 → F32) : Prop := ∀ (o : FunctionalOscillator SoftPhaseAccumulator), o.wave = .rectangle →
  o.acc.counter < 2 ^ 32 → o.acc.shift < 2 ^ 32 →
  ∃ o' x, o.next true floor mmRem = .ok (o', x) ∧ (x = lit (-1) ∨ x = lit 1) ∧
    (x = lit 1 ↔ 1 / 2 ≤ o.acc.nextValueNormalized.2.val)

theorem below_one {z : F32} (h0 : 0 ≤ z.val) (h1 : z.val < 1) : z.val ≤ 1 - 1 / 2 ^ 24 := by
  have e2 : magVal 0x3f800000 = 1 := by decide +kernel
  have e3 : magVal 0x3f7fffff = 1 - 1 / 2 ^ 24 := by decide +kernel
  have hz : z.val = magVal z.mag := by rw [← abs_val, abs_of_nonneg h0]
  rw [hz, ← e2, magVal_lt] at h1
  rw [hz, ← e3, magVal_le]; omega

/-- A number slightly below 1, the largest float there. -/
theorem rep_below_one : Rep (1 - 1 / 2 ^ 24) := ⟨lit (1 - 1 / 2 ^ 24), by decide +kernel, by decide +kernel⟩
theorem rep_neg_step : Rep (-(1 / 2 ^ 24)) := ⟨lit (-(1 / 2 ^ 24)), by decide +kernel, by decide +kernel⟩
theorem rep_below_one' : Rep (1 - 1 / 2 ^ 23) := ⟨lit (1 - 1 / 2 ^ 23), by decide +kernel, by decide +kernel⟩
theorem rep_below_two : Rep (2 - 1 / 2 ^ 23) := ⟨lit (2 - 1 / 2 ^ 23), by decide +kernel, by decide +kernel⟩

theorem rnd_le_rep {s : Bool} {q r : ℚ} (hr : Rep r) (h : q ≤ r) : (rnd s q).val ≤ r := by
  obtain ⟨z, hz, rfl⟩ := hr; exact rnd_le (isFin.not_nan hz) h
theorem rep_le_rnd {s : Bool} {q r : ℚ} (hr : Rep r) (h : r ≤ q) : r ≤ (rnd s q).val := by
  obtain ⟨z, hz, rfl⟩ := hr; exact le_rnd (isFin.not_nan hz) h

/-- `saw + 1` falls in the right unit interval. -/
theorem saw_add_one {p : F32} (h : IsPhase p) :
    (sawOf p + lit 1).isFin = true ∧ 0 ≤ (sawOf p + lit 1).val ∧ (sawOf p + lit 1).val ≤ 2 ∧
    (p.val < 1 / 2 → (sawOf p + lit 1).val < 1) ∧ (1 / 2 ≤ p.val → 1 ≤ (sawOf p + lit 1).val) ∧
    (p.val < 1 → (sawOf p + lit 1).val < 2) ∧ (p.val = 1 → (sawOf p + lit 1).val = 2) := by
  obtain ⟨hf, hb, s, hs⟩ := saw_val h
  obtain ⟨pf, p0, p1⟩ := h
  have hb' := abs_le.1 hb
  rw [add_fin hf lit1_fin, lit1_val]
  obtain ⟨t, ht⟩ : ∃ t, t = ((sawOf p).neg && (lit 1 : F32).neg) := ⟨_, rfl⟩
  rw [← ht]
  have hb2 := rnd_pow_bound (s := t) (k := 1) (q := (sawOf p).val + 1) (by norm_num)
    (by rw [abs_le]; constructor <;> linarith)
  have h0 := rnd_val_nonneg (s := t) (q := (sawOf p).val + 1) (by linarith)
  obtain ⟨m2, v2⟩ := mul_two_val pf (by rw [abs_of_nonneg p0]; exact p1)
  refine ⟨hb2.1, h0, (le_abs_self _).trans (hb2.2.trans (by norm_num)), fun h => ?_, fun h => ?_, fun h => ?_, fun h => ?_⟩
  · have h2 := below_one (z := p * lit 2) (by rw [v2]; linarith) (by rw [v2]; linarith)
    rw [v2] at h2
    have h3 : (sawOf p).val ≤ -(1 / 2 ^ 24) := by rw [hs]; exact rnd_le_rep rep_neg_step (by linarith)
    exact lt_of_le_of_lt (rnd_le_rep rep_below_one (by linarith)) (by norm_num)
  · have h3 : 0 ≤ (sawOf p).val := by rw [hs]; exact rnd_val_nonneg (by linarith)
    exact rep_le_rnd rep_one (by linarith)
  · have h2 := below_one p0 h
    have h3 : (sawOf p).val ≤ 1 - 1 / 2 ^ 23 := by rw [hs]; exact rnd_le_rep rep_below_one' (by linarith)
    exact lt_of_le_of_lt (rnd_le_rep rep_below_two (by linarith)) (by norm_num)
  · have h3 : (sawOf p).val = 1 := by
      rw [hs, h, show (2:ℚ) * 1 - 1 = 1 by norm_num]; exact rep_one.rnd_val _
    rw [h3, show (1:ℚ) + 1 = 2 by norm_num]; exact rep_two.rnd_val _

variable {floor}

theorem rect_of_floor (hfl : FloorContract floor) {p : F32} (h : IsPhase p) {n : Int} (hn : 0 ≤ n) (hn2 : n ≤ 2)
    (he : ⌊(sawOf p + lit 1).val⌋ = n) : (rectOf floor p).val = 2 * n - 1 := by
  obtain ⟨f1, h0, h2, -⟩ := saw_add_one h
  obtain ⟨g1, g2⟩ := hfl _ f1 (by rw [abs_of_nonneg h0]; exact h2.trans (by norm_num))
  rw [he] at g2
  have hnq : (n : ℚ) ≤ 2 := by exact_mod_cast hn2
  have hnq0 : (0 : ℚ) ≤ n := by exact_mod_cast hn
  obtain ⟨m1, m2⟩ := mul_exact g1 lit2_fin (by
    rw [g2, lit2_val]; have := rep_int (n := n * 2) (by rw [abs_le]; constructor <;> omega); push_cast at this; exact this)
  rw [g2, lit2_val] at m2
  have := sub_exact m1 lit1_fin (by
    rw [m2, lit1_val]
    have := rep_int (n := n * 2 - 1) (by rw [abs_le]; constructor <;> omega)
    push_cast at this; exact this)
  unfold rectOf
  rw [this.2, m2, lit1_val]; ring

/-- C69 fails whatever correct `floor` is used: at the end of the cycle, where the float phase is 1.0, the output is 3. -/
theorem C69_refuted (hfl : FloorContract floor) : ¬ C69_Full floor := by
  intro h
  obtain ⟨a, ha⟩ : ∃ a, a = (SoftPhaseAccumulator.new (lit 0) (lit 1)).setPhaseShift (2 ^ 32 - 1) := ⟨_, rfl⟩
  have hp1 : a.nextValueNormalized.2.val = 1 := by rw [ha]; decide +kernel
  obtain ⟨o', x, h1, h2, -⟩ := h ⟨a, .rectangle⟩ rfl (by rw [ha]; decide) (by rw [ha]; decide)
  rw [next_rect true floor mmRem _ rfl] at h1
  have hx : x = rectOf floor a.nextValueNormalized.2 := by cases h1; rfl
  have hp := phase_isPhase a
  have := rect_of_floor hfl hp (n := 2) (by norm_num) (by norm_num) (by rw [(saw_add_one hp).2.2.2.2.2.2 hp1]; norm_num)
  rw [← hx] at this
  rcases h2 with rfl | rfl
  · rw [litm1_val] at this; norm_num at this
  · rw [lit1_val] at this; norm_num at this

/-- C69, what holds: as long as the float phase is below 1 (integer phase below `2^32 - 128`, see C67) the output is exactly
-1 or 1, and 1 exactly from one half on. Missing: the last 128 integer phases. -/
theorem C69_partial (hfl : FloorContract floor) (o : FunctionalOscillator SoftPhaseAccumulator) (hw : o.wave = .rectangle)
    (h : o.acc.nextValue.2 < 2 ^ 32 - 128) :
    ∃ o' x, o.next checks floor rem = .ok (o', x) ∧ (x = lit (-1) ∨ x = lit 1) ∧
      (x = lit 1 ↔ 1 / 2 ≤ o.acc.nextValueNormalized.2.val) := by
  refine ⟨_, _, next_rect checks floor rem o hw, ?_⟩
  have hp := phase_isPhase o.acc
  have hlt : o.acc.nextValueNormalized.2.val < 1 := (C67_partial o.acc).2.2.2.2.1.2 h
  obtain ⟨-, h0, h2, ha, hb, hc, -⟩ := saw_add_one hp
  by_cases hh : 1 / 2 ≤ o.acc.nextValueNormalized.2.val
  · have := rect_of_floor hfl hp (n := 1) (by norm_num) (by norm_num)
      (Int.floor_eq_iff.2 ⟨by simpa using hb hh, by push_cast; linarith [hc hlt]⟩)
    have he : rectOf floor o.acc.nextValueNormalized.2 = lit 1 :=
      eq_of_val_eq (by rw [this, lit1_val]; norm_num) (by rw [this]; norm_num)
    exact ⟨Or.inr he, fun _ => hh, fun _ => he⟩
  · rw [not_le] at hh
    have := rect_of_floor hfl hp (n := 0) (by norm_num) (by norm_num)
      (Int.floor_eq_iff.2 ⟨by simpa using h0, by simpa using ha hh⟩)
    have he : rectOf floor o.acc.nextValueNormalized.2 = lit (-1) :=
      eq_of_val_eq (by rw [this, litm1_val]; norm_num) (by rw [this]; norm_num)
    refine ⟨Or.inl he, ⟨fun h => ?_, fun h => absurd hh (not_lt.2 h)⟩⟩
    rw [h, lit1_val] at this; norm_num at this

/-- C69, what the code does at the end of the cycle: 3. -/
theorem C69_actual (hfl : FloorContract floor) (o : FunctionalOscillator SoftPhaseAccumulator) (hw : o.wave = .rectangle)
    (h : 2 ^ 32 - 128 ≤ o.acc.nextValue.2) : ∃ o' x, o.next checks floor rem = .ok (o', x) ∧ x.val = 3 := by
  refine ⟨_, _, next_rect checks floor rem o hw, ?_⟩
  have hp := phase_isPhase o.acc
  have h1 : o.acc.nextValueNormalized.2.val = 1 := by rw [(C67_partial o.acc).2.2.2.2.2 h, lit1_val]
  rw [rect_of_floor hfl hp (n := 2) (by norm_num) (by norm_num) (by rw [(saw_add_one hp).2.2.2.2.2.2 h1]; norm_num)]
  norm_num

/-- a rectangle just before and just after the middle of the cycle, and at its end, with two implementations of `floor` -/
example : FloorContract mmFloor ∧ FloorContract stdFloor ∧ rectOf mmFloor (lit (1 / 2 - 1 / 2 ^ 24)) = lit (-1) ∧
    rectOf mmFloor (lit (1 / 2)) = lit 1 ∧ rectOf mmFloor (lit 1) = lit 3 ∧ rectOf stdFloor (lit 1) = lit 3 :=
  ⟨mmFloor_contract, stdFloor_contract, by decide +kernel, by decide +kernel, by decide +kernel, by decide +kernel⟩

/-! ## C71 -/

/-- The table is a whole memory block of its own (a `static` array, say), so every access outside the table is an access
outside the block. -/
def OwnBlock (c : Cfg) (mem : Mem F32) (s : MemorySlice) (xs : List F32) : Prop :=
  ∃ b, s.ptr = ⟨some b, 0⟩ ∧ s.length = xs.length ∧ mem b = some xs ∧ 4 * (xs.length : Int) ≤ c.isizeMax

theorem OwnBlock.views {c : Cfg} {mem : Mem F32} {s : MemorySlice} {xs : List F32} (h : OwnBlock c mem s xs) :
    Views c mem s xs := by
  obtain ⟨b, h1, h2, h3, h4⟩ := h
  exact ⟨b, [], [], by simpa using h1, h2, by simpa using h3, by simpa using h4⟩

theorem OwnBlock.outside {c : Cfg} {mem : Mem F32} {s : MemorySlice} {xs : List F32} (h : OwnBlock c mem s xs) {i : Nat}
    (hi : xs.length ≤ i) : s.getUnchecked mem i = .error .ub := by
  obtain ⟨b, h1, h2, h3, h4⟩ := h
  unfold MemorySlice.getUnchecked load
  simp only [h1, h3]
  rw [List.getElem?_eq_none (by omega)]

variable {c : Cfg} {mem : Mem F32} {xs : List F32}

/-- The position the oscillator looks at: table length times phase, rounded to a float, rounded down. -/
def waveIndex (n : Nat) (p : F32) : Nat := ⌊(rnd false ((n : ℚ) * p.val)).val⌋.toNat

theorem wave_f2u {s : MemorySlice} (h : Views c mem s xs) (hn : xs.length ≤ 2 ^ 24) {p : F32} (hp : IsPhase p) :
    c.f2u (c.u2f s.len * p) = waveIndex xs.length p ∧ waveIndex xs.length p ≤ xs.length := by
  have hl : s.len = xs.length := h.length_eq
  have hv : (c.u2f xs.length).val = xs.length := c.u2f_val hn
  have hf : (c.u2f xs.length).isFin = true := c.u2f_fin hn
  obtain ⟨pf, p0, p1⟩ := hp
  have hn0 : (0:ℚ) ≤ xs.length := by positivity
  have hq0 : 0 ≤ (xs.length : ℚ) * p.val := mul_nonneg hn0 p0
  have hq1 : (xs.length : ℚ) * p.val ≤ xs.length := by nlinarith
  have hval : (c.u2f xs.length * p).val = (rnd false ((xs.length : ℚ) * p.val)).val := by
    rw [mul_fin hf pf, hv]; exact le_antisymm (rnd_mono le_rfl) (rnd_mono le_rfl)
  have hnn : (c.u2f xs.length * p).isNaN = false := by rw [mul_fin hf pf]; exact rnd_not_nan _ _
  have h0 : 0 ≤ (rnd false ((xs.length : ℚ) * p.val)).val := rnd_val_nonneg hq0
  have h1 : (rnd false ((xs.length : ℚ) * p.val)).val ≤ xs.length := rnd_le_rep (rep_nat hn) hq1
  have hk : waveIndex xs.length p ≤ xs.length := by
    unfold waveIndex
    have := Int.floor_le (rnd false ((xs.length : ℚ) * p.val)).val
    have : ((⌊(rnd false ((xs.length : ℚ) * p.val)).val⌋ : Int) : ℚ) ≤ ((xs.length : Int) : ℚ) := by
      push_cast; linarith
    have := Int.cast_le.1 this
    omega
  refine ⟨?_, hk⟩
  rw [hl, c.f2u_nonneg hnn (by rw [hval]; exact h0), hval]
  have := h.len_lt
  show min c.usizeMax (waveIndex xs.length p) = waveIndex xs.length p
  unfold Cfg.usizeMax
  omega

/-- The weight the oscillator gives the second entry: the exact fractional part of that position. -/
theorem wave_weight {s : MemorySlice} (h : Views c mem s xs) (hn : xs.length ≤ 2 ^ 24) {p : F32} (hp : IsPhase p) :
    (c.u2f s.len * p - c.u2f (waveIndex xs.length p)).val = Int.fract (rnd false ((xs.length : ℚ) * p.val)).val := by
  have hi := (wave_f2u h hn hp).2
  have hl : s.len = xs.length := h.length_eq
  have hv : (c.u2f xs.length).val = xs.length := c.u2f_val hn
  have hf : (c.u2f xs.length).isFin = true := c.u2f_fin hn
  obtain ⟨pf, p0, p1⟩ := hp
  have hn0 : (0:ℚ) ≤ xs.length := by positivity
  have hq0 : 0 ≤ (xs.length : ℚ) * p.val := mul_nonneg hn0 p0
  have hnq : (xs.length : ℚ) ≤ 2 ^ 24 := by exact_mod_cast hn
  have hval : (c.u2f xs.length * p).val = (rnd false ((xs.length : ℚ) * p.val)).val := by
    rw [mul_fin hf pf, hv]; exact le_antisymm (rnd_mono le_rfl) (rnd_mono le_rfl)
  have h0 : 0 ≤ (rnd false ((xs.length : ℚ) * p.val)).val := rnd_val_nonneg hq0
  have hmf : (c.u2f xs.length * p).isFin = true := by
    rw [mul_fin hf pf, hv]
    exact (rnd_pow_bound (k := 24) (by norm_num) (by rw [abs_of_nonneg hq0]; nlinarith)).1
  have hk : ((waveIndex xs.length p : Nat) : ℚ) = (⌊(rnd false ((xs.length : ℚ) * p.val)).val⌋ : ℚ) := by
    have : ((waveIndex xs.length p : Nat) : Int) = ⌊(rnd false ((xs.length : ℚ) * p.val)).val⌋ :=
      Int.toNat_of_nonneg (Int.floor_nonneg.2 h0)
    exact_mod_cast this
  rw [hl]
  have hr := rep_fract hmf (by rw [hval]; exact h0)
  rw [hval] at hr
  have := (sub_exact hmf (c.u2f_fin (hi.trans hn)) (by rw [c.u2f_val (hi.trans hn), hk, hval]; exact hr)).2
  rw [this, c.u2f_val (hi.trans hn), hk, hval]; rfl

/-- One call, in terms of the position: two neighbouring table entries are interpolated as long as the second exists. -/
theorem wave_next_in {o : WavetableOscillator SoftPhaseAccumulator} (h : Views c mem o.lookupTable xs)
    (hn : xs.length ≤ 2 ^ 24) (hk : waveIndex xs.length o.acc.nextValueNormalized.2 + 1 < xs.length) :
    ∃ t, o.next c mem = .ok ({ o with acc := o.acc.nextValueNormalized.1 }, Interpolation.lerpUnchecked
      xs[waveIndex xs.length o.acc.nextValueNormalized.2] xs[waveIndex xs.length o.acc.nextValueNormalized.2 + 1] t) ∧
      t.val = Int.fract (rnd false ((xs.length : ℚ) * o.acc.nextValueNormalized.2.val)).val := by
  obtain ⟨h1, h2⟩ := wave_f2u h hn (phase_isPhase o.acc)
  have hlt := h.len_lt
  refine ⟨c.u2f o.lookupTable.len * o.acc.nextValueNormalized.2 -
    c.u2f (waveIndex xs.length o.acc.nextValueNormalized.2), ?_, wave_weight h hn (phase_isPhase o.acc)⟩
  unfold WavetableOscillator.next MemorySlice.lerpUnchecked
  show (do
    let v ← (do
      let a ← o.lookupTable.getUnchecked mem (c.f2u (c.u2f o.lookupTable.len * o.acc.nextValueNormalized.2))
      let b ← o.lookupTable.getUnchecked mem (← c.uadd (c.f2u (c.u2f o.lookupTable.len * o.acc.nextValueNormalized.2)) 1)
      return Interpolation.lerpUnchecked a b (c.u2f o.lookupTable.len * o.acc.nextValueNormalized.2 -
        c.u2f (c.f2u (c.u2f o.lookupTable.len * o.acc.nextValueNormalized.2))))
    return ({ o with acc := o.acc.nextValueNormalized.1 }, v)) = _
  rw [h1, h.getUnchecked (by omega), c.uadd_eq (by omega)]
  simp only [bind, Except.bind]
  rw [h.getUnchecked hk]
  rfl

theorem wave_next_out {o : WavetableOscillator SoftPhaseAccumulator} (h : OwnBlock c mem o.lookupTable xs)
    (hn : xs.length ≤ 2 ^ 24) (hk : xs.length ≤ waveIndex xs.length o.acc.nextValueNormalized.2 + 1) :
    o.next c mem = .error .ub := by
  obtain ⟨h1, h2⟩ := wave_f2u h.views hn (phase_isPhase o.acc)
  have hlt := h.views.len_le
  have hw : xs.length + 1 < 2 ^ c.w := by
    have h4 := c.lt_pow_of_le_isizeMax (n := 4 * xs.length) (by push_cast; exact hlt)
    have := w_big c
    omega
  unfold WavetableOscillator.next MemorySlice.lerpUnchecked
  show (do
    let v ← (do
      let a ← o.lookupTable.getUnchecked mem (c.f2u (c.u2f o.lookupTable.len * o.acc.nextValueNormalized.2))
      let b ← o.lookupTable.getUnchecked mem (← c.uadd (c.f2u (c.u2f o.lookupTable.len * o.acc.nextValueNormalized.2)) 1)
      return Interpolation.lerpUnchecked a b (c.u2f o.lookupTable.len * o.acc.nextValueNormalized.2 -
        c.u2f (c.f2u (c.u2f o.lookupTable.len * o.acc.nextValueNormalized.2))))
    return ({ o with acc := o.acc.nextValueNormalized.1 }, v)) = _
  rw [h1, c.uadd_eq (by omega)]
  rcases Nat.lt_or_ge (waveIndex xs.length o.acc.nextValueNormalized.2) xs.length with hi | hi
  · rw [h.views.getUnchecked hi]
    simp only [bind, Except.bind]
    rw [h.outside hk]
  · rw [h.outside hi]; rfl

/-- C71 in full: with a table of at least two samples, `next` never leaves the table, in any state. -/
def C71_Full : Prop := ∀ (c : Cfg) (mem : Mem F32) (xs : List F32) (o : WavetableOscillator SoftPhaseAccumulator),
  Views c mem o.lookupTable xs → 2 ≤ xs.length → o.acc.counter < 2 ^ 32 → o.acc.shift < 2 ^ 32 →
  ∃ r, o.next c mem = .ok r

/-- C71 fails: a two-sample table at three quarters of the cycle. -/
theorem C71_refuted : ¬ C71_Full := by
  intro h
  obtain ⟨r, hr⟩ := h Cfg.debug64 (fun _ => some [lit 0, lit 1]) [lit 0, lit 1]
    ⟨⟨⟨some 0, 0⟩, 2⟩, { counter := 3 * 2 ^ 30, freq := lit 0, shift := 0, minStep := lit 0 }⟩
    ⟨0, [], [], rfl, rfl, rfl, by decide⟩ (by decide) (by decide) (by decide)
  rw [wave_next_out (xs := [lit 0, lit 1]) ⟨0, rfl, rfl, rfl, by decide⟩ (by decide) (by decide +kernel)] at hr
  cases hr

/-- C71, what holds: below `(len-1)/len` of the cycle (by a rounding margin) the oscillator stays in the table, and returns
the interpolation of the two entries around `len * phase`. Missing: the last `1/len` of the cycle, where it does not stay
(`C71_actual`), and tables of more than `2^24` samples. -/
theorem C71_partial {o : WavetableOscillator SoftPhaseAccumulator} (h : Views c mem o.lookupTable xs) (h2 : 2 ≤ xs.length)
    (hn : xs.length ≤ 2 ^ 24)
    (hp : (xs.length : ℚ) * o.acc.nextValueNormalized.2.val ≤ (xs.length - 1) * (1 - 1 / 2 ^ 24)) :
    ∃ (k : Nat) (hk : k + 1 < xs.length) (t : ℚ) (r : F32), o.next c mem =
      .ok ({ o with acc := o.acc.nextValueNormalized.1 }, r) ∧
      ((xs[k]).isFin = true → (xs[k + 1]).isFin = true → IsBlend xs[k] xs[k + 1] t r) ∧ 0 ≤ t ∧ t < 1 ∧
      |k + t - (xs.length : ℚ) * o.acc.nextValueNormalized.2.val| ≤
        (xs.length : ℚ) * o.acc.nextValueNormalized.2.val / 2 ^ 24 + 1 / 2 ^ 150 ∧
      (k : ℚ) ≤ (xs.length : ℚ) * o.acc.nextValueNormalized.2.val * (1 + 1 / 2 ^ 24) ∧
      (xs.length : ℚ) * o.acc.nextValueNormalized.2.val * (1 - 1 / 2 ^ 24) < k + 1 := by
  obtain ⟨pf, p0, p1⟩ := phase_isPhase o.acc
  have hn2 : (2:ℚ) ≤ xs.length := by exact_mod_cast h2
  have hn24 : (xs.length : ℚ) ≤ 2 ^ 24 := by exact_mod_cast hn
  obtain ⟨q, hq⟩ : ∃ q, q = (xs.length : ℚ) * o.acc.nextValueNormalized.2.val := ⟨_, rfl⟩
  have hq0 : 0 ≤ q := by rw [hq]; exact mul_nonneg (by linarith) p0
  have hr0 := rnd_val_nonneg (s := false) hq0
  have hwi : waveIndex xs.length o.acc.nextValueNormalized.2 = ⌊(rnd false q).val⌋.toNat := by rw [hq]; rfl
  rw [← hq] at hp
  have hbig : q ≤ 2 ^ 127 := by
    refine hp.trans ?_
    have : (xs.length - 1 : ℚ) * (1 - 1 / 2 ^ 24) ≤ 2 ^ 24 := by nlinarith
    exact this.trans (by norm_num)
  have hrel : (rnd false q).val ≤ q * (1 + 1 / 2 ^ 24) ∧ q * (1 - 1 / 2 ^ 24) ≤ (rnd false q).val ∨
      q < 1 / 2 ∧ (rnd false q).val ≤ 1 / 2 := by
    by_cases hs : 1 / 2 ≤ q
    · left
      obtain ⟨-, δ, hδ, e⟩ := rnd_rel (s := false) (q := q)
        (by rw [abs_of_nonneg hq0]; exact le_trans (by norm_num) hs) (by rw [abs_of_nonneg hq0]; exact hbig)
      have hδ' := abs_le.1 hδ
      rw [e]; constructor <;> nlinarith
    · right
      exact ⟨not_le.1 hs, rnd_le_rep rep_half (not_le.1 hs).le⟩
  have hlt : (rnd false q).val < xs.length - 1 := by
    rcases hrel with ⟨h', -⟩ | ⟨-, h'⟩
    · refine lt_of_le_of_lt h' ?_
      nlinarith
    · linarith
  have hfl := Int.floor_le (rnd false q).val
  have hfl2 := Int.lt_floor_add_one (rnd false q).val
  have hfl0 := Int.floor_nonneg.2 hr0
  have hcast : ((⌊(rnd false q).val⌋.toNat : Nat) : ℚ) = (⌊(rnd false q).val⌋ : ℚ) := by
    have : ((⌊(rnd false q).val⌋.toNat : Nat) : Int) = ⌊(rnd false q).val⌋ := Int.toNat_of_nonneg hfl0
    exact_mod_cast this
  have hk : waveIndex xs.length o.acc.nextValueNormalized.2 + 1 < xs.length := by
    rw [hwi]
    have : ((⌊(rnd false q).val⌋.toNat : Nat) : ℚ) + 1 < xs.length := by rw [hcast]; linarith
    exact_mod_cast this
  obtain ⟨t, ht, htv⟩ := wave_next_in h hn hk
  rw [← hq] at htv
  refine ⟨_, hk, t.val, _, ht, fun ha hb => lerpUnchecked_blend ha hb (by rw [htv]; exact Int.fract_nonneg _)
    (by rw [htv]; exact (Int.fract_lt_one _).le), by rw [htv]; exact Int.fract_nonneg _,
    by rw [htv]; exact Int.fract_lt_one _, ?_, ?_⟩
  · rw [← hq, htv, hwi, hcast, Int.floor_add_fract]
    have hb : q ≤ 2 ^ 127 := hbig
    refine (rnd_error (rnd_pow_bound (k := 127) (by norm_num) (by rw [abs_of_nonneg hq0]; exact hb)).1).trans ?_
    rw [abs_of_nonneg hq0]
    refine (max_le_add_of_nonneg (by positivity) (by positivity)).trans (le_of_eq (add_comm _ _))
  rw [← hq, hwi, hcast]
  rcases hrel with ⟨h', h''⟩ | ⟨h', h''⟩
  · exact ⟨hfl.trans h', lt_of_le_of_lt h'' hfl2⟩
  · have : ⌊(rnd false q).val⌋ = 0 := Int.floor_eq_iff.2 ⟨by simpa using hr0, by push_cast; linarith⟩
    rw [this]; push_cast; constructor <;> nlinarith

/-- C71, what the code does: from `(len-1)/len` of the cycle on, `next` reads past the end of every table. -/
theorem C71_actual {o : WavetableOscillator SoftPhaseAccumulator} (h : OwnBlock c mem o.lookupTable xs) (h2 : 2 ≤ xs.length)
    (hn : xs.length ≤ 2 ^ 24) (hp : (xs.length : ℚ) - 1 ≤ xs.length * o.acc.nextValueNormalized.2.val) :
    o.next c mem = .error .ub := by
  refine wave_next_out h hn ?_
  have hr : Rep ((xs.length : ℚ) - 1) := by
    have := rep_nat (n := xs.length - 1) (by omega)
    rwa [Nat.cast_sub (by omega), Nat.cast_one] at this
  have h1 := rep_le_rnd (s := false) hr hp
  have h3 : (xs.length : Int) - 1 ≤ ⌊(rnd false ((xs.length : ℚ) * o.acc.nextValueNormalized.2.val)).val⌋ :=
    Int.le_floor.2 (by push_cast; exact h1)
  unfold waveIndex
  omega

/-- `n` successive calls of `next` -/
def runWave (c : Cfg) (mem : Mem F32) : Nat → WavetableOscillator SoftPhaseAccumulator →
    M (WavetableOscillator SoftPhaseAccumulator)
  | 0, o => .ok o
  | n + 1, o => do
    let r ← o.next c mem
    runWave c mem n r.1

/-- Either an earlier call has left the table already, or the accumulator is where `n` calls put it. -/
theorem runWave_state {s : MemorySlice} (h : OwnBlock c mem s xs) (hn : xs.length ≤ 2 ^ 24) (n : Nat)
    (a : SoftPhaseAccumulator) :
    runWave c mem n ⟨s, a⟩ = .error .ub ∨ runWave c mem n ⟨s, a⟩ = .ok ⟨s, runPhase a (callsOf (List.replicate n false))⟩ := by
  induction n generalizing a with
  | zero => right; rfl
  | succ n ih =>
    unfold runWave
    by_cases hk : waveIndex xs.length a.nextValueNormalized.2 + 1 < xs.length
    · obtain ⟨t, ht, -⟩ := wave_next_in (o := ⟨s, a⟩) h.views hn hk
      rw [ht]
      exact ih _
    · rw [wave_next_out (o := ⟨s, a⟩) h hn (not_lt.1 hk)]
      left; rfl

/-- C71, no special phase is needed: every table of 2 to `2^23` samples, played by a fresh, unshifted accumulator at any
frequency slow enough to give each table segment two steps, is read past its end within the first cycle. -/
theorem C71_actual_reached {s : MemorySlice} {freq sr : F32} (h : OwnBlock c mem s xs) (h2 : 2 ≤ xs.length)
    (hn : xs.length ≤ 2 ^ 23) (h0 : 0 < phaseStep freq sr) (hs : xs.length * phaseStep freq sr ≤ 2 ^ 31) :
    ∃ n, n * phaseStep freq sr < 2 ^ 32 ∧
      runWave c mem n (WavetableOscillator.new s (SoftPhaseAccumulator.new freq sr)) = .error .ub := by
  obtain ⟨d, hd⟩ : ∃ d, d = phaseStep freq sr := ⟨_, rfl⟩
  rw [← hd] at h0 hs ⊢
  have hdd := Nat.div_add_mod (2 ^ 32 - 1) d
  have hmod := Nat.mod_lt (2 ^ 32 - 1) h0
  obtain ⟨m, hm⟩ : ∃ m, m = (2 ^ 32 - 1) / d := ⟨_, rfl⟩
  rw [← hm] at hdd
  have hd31 : d ≤ 2 ^ 31 := le_trans (Nat.le_mul_of_pos_left d (by omega)) hs
  have hm0 : m ≠ 0 := by rintro rfl; rw [Nat.mul_zero] at hdd; omega
  refine ⟨m, by rw [Nat.mul_comm]; omega, ?_⟩
  obtain ⟨m', rfl⟩ := Nat.exists_eq_succ_of_ne_zero hm0
  have hrun : ∀ k o, runWave c mem (k + 1) o = (do let o' ← runWave c mem k o; let r ← o'.next c mem; return r.1) := by
    intro k
    induction k with
    | zero => intro o; unfold runWave runWave; rfl
    | succ k ih =>
      intro o
      rw [runWave]
      cases hc : o.next c mem with
      | error e => rw [runWave, hc]; rfl
      | ok r => rw [runWave, hc]; exact ih r.1
  rw [hrun]
  rcases runWave_state h (by omega) m' (SoftPhaseAccumulator.new freq sr) with hr | hr
  · unfold WavetableOscillator.new; rw [hr]; rfl
  · unfold WavetableOscillator.new
    rw [hr]
    have key := (C65_phase freq sr 0 (List.replicate m' false)).2.1
    rw [List.length_replicate, ← hd, Nat.add_zero, Nat.mod_eq_of_lt (by rw [Nat.mul_comm]; simp only [Nat.succ_eq_add_one] at hdd; omega)] at key
    have hub : WavetableOscillator.next c mem
        (⟨s, runPhase (SoftPhaseAccumulator.new freq sr) (callsOf (List.replicate m' false))⟩) = .error .ub := by
      refine C71_actual (o := ⟨s, _⟩) h h2 (by omega) ?_
      have he := phase_err (runPhase (SoftPhaseAccumulator.new freq sr) (callsOf (List.replicate m' false)))
      have key' : (runPhase (SoftPhaseAccumulator.new freq sr) (callsOf (List.replicate m' false))).nextValue.2 = (m' + 1) * d := key
      rw [key'] at he
      have he := (abs_le.1 he).1
      have hlow : (2:ℚ) ^ 32 - d ≤ ((m' + 1) * d : Nat) := by
        have : 2 ^ 32 ≤ (m' + 1) * d + d := by rw [Nat.mul_comm (m' + 1)]; simp only [Nat.succ_eq_add_one] at hdd; omega
        have : ((2 ^ 32 : Nat) : ℚ) ≤ (((m' + 1) * d + d : Nat) : ℚ) := by exact_mod_cast this
        push_cast at this ⊢; linarith
      have hsq : (xs.length : ℚ) * d ≤ 2 ^ 31 := by exact_mod_cast hs
      have hnq : (xs.length : ℚ) ≤ 2 ^ 23 := by exact_mod_cast hn
      have hnq0 : (0:ℚ) ≤ xs.length := by positivity
      have h5 : 1 - d / 2 ^ 32 - 1 / 2 ^ 24 ≤
          (runPhase (SoftPhaseAccumulator.new freq sr) (callsOf (List.replicate m' false))).nextValueNormalized.2.val := by
        have : (2 ^ 32 - d : ℚ) / 2 ^ 32 ≤ (((m' + 1) * d : Nat) : ℚ) / 2 ^ 32 := div_le_div_of_nonneg_right hlow (by norm_num)
        have e : (2 ^ 32 - d : ℚ) / 2 ^ 32 = 1 - d / 2 ^ 32 := by field_simp
        linarith
      have h6 := mul_le_mul_of_nonneg_left h5 hnq0
      refine le_trans ?_ h6
      have e : (xs.length : ℚ) * (1 - d / 2 ^ 32 - 1 / 2 ^ 24) = xs.length - xs.length * d / 2 ^ 32 - xs.length / 2 ^ 24 := by
        ring
      rw [e]
      have e1 : (xs.length : ℚ) * d / 2 ^ 32 ≤ 1 / 2 := by rw [div_le_iff₀ (by norm_num)]; linarith
      have e2 : (xs.length : ℚ) / 2 ^ 24 ≤ 1 / 2 := by rw [div_le_iff₀ (by norm_num)]; linarith
      linarith
    simp only [bind, Except.bind, hub]

/-- A four-sample table at an eighth of the cycle is read inside; 440 Hz at 48 kHz is slow enough for `C71_actual_reached`
with up to 54 samples. -/
example : (WavetableOscillator.next Cfg.release32 (fun _ => some [lit 0, lit 1, lit 2, lit 3])
      ⟨⟨⟨some 0, 0⟩, 4⟩, ({ counter := 2 ^ 29, freq := lit 0, shift := 0, minStep := lit 0 } : SoftPhaseAccumulator)⟩).toOption.map
        (·.2) = some (lit (1 / 2)) ∧ 54 * phaseStep (lit 440) (lit 48000) ≤ 2 ^ 31 ∧
    OwnBlock Cfg.release32 (fun _ => some [lit 0, lit 1, lit 2, lit 3]) ⟨⟨some 0, 0⟩, 4⟩ [lit 0, lit 1, lit 2, lit 3] :=
  ⟨by decide +kernel, by decide +kernel, 0, rfl, rfl, rfl, by decide⟩

end Verif
