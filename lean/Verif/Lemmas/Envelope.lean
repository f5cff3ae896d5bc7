import Verif.Spec.Envelope
import Verif.F32.Extra
import Verif.Props.Level
import Verif.Props.Interpolation
import Verif.Props.Conversion

/-! # Helper lemmas for C82 – C91: the envelope -/

namespace Verif
open F32 AudioRateADSR

/-- C83, C84 and the range rest on these bounds: the invariant of every history whose times are at least one sample. -/
structure EnvInv (e : AudioRateADSR) : Prop where
  attack : e.attack.isFin = true ∧ 0 ≤ e.attack.val ∧ e.attack.val ≤ 1
  decay : e.decay.isFin = true ∧ 0 ≤ e.decay.val ∧ e.decay.val ≤ 1
  release : e.release.isFin = true ∧ 0 ≤ e.release.val ∧ e.release.val ≤ 1
  sustain : Unit01 e.sustain
  slope : e.slope.isFin = true ∧ 0 < e.slope.val ∧ e.slope.val ≤ 20
  sr : e.sr.isFin = true ∧ 1 / 2 ≤ e.sr.val
  t : e.t.isFin = true ∧ 0 ≤ e.t.val ∧ e.t.val ≤ 2
  t1 : e.state = .decay ∨ e.state = .release → e.t.val < 1
  env : Unit01 e.envelopeValue
  rel : Unit01 e.releaseVal

theorem Unit01.fin {x : F32} (h : Unit01 x) : x.isFin = true :=
  fin_of_val (by rw [abs_of_nonneg h.2.1]; exact lt_of_le_of_lt h.2.2 (by norm_num))

/-- the increment of the phase -/
theorem t_add {t r : F32} (ht : t.isFin = true ∧ 0 ≤ t.val ∧ t.val ≤ 2) (hr : r.isFin = true ∧ 0 ≤ r.val ∧ r.val ≤ 1) :
    (t + r).isFin = true ∧ 0 ≤ (t + r).val ∧ (t + r).val ≤ 4 ∧ (t.val < 1 → (t + r).val ≤ 2) ∧
    (t.val + r.val ≤ 1 → t.val + r.val - 1 / 2 ^ 25 ≤ (t + r).val) ∧ (1 ≤ t.val + r.val → 1 ≤ (t + r).val) := by
  rw [add_fin ht.1 hr.1]
  have h0 : 0 ≤ t.val + r.val := by linarith [ht.2.1, hr.2.1]
  have hb := rnd_pow_bound (s := t.neg && r.neg) (k := 2) (q := t.val + r.val) (by norm_num)
    (by rw [abs_of_nonneg h0]; linarith [ht.2.2, hr.2.2])
  refine ⟨hb.1, rnd_val_nonneg h0, (le_abs_self _).trans (hb.2.trans (by norm_num)), fun h => ?_, fun h => ?_, fun h => ?_⟩
  · exact rnd_le_rep rep_two (by linarith [hr.2.2])
  · have := abs_le.1 (rnd_error_unit (s := t.neg && r.neg) (q := t.val + r.val) (by rw [abs_of_nonneg h0]; exact h))
    linarith [this.1]
  · exact rep_le_rnd rep_one h

variable {powf : F32 → F32 → F32}

/-- `1 - w` for a finite non-negative `w` -/
theorem one_sub_val {w : F32} (hw : w.isFin = true) (hw0 : 0 ≤ w.val) :
    (lit 1 - w).isFin = true ∧ (lit 1 - w).val ≤ 1 ∧ (1 ≤ w.val → (lit 1 - w).val ≤ 0) ∧ (w.val ≤ 1 → 0 ≤ (lit 1 - w).val) := by
  rw [sub_fin lit1_fin hw, lit1_val]
  have hm := fin_le_max hw
  rw [abs_of_nonneg hw0] at hm
  refine ⟨rnd_fin_of_lt ?_, rnd_le_rep rep_one (by linarith), fun h => rnd_val_nonpos (by linarith),
    fun h => rnd_val_nonneg (by linarith)⟩
  rw [abs_lt]
  have h1 : ((2:ℚ) ^ 24 - 1) * 2 ^ 104 < 2 ^ 128 - 2 ^ 103 := by norm_num
  have h2 : (1:ℚ) < 2 ^ 128 - 2 ^ 103 := by norm_num
  constructor <;> linarith

/-- A finite float times a float of [0,1] -/
theorem mul_unit {u d : F32} (hu : u.isFin = true) (hd : d.isFin = true) (h0 : 0 ≤ d.val) (h1 : d.val ≤ 1) :
    (u * d).isFin = true ∧ |(u * d).val| ≤ (2 ^ 24 - 1) * 2 ^ 104 ∧ (u.val ≤ 1 → (u * d).val ≤ d.val) ∧
    (u.val ≤ 0 → (u * d).val ≤ 0) ∧ (0 ≤ u.val → 0 ≤ (u * d).val) := by
  rw [mul_fin hu hd]
  have hm := fin_le_max hu
  have hb : |u.val * d.val| ≤ |u.val| := by
    rw [abs_mul, abs_of_nonneg h0]; exact mul_le_of_le_one_right (abs_nonneg _) h1
  have hf : (rnd (u.neg != d.neg) (u.val * d.val)).isFin = true := rnd_fin_of_lt (by
    have : ((2:ℚ) ^ 24 - 1) * 2 ^ 104 < 2 ^ 128 - 2 ^ 103 := by norm_num
    linarith)
  refine ⟨hf, fin_le_max hf, fun h => ?_, fun h => rnd_val_nonpos ?_, fun h => rnd_val_nonneg (mul_nonneg h h0)⟩
  · exact rnd_le_rep (rep_val hd) (by nlinarith)
  · exact mul_nonpos_of_nonpos_of_nonneg h h0

/-- The decay formula: a number; at most 1; at most sustain if the power is at least 1. -/
theorem decay_val {w s : F32} (hw : w.isFin = true) (hw0 : 0 ≤ w.val) (hs : Unit01 s) :
    ((lit 1 - w) * (lit 1 - s) + s).isFin = true ∧ ((lit 1 - w) * (lit 1 - s) + s).val ≤ 1 ∧
    (1 ≤ w.val → ((lit 1 - w) * (lit 1 - s) + s).val ≤ s.val) := by
  obtain ⟨u1, u2, u3, -⟩ := one_sub_val hw hw0
  obtain ⟨d1, d2, -, d4⟩ := one_sub_val hs.fin hs.2.1
  obtain ⟨p1, p2, p3, p4, -⟩ := mul_unit u1 d1 (d4 hs.2.2) d2
  rw [add_fin p1 hs.fin]
  have hp := abs_le.1 p2
  refine ⟨rnd_fin_of_lt ?_, ?_, fun h => rnd_le_rep (rep_val hs.fin) (by linarith [p4 (u3 h)])⟩
  · rw [abs_lt]
    have h1 : ((2:ℚ) ^ 24 - 1) * 2 ^ 104 + 1 < 2 ^ 128 - 2 ^ 103 := by norm_num
    constructor <;> linarith [hs.2.1, hs.2.2, hp.1, hp.2]
  · have hd : (lit 1 - s).val + s.val ≤ 1 + 1 / 2 ^ 25 := by
      rw [sub_fin lit1_fin hs.fin, lit1_val]
      have := abs_le.1 (rnd_error_unit (s := (lit 1 : F32).neg && !s.neg) (q := 1 - s.val)
        (by rw [abs_le]; constructor <;> linarith [hs.2.1, hs.2.2]))
      linarith [this.2]
    have hd0 := d4 hs.2.2
    refine (rnd_mono (t := false) (by linarith [p3 u2] : ((lit 1 - w) * (lit 1 - s)).val + s.val ≤ (lit 1 - s).val + s.val)).trans ?_
    refine (le_abs_self _).trans ?_
    have := rnd_pow2_cap (s := false) (k := 0) (q := (lit 1 - s).val + s.val) (by norm_num)
      (by rw [abs_of_nonneg (by linarith [hs.2.1])]; simpa using hd)
    simpa using this

/-- The release formula: a number; at most the release level; at most 0 if the power is at least 1. -/
theorem release_val {w r : F32} (hw : w.isFin = true) (hw0 : 0 ≤ w.val) (hr : Unit01 r) :
    ((lit 1 - w) * r).isFin = true ∧ ((lit 1 - w) * r).val ≤ r.val ∧ (1 ≤ w.val → ((lit 1 - w) * r).val ≤ 0) := by
  obtain ⟨u1, u2, u3, -⟩ := one_sub_val hw hw0
  obtain ⟨p1, -, p3, p4, -⟩ := mul_unit u1 hr.fin hr.2.1 hr.2.2
  exact ⟨p1, p3 u2, fun h => p4 (u3 h)⟩

theorem inv_slope {s : F32} (hf : s.isFin = true) (h : 0 < s.val) : (lit 1 / s).isNaN = false ∧ 0 ≤ (lit 1 / s).val := by
  rw [div_fin lit1_fin hf h.ne', lit1_val]
  exact ⟨rnd_not_nan _ _, rnd_val_nonneg (by positivity)⟩

/-! ### one tick in each state -/

theorem attack_eq {e : AudioRateADSR} (hs : e.state = .attack) :
    e.tick powf = if F32.le (lit 1) (powf (e.t + e.attack) (lit 1 / e.slope)) then
      ({ e with t := lit 0, state := .decay, envelopeValue := lit 1 }, lit 1)
    else ({ e with t := e.t + e.attack, envelopeValue := powf (e.t + e.attack) (lit 1 / e.slope) },
      powf (e.t + e.attack) (lit 1 / e.slope)) := by
  have h : e.tick powf = e.nextAttack powf := by unfold tick; rw [hs]
  rw [h]; unfold nextAttack; dsimp only; split <;> rfl

theorem decay_eq {e : AudioRateADSR} (hs : e.state = .decay) :
    e.tick powf = if F32.le ((lit 1 - powf (e.t + e.decay) e.slope) * (lit 1 - e.sustain) + e.sustain) e.sustain then
      ({ e with t := e.t + e.decay, state := .sustain, envelopeValue := e.sustain }, e.sustain)
    else ({ e with t := e.t + e.decay,
                   envelopeValue := (lit 1 - powf (e.t + e.decay) e.slope) * (lit 1 - e.sustain) + e.sustain },
      (lit 1 - powf (e.t + e.decay) e.slope) * (lit 1 - e.sustain) + e.sustain) := by
  have h : e.tick powf = e.nextDecay powf := by unfold tick; rw [hs]
  rw [h]; unfold nextDecay; dsimp only; split <;> rfl

theorem release_eq {e : AudioRateADSR} (hs : e.state = .release) :
    e.tick powf = if F32.le ((lit 1 - powf (e.t + e.release) e.slope) * e.releaseVal) epsilon then
      ({ e with t := lit 0, state := .idle, envelopeValue := lit 0 }, lit 0)
    else ({ e with t := e.t + e.release, envelopeValue := (lit 1 - powf (e.t + e.release) e.slope) * e.releaseVal },
      (lit 1 - powf (e.t + e.release) e.slope) * e.releaseVal) := by
  have h : e.tick powf = e.nextRelease powf := by unfold tick; rw [hs]
  rw [h]; unfold nextRelease; dsimp only; split <;> rfl

theorem idle_eq {e : AudioRateADSR} (hs : e.state = .idle) : e.tick powf = (e, lit 0) := by
  unfold tick; rw [hs]
theorem sustain_eq {e : AudioRateADSR} (hs : e.state = .sustain) : e.tick powf = (e, e.sustain) := by
  unfold tick; rw [hs]

theorem unit_zero : Unit01 (lit 0) := ⟨isFin.not_nan lit0_fin, by rw [lit0_val], by rw [lit0_val]; norm_num⟩
theorem unit_one : Unit01 (lit 1) := ⟨isFin.not_nan lit1_fin, by rw [lit1_val]; norm_num, by rw [lit1_val]⟩
theorem epsilon_val : epsilon.val = 1 / 2 ^ 23 ∧ epsilon.isFin = true := by
  have h : Rep (1 / 2 ^ 23) := rep_of_pos_pow (by norm_num)
  exact ⟨h.rnd_val _, h.rnd_fin _⟩

theorem le_false {x y : F32} (hx : x.isNaN = false) (hy : y.isNaN = false) : ¬ F32.le x y = true ↔ y.val < x.val := by
  rw [le_iff]; simp [hx, hy]

/-- What one tick does to an envelope meeting the invariant. -/
theorem tick_inv (hp : PowfModerate powf) {e : AudioRateADSR} (h : EnvInv e) :
    Unit01 (e.tick powf).2 ∧ EnvInv (e.tick powf).1 := by
  rcases hs : e.state with _ | _ | _ | _ | _
  · rw [idle_eq hs]; exact ⟨unit_zero, h⟩
  · rw [attack_eq hs]
    obtain ⟨a1, a2, a3, -, -, -⟩ := t_add h.t h.attack
    obtain ⟨i1, i2⟩ := inv_slope h.slope.1 h.slope.2.1
    have n1 := hp.nn _ _ (isFin.not_nan a1) a2 i1 i2
    have n2 := hp.nonneg _ _ (isFin.not_nan a1) a2 i1 i2
    split_ifs with hc
    · exact ⟨unit_one, h.attack, h.decay, h.release, h.sustain, h.slope, h.sr, ⟨lit0_fin, by simp [lit0_val]⟩,
        fun _ => by simp [lit0_val], unit_one, h.rel⟩
    · have hlt : (powf (e.t + e.attack) (lit 1 / e.slope)).val < 1 := by
        by_contra hn
        exact hc (le_iff.2 ⟨isFin.not_nan lit1_fin, n1, by rw [lit1_val]; linarith⟩)
      have ht : (e.t + e.attack).val < 1 := by
        by_contra hn
        linarith [hp.ge_one _ _ (isFin.not_nan a1) (not_lt.1 hn) i1 i2]
      have hu : Unit01 (powf (e.t + e.attack) (lit 1 / e.slope)) := ⟨n1, n2, hlt.le⟩
      exact ⟨hu, h.attack, h.decay, h.release, h.sustain, h.slope, h.sr, ⟨a1, a2, by simp only; linarith⟩,
        fun _ => ht, hu, h.rel⟩
  · rw [decay_eq hs]
    have ht1 := h.t1 (.inl hs)
    obtain ⟨a1, a2, a3, a4, -, -⟩ := t_add h.t h.decay
    have w1 := hp.fin _ _ (isFin.not_nan a1) a2 a3 (isFin.not_nan h.slope.1) h.slope.2.1.le h.slope.2.2
    have w2 := hp.nonneg _ _ (isFin.not_nan a1) a2 (isFin.not_nan h.slope.1) h.slope.2.1.le
    obtain ⟨v1, v2, v3⟩ := decay_val w1 w2 h.sustain
    split_ifs with hc
    · exact ⟨h.sustain, h.attack, h.decay, h.release, h.sustain, h.slope, h.sr, ⟨a1, a2, a4 ht1⟩,
        fun hh => by simp at hh, h.sustain, h.rel⟩
    · rw [le_false (isFin.not_nan v1) h.sustain.1] at hc
      have ht : (e.t + e.decay).val < 1 := by
        by_contra hn
        linarith [v3 (hp.ge_one _ _ (isFin.not_nan a1) (not_lt.1 hn) (isFin.not_nan h.slope.1) h.slope.2.1.le)]
      have hu : Unit01 ((lit 1 - powf (e.t + e.decay) e.slope) * (lit 1 - e.sustain) + e.sustain) :=
        ⟨isFin.not_nan v1, by linarith [h.sustain.2.1], v2⟩
      exact ⟨hu, h.attack, h.decay, h.release, h.sustain, h.slope, h.sr, ⟨a1, a2, a4 ht1⟩, fun _ => ht, hu, h.rel⟩
  · rw [release_eq hs]
    have ht1 := h.t1 (.inr hs)
    obtain ⟨a1, a2, a3, a4, -, -⟩ := t_add h.t h.release
    have w1 := hp.fin _ _ (isFin.not_nan a1) a2 a3 (isFin.not_nan h.slope.1) h.slope.2.1.le h.slope.2.2
    have w2 := hp.nonneg _ _ (isFin.not_nan a1) a2 (isFin.not_nan h.slope.1) h.slope.2.1.le
    obtain ⟨v1, v2, v3⟩ := release_val w1 w2 h.rel
    split_ifs with hc
    · exact ⟨unit_zero, h.attack, h.decay, h.release, h.sustain, h.slope, h.sr, ⟨lit0_fin, by simp [lit0_val]⟩,
        fun _ => by simp [lit0_val], unit_zero, h.rel⟩
    · rw [le_false (isFin.not_nan v1) (isFin.not_nan epsilon_val.2), epsilon_val.1] at hc
      have hpos : (0:ℚ) < 1 / 2 ^ 23 := by positivity
      have ht : (e.t + e.release).val < 1 := by
        by_contra hn
        linarith [v3 (hp.ge_one _ _ (isFin.not_nan a1) (not_lt.1 hn) (isFin.not_nan h.slope.1) h.slope.2.1.le)]
      have hu : Unit01 ((lit 1 - powf (e.t + e.release) e.slope) * e.releaseVal) :=
        ⟨isFin.not_nan v1, by linarith, by linarith [h.rel.2.2]⟩
      exact ⟨hu, h.attack, h.decay, h.release, h.sustain, h.slope, h.sr, ⟨a1, a2, a4 ht1⟩, fun _ => ht, hu, h.rel⟩
  · rw [sustain_eq hs]; exact ⟨h.sustain, h⟩

/-! ### the setters -/

/-- division of 1 by a float of at least 1, infinity included -/
theorem one_div_big {x : F32} (hx : x.isNaN = false) (h : 1 ≤ x.val) :
    (lit 1 / x).isFin = true ∧ 0 ≤ (lit 1 / x).val ∧ (lit 1 / x).val ≤ 1 := by
  rcases hi : x.isInf with _ | _
  · rw [div_fin lit1_fin (isFin_of_not hx hi) (by linarith), lit1_val]
    have h1 : 1 / x.val ≤ 1 := by rw [div_le_one (by linarith)]; exact h
    have h0 : 0 ≤ 1 / x.val := by positivity
    exact ⟨rnd_fin_of_lt (by rw [abs_of_nonneg h0]; exact lt_of_le_of_lt h1 (by norm_num)), rnd_val_nonneg h0,
      rnd_le_rep rep_one h1⟩
  · have : (lit 1 / x : F32) = pack ((lit 1 : F32).neg != x.neg) 0 := by
      show F32.div _ _ = _
      unfold F32.div
      rw [isFin.not_nan lit1_fin, hx, isFin.not_inf lit1_fin, hi]; rfl
    rw [this]
    have hm : (pack ((lit 1 : F32).neg != x.neg) 0).mag = 0 := mag_pack_le (by norm_num [infMag])
    have hv : (pack ((lit 1 : F32).neg != x.neg) 0).val = 0 := by rw [val_eq_zero]; exact hm
    refine ⟨isFin_iff.2 (by rw [hm]; norm_num [infMag]), by rw [hv], by rw [hv]; norm_num⟩

theorem half_div {sr : F32} (h : sr.isFin = true) (h1 : 1 / 2 ≤ sr.val) :
    (shortestTimeBase / sr).isFin = true ∧ 0 ≤ (shortestTimeBase / sr).val ∧ (shortestTimeBase / sr).val ≤ 1 := by
  unfold shortestTimeBase
  rw [div_fin lithalf_fin h (by linarith), lithalf_val]
  have h1 : 1 / 2 / sr.val ≤ 1 := by rw [div_le_one (by linarith)]; exact h1
  have h0 : 0 ≤ 1 / 2 / sr.val := by positivity
  exact ⟨rnd_fin_of_lt (by rw [abs_of_nonneg h0]; exact lt_of_le_of_lt h1 (by norm_num)), rnd_val_nonneg h0,
    rnd_le_rep rep_one h1⟩

theorem maxFin_ge_one : (1:ℚ) ≤ F32.maxFin.val := by rw [maxFin_val]; norm_num

/-- times of at least one sample give a rate of at most 1 -/
theorem setTime_moderate {secs sr : F32} (h : sr.isFin = true) (h1 : 1 / 2 ≤ sr.val) (hs : AtLeastOneSample secs sr) :
    ∃ r, setTimeParameter secs sr = .ok r ∧ r.isFin = true ∧ 0 ≤ r.val ∧ r.val ≤ 1 := by
  obtain ⟨l1, l2, l3⟩ := half_div h h1
  have hx : (secs * sr).isNaN = false ∧ 1 ≤ (secs * sr).val := by
    rw [mul_fin hs.1.1 h]; exact ⟨rnd_not_nan _ _, rep_le_rnd rep_one hs.2⟩
  obtain ⟨q1, q2, q3⟩ := one_div_big hx.1 hx.2
  obtain ⟨r, hr, -, c1, c2, c3⟩ := clamp_cases (x := lit 1 / (secs * sr)) (isFin.not_nan l1) (isFin.not_nan maxFin_fin)
    (l3.trans maxFin_ge_one)
  refine ⟨r, hr, ?_⟩
  rcases lt_or_ge (lit 1 / (secs * sr)).val (shortestTimeBase / sr).val with hc | hc
  · rw [c1 (isFin.not_nan q1) hc]; exact ⟨l1, l2, l3⟩
  · rw [c3 (isFin.not_nan q1) hc (q3.trans maxFin_ge_one)]; exact ⟨q1, q2, q3⟩

theorem clamp01 {s : F32} (hs : s.isNaN = false) : ∃ r, F32.clamp s (lit 0) (lit 1) = .ok r ∧ Unit01 r := by
  obtain ⟨r, hr, -, c1, c2, c3⟩ := clamp_cases (x := s) (isFin.not_nan lit0_fin) (isFin.not_nan lit1_fin)
    (by rw [lit0_val, lit1_val]; norm_num)
  refine ⟨r, hr, ?_⟩
  rw [lit0_val] at c1 c3; rw [lit1_val] at c2 c3
  rcases lt_or_ge s.val 0 with h0 | h0
  · rw [c1 hs h0]; exact unit_zero
  · rcases lt_or_ge 1 s.val with h1 | h1
    · rw [c2 hs h1]; exact unit_one
    · rw [c3 hs h0 h1]; exact ⟨hs, h0, h1⟩

theorem lit20 : (lit 20 : F32).isFin = true ∧ (lit 20 : F32).val = 20 := by
  have h : Rep 20 := by have := rep_nat (n := 20) (by norm_num); simpa using this
  exact ⟨lit_fin h, lit_val h⟩

theorem slope_lo : (lit 1 / biggestSlope).isFin = true ∧ 0 < (lit 1 / biggestSlope).val ∧ (lit 1 / biggestSlope).val ≤ 20 := by
  unfold biggestSlope
  rw [div_fin lit1_fin lit20.1 (by rw [lit20.2]; norm_num), lit20.2, lit1_val]
  have h1 : (1 / 2 ^ 5 : ℚ) ≤ (rnd ((lit 1 : F32).neg != (lit 20 : F32).neg) (1 / 20)).val :=
    rep_le_rnd (rep_of_pos_pow (by norm_num)) (by norm_num)
  refine ⟨rnd_fin_of_lt (by norm_num [abs_of_pos]), lt_of_lt_of_le (by norm_num) h1, ?_⟩
  have := rnd_le_rep (s := (lit 1 : F32).neg != (lit 20 : F32).neg) rep_one (by norm_num : (1/20 : ℚ) ≤ 1)
  linarith

theorem clampSlope {s : F32} (hs : s.isNaN = false) :
    ∃ r, F32.clamp s (lit 1 / biggestSlope) biggestSlope = .ok r ∧ r.isFin = true ∧ 0 < r.val ∧ r.val ≤ 20 := by
  have hb : biggestSlope.isFin = true ∧ biggestSlope.val = 20 := lit20
  obtain ⟨l1, l2, l3⟩ := slope_lo
  obtain ⟨r, hr, -, c1, c2, c3⟩ := clamp_cases (x := s) (isFin.not_nan l1) (isFin.not_nan hb.1) (by rw [hb.2]; exact l3)
  refine ⟨r, hr, ?_⟩
  rcases lt_or_ge s.val (lit 1 / biggestSlope).val with h0 | h0
  · rw [c1 hs h0]; exact ⟨l1, l2, l3⟩
  · rcases lt_or_ge biggestSlope.val s.val with h1 | h1
    · rw [c2 hs h1]; exact ⟨hb.1, by rw [hb.2]; norm_num, hb.2.le⟩
    · rw [c3 hs h0 h1]
      refine ⟨fin_of_val ?_, by linarith, by rw [← hb.2]; exact h1⟩
      rw [abs_of_pos (by linarith)]; rw [hb.2] at h1; exact lt_of_le_of_lt h1 (by norm_num)

/-- Every call with moderate arguments succeeds, keeps the invariant, and what it outputs is in [0,1]. -/
theorem apply_inv (hp : PowfModerate powf) {e : AudioRateADSR} (h : EnvInv e) {o : EnvOp} (ho : o.Moderate e.sr) :
    ∃ e' x, applyEnv powf e o = .ok (e', x) ∧ EnvInv e' ∧ e'.sr = o.rate e.sr ∧ ∀ y ∈ x, Unit01 y := by
  have no : ∀ y ∈ (none : Option F32), Unit01 y := by simp
  cases o with
  | setAttack s =>
    obtain ⟨r, hr, h'⟩ := setTime_moderate h.sr.1 h.sr.2 ho
    refine ⟨{ e with attack := r }, none, ?_, ⟨h', h.decay, h.release, h.sustain, h.slope, h.sr, h.t, h.t1, h.env, h.rel⟩, rfl, no⟩
    simp only [applyEnv, setAttack, hr]; rfl
  | setDecay s =>
    obtain ⟨r, hr, h'⟩ := setTime_moderate h.sr.1 h.sr.2 ho
    refine ⟨{ e with decay := r }, none, ?_, ⟨h.attack, h', h.release, h.sustain, h.slope, h.sr, h.t, h.t1, h.env, h.rel⟩, rfl, no⟩
    simp only [applyEnv, setDecay, hr]; rfl
  | setRelease s =>
    obtain ⟨r, hr, h'⟩ := setTime_moderate h.sr.1 h.sr.2 ho
    refine ⟨{ e with release := r }, none, ?_, ⟨h.attack, h.decay, h', h.sustain, h.slope, h.sr, h.t, h.t1, h.env, h.rel⟩, rfl, no⟩
    simp only [applyEnv, setRelease, hr]; rfl
  | setSustain s =>
    obtain ⟨r, hr, h'⟩ := clamp01 ho
    refine ⟨{ e with sustain := r }, none, ?_, ⟨h.attack, h.decay, h.release, h', h.slope, h.sr, h.t, h.t1, h.env, h.rel⟩, rfl, no⟩
    simp only [applyEnv, setSustain, hr]; rfl
  | setSlope s =>
    obtain ⟨r, hr, h'⟩ := clampSlope ho
    refine ⟨{ e with slope := r }, none, ?_, ⟨h.attack, h.decay, h.release, h.sustain, h', h.sr, h.t, h.t1, h.env, h.rel⟩, rfl, no⟩
    simp only [applyEnv, setSlope, hr]; rfl
  | setSr s =>
    exact ⟨e.setSr s, none, rfl, ⟨h.attack, h.decay, h.release, h.sustain, h.slope, ho, h.t, h.t1, h.env, h.rel⟩, rfl, no⟩
  | on =>
    refine ⟨e.triggerOn, none, rfl, ?_, ?_, no⟩
    · unfold triggerOn
      split
      · exact ⟨h.attack, h.decay, h.release, h.sustain, h.slope, h.sr, ⟨lit0_fin, by simp [lit0_val]⟩, fun hh => by simp at hh,
          h.env, h.rel⟩
      · exact ⟨h.attack, h.decay, h.release, h.sustain, h.slope, h.sr, ⟨lit0_fin, by simp [lit0_val]⟩, fun hh => by simp at hh,
          h.env, h.rel⟩
      all_goals exact ⟨h.attack, h.decay, h.release, h.sustain, h.slope, h.sr, h.t, fun hh => by simp at hh, h.env, h.rel⟩
    · unfold triggerOn; split <;> rfl
  | off =>
    refine ⟨e.triggerOff, none, rfl, ?_, ?_, no⟩
    · unfold triggerOff
      split
      all_goals first
        | exact h
        | exact ⟨h.attack, h.decay, h.release, h.sustain, h.slope, h.sr, ⟨lit0_fin, by simp [lit0_val]⟩,
            fun _ => by simp [lit0_val], h.env, h.env⟩
    · unfold triggerOff; split <;> rfl
  | reset =>
    exact ⟨e.reset, none, rfl, ⟨h.attack, h.decay, h.release, h.sustain, h.slope, h.sr, h.t, fun hh => by simp [AudioRateADSR.reset] at hh,
      unit_zero, h.rel⟩, rfl, no⟩
  | tick =>
    obtain ⟨h1, h2⟩ := tick_inv hp h
    refine ⟨_, _, rfl, h2, ?_, by simpa using h1⟩
    rcases hs : e.state with _ | _ | _ | _ | _
    · rw [idle_eq hs]; rfl
    · rw [attack_eq hs]; split <;> rfl
    · rw [decay_eq hs]; split <;> rfl
    · rw [release_eq hs]; split <;> rfl
    · rw [sustain_eq hs]; rfl

theorem run_inv (hp : PowfModerate powf) : ∀ (ops : List EnvOp) {e : AudioRateADSR}, EnvInv e → Moderates e.sr ops →
    ∃ e' xs, runEnv powf e ops = .ok (e', xs) ∧ EnvInv e' ∧ ∀ x ∈ xs, Unit01 x
  | [], e, h, _ => ⟨e, [], rfl, h, by simp⟩
  | o :: os, e, h, ho => by
    obtain ⟨e1, x, h1, h2, h3, h4⟩ := apply_inv hp h ho.1
    obtain ⟨e2, xs, h5, h6, h7⟩ := run_inv hp os h2 (by rw [h3]; exact ho.2)
    refine ⟨e2, x.toList ++ xs, ?_, h6, ?_⟩
    · unfold runEnv; rw [h1, ok_bind]; dsimp only; rw [h5]; rfl
    · intro y hy
      rcases List.mem_append.1 hy with hy | hy
      · exact h4 y (by simpa using hy)
      · exact h7 y hy

theorem new_inv {a d s r sl sr : F32} (ha : AtLeastOneSample a sr) (hd : AtLeastOneSample d sr) (hs : s.isNaN = false)
    (hr : AtLeastOneSample r sr) (hsl : Pos sl) (h20 : sl.val ≤ 20) (hf : sr.isFin = true) (h2 : 1 / 2 ≤ sr.val) :
    ∃ e, AudioRateADSR.new a d s r sl sr = .ok e ∧ EnvInv e ∧ e.sr = sr ∧ e.state = .idle ∧ e.envelopeValue = lit 0 := by
  obtain ⟨s', hs', us⟩ := clamp01 hs
  obtain ⟨a', ha', ua⟩ := setTime_moderate hf h2 ha
  obtain ⟨d', hd', ud⟩ := setTime_moderate hf h2 hd
  obtain ⟨r', hr', ur⟩ := setTime_moderate hf h2 hr
  refine ⟨⟨a', d', s', r', sl, lit 0, .idle, lit 0, lit 0, sr⟩, ?_, ⟨ua, ud, ur, us, ⟨hsl.1, hsl.2, h20⟩, ⟨hf, h2⟩,
    ⟨lit0_fin, by simp [lit0_val]⟩, fun hh => by simp at hh, unit_zero, unit_zero⟩, rfl, rfl, rfl⟩
  unfold AudioRateADSR.new
  rw [hs', ok_bind, hd', ok_bind, ha', ok_bind, hr', ok_bind]; rfl

theorem reached_inv (hp : PowfModerate powf) {e : AudioRateADSR} {xs : List F32} (h : ModeratelyReached powf e xs) :
    EnvInv e ∧ ∀ x ∈ xs, Unit01 x := by
  obtain ⟨a, d, s, r, sl, sr, ops, e0, ha, hd, hs, hr, hsl, h20, hf, h2, hn, ho, hrun⟩ := h
  obtain ⟨e0', hn', hi, hsr, -⟩ := new_inv ha hd hs hr hsl h20 hf h2
  rw [hn] at hn'; obtain rfl := Except.ok.inj hn'
  obtain ⟨e', xs', h1, h2, h3⟩ := run_inv hp ops hi (by rw [hsr]; exact ho)
  rw [hrun] at h1; obtain ⟨rfl, rfl⟩ := Prod.mk.inj (Except.ok.inj h1)
  exact ⟨h2, h3⟩

end Verif
