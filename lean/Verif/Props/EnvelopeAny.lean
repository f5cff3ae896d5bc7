import Verif.Props.Envelope
import Verif.Props.OscHistory

/-! # C82, C84, C87 for times of any length

`Verif/Props/Envelope.lean` refutes C82, C84 and C87: when the power overflows, a level of exactly 0 makes the formula inf · 0.
Here, for every positive time and slope: that is the only thing that can go wrong. -/

namespace Verif
open F32 AudioRateADSR

variable {powf : F32 → F32 → F32}

/-- The power is infinite for some finite base and exponent, both not negative. -/
def Overflows (powf : F32 → F32 → F32) : Prop :=
  ∃ t s : F32, t.isFin = true ∧ 0 ≤ t.val ∧ s.isFin = true ∧ 0 ≤ s.val ∧ (powf t s).isInf = true

/-- not NaN and not negative; infinity allowed -/
def NonNeg (x : F32) : Prop := x.isNaN = false ∧ 0 ≤ x.val

/-- The invariant of every history of reasonable calls: levels are in [0,1], or NaN if `B`. -/
structure EnvAny (B : Prop) (e : AudioRateADSR) : Prop where
  attack : e.attack.isFin = true ∧ 0 ≤ e.attack.val
  decay : e.decay.isFin = true ∧ 0 ≤ e.decay.val
  release : e.release.isFin = true ∧ 0 ≤ e.release.val
  sustain : Unit01 e.sustain
  slope : Pos e.slope
  sr : Pos e.sr
  t : NonNeg e.t
  t1 : e.state = .decay ∨ e.state = .release → e.t.val < 1 ∨ B
  env : Unit01 e.envelopeValue ∨ B ∧ e.envelopeValue.isNaN = true
  rel : Unit01 e.releaseVal ∨ B ∧ e.releaseVal.isNaN = true

theorem nonneg_zero : NonNeg (lit 0) := ⟨isFin.not_nan lit0_fin, by rw [lit0_val]⟩

theorem nonneg_inf {x : F32} (h : NonNeg x) (hi : x.isInf = true) : x = inf := by
  rcases inf_cases hi with rfl | rfl
  · rfl
  · exact absurd h.2 (by decide +kernel)

theorem inf_val : inf.val = 2 ^ 128 := by
  rw [val_of_pos (by decide)]; exact magVal_infMag

theorem FinNonNeg.nonNeg {x : F32} (h : x.isFin = true ∧ 0 ≤ x.val) : NonNeg x := ⟨isFin.not_nan h.1, h.2⟩

/-- From a phase below 1 a finite rate leads to a finite phase. -/
theorem t_add_fin {t r : F32} (ht : NonNeg t) (h1 : t.val < 1) (hr : r.isFin = true ∧ 0 ≤ r.val) : (t + r).isFin = true := by
  have tf : t.isFin = true := fin_of_val (by rw [abs_of_nonneg ht.2]; exact h1.trans (by norm_num))
  rw [add_fin tf hr.1]
  have hm := fin_le_max hr.1
  rw [abs_of_nonneg hr.2] at hm
  refine rnd_fin_of_lt ?_
  rw [abs_of_nonneg (add_nonneg ht.2 hr.2)]
  have : ((2:ℚ) ^ 24 - 1) * 2 ^ 104 + 1 < 2 ^ 128 - 2 ^ 103 := by norm_num
  linarith

/-- The increment of the phase, for any rate. -/
theorem t_add_any {t r : F32} (ht : NonNeg t) (hr : NonNeg r) :
    NonNeg (t + r) ∧ (t.val + r.val ≤ 1 → t.val + r.val - 1 / 2 ^ 25 ≤ (t + r).val) ∧ (1 ≤ t.val + r.val → 1 ≤ (t + r).val) := by
  have big : ∀ x : F32, x = inf → NonNeg x ∧ (1:ℚ) ≤ x.val := by
    rintro x rfl
    exact ⟨⟨by decide, by rw [inf_val]; norm_num⟩, by rw [inf_val]; norm_num⟩
  rcases hti : t.isInf with _ | _
  · rcases hri : r.isInf with _ | _
    · have tf := isFin_of_not ht.1 hti
      have rf := isFin_of_not hr.1 hri
      have h0 : 0 ≤ t.val + r.val := add_nonneg ht.2 hr.2
      rw [add_fin tf rf]
      refine ⟨⟨rnd_not_nan _ _, rnd_val_nonneg h0⟩, fun h => ?_, fun h => rep_le_rnd rep_one h⟩
      have := abs_le.1 (rnd_error_unit (s := t.neg && r.neg) (q := t.val + r.val) (by rw [abs_of_nonneg h0]; exact h))
      linarith [this.1]
    · have hr' := nonneg_inf hr hri
      have : t + r = r := by
        show F32.add _ _ = _
        unfold F32.add
        rw [ht.1, hr.1, hti, hri]; simp
      rw [this]
      obtain ⟨b1, b2⟩ := big r hr'
      refine ⟨b1, fun h => ?_, fun _ => b2⟩
      have := hr' ▸ inf_val
      rw [this] at h; exfalso; have := ht.2; norm_num at h; linarith
  · have ht' := nonneg_inf ht hti
    have : t + r = t := by
      rcases hri : r.isInf with _ | _
      · show F32.add _ _ = _
        unfold F32.add
        rw [ht.1, hr.1, hti, hri]; simp
      · rw [ht', nonneg_inf hr hri]; decide
    rw [this]
    obtain ⟨b1, b2⟩ := big t ht'
    refine ⟨b1, fun h => ?_, fun _ => b2⟩
    have := ht' ▸ inf_val
    rw [this] at h; exfalso; have := hr.2; norm_num at h; linarith

theorem one_sub_inf : (lit 1 - inf : F32) = negInf := by decide +kernel

theorem negInf_mul {d : F32} (hd : Unit01 d) : (negInf * d = nan ∧ d.val = 0) ∨ (negInf * d = negInf ∧ 0 < d.val) := by
  have e : negInf * d = if d.mag = 0 then nan else pack (negInf.neg != d.neg) infMag := by
    show F32.mul _ _ = _
    unfold F32.mul
    rw [hd.1, isFin.not_inf hd.fin]
    simp [show negInf.isNaN = false by decide, show negInf.isInf = true by decide, show negInf.mag ≠ 0 by decide]
  rcases hd.2.1.eq_or_lt with h | h
  · left
    rw [e, if_pos (val_eq_zero.1 h.symm)]; exact ⟨rfl, h.symm⟩
  · right
    have hn : d.neg = false := by
      cases hn : d.neg with
      | false => rfl
      | true => have := val_of_neg hn; rw [this] at h; have := magVal_nonneg d.mag; linarith
    rw [e, if_neg (fun h' => by rw [val_eq_zero.2 h'] at h; exact lt_irrefl _ h), hn]
    exact ⟨by decide, h⟩

theorem negInf_add {s : F32} (hs : s.isFin = true) : negInf + s = negInf := by
  show F32.add _ _ = _
  unfold F32.add
  rw [isFin.not_nan hs, isFin.not_inf hs]
  simp [show negInf.isNaN = false by decide, show negInf.isInf = true by decide]

/-- The level 1 is the only one of [0,1] whose distance from 1 rounds to 0. -/
theorem one_sub_zero {s : F32} (hs : Unit01 s) : Unit01 (lit 1 - s) ∧ ((lit 1 - s).val = 0 ↔ s.val = 1) := by
  obtain ⟨d1, d2, -, d4⟩ := one_sub_val hs.fin hs.2.1
  refine ⟨⟨isFin.not_nan d1, d4 hs.2.2, d2⟩, ?_⟩
  constructor
  · intro h
    by_contra hne
    have hlt : s.val < 1 := lt_of_le_of_ne hs.2.2 hne
    have hm : 1 / 2 ^ 149 ≤ 1 - s.val := by
      have hv : s.val = (magInt s.mag : ℚ) / 2 ^ 149 := by
        rw [← abs_of_nonneg hs.2.1, abs_val]; rfl
      rw [hv] at hlt ⊢
      rw [div_lt_one (by positivity)] at hlt
      have h1 : magInt s.mag + 1 ≤ 2 ^ 149 := by exact_mod_cast hlt
      have h2 : (magInt s.mag : ℚ) + 1 ≤ 2 ^ 149 := by exact_mod_cast h1
      rw [div_le_iff₀ (by positivity), sub_mul, div_mul_cancel₀ _ (by positivity)]; linarith
    have : (1 / 2 ^ 149 : ℚ) ≤ (lit 1 - s).val := by
      rw [sub_fin lit1_fin hs.fin, lit1_val]
      exact rep_le_rnd (rep_of_pos_pow (by norm_num)) hm
    rw [h] at this; norm_num at this
  · intro h
    rw [sub_fin lit1_fin hs.fin, lit1_val, h, sub_self]
    exact (rep_zero).rnd_val _


/-- The decay formula, for any power: NaN exactly for an infinite power at level 1. -/
theorem decay_any {w s : F32} (hw : NonNeg w) (hs : Unit01 s) :
    (((lit 1 - w) * (lit 1 - s) + s).isNaN = true ↔ w.isInf = true ∧ s.val = 1) ∧
    (((lit 1 - w) * (lit 1 - s) + s).isNaN = false → ((lit 1 - w) * (lit 1 - s) + s).val ≤ 1 ∧
      (1 ≤ w.val → ((lit 1 - w) * (lit 1 - s) + s).val ≤ s.val)) := by
  rcases hi : w.isInf with _ | _
  · obtain ⟨v1, v2, v3⟩ := decay_val (isFin_of_not hw.1 hi) hw.2 hs
    refine ⟨?_, fun _ => ⟨v2, v3⟩⟩
    rw [isFin.not_nan v1]; simp
  · obtain ⟨o1, o2⟩ := one_sub_zero hs
    rw [nonneg_inf hw hi, one_sub_inf]
    rcases negInf_mul o1 with ⟨h1, h2⟩ | ⟨h1, h2⟩
    · rw [h1, add_nan_left isNaN_nan]
      exact ⟨⟨fun _ => ⟨rfl, o2.1 h2⟩, fun _ => isNaN_nan⟩, fun h => by rw [isNaN_nan] at h; cases h⟩
    · rw [h1, negInf_add hs.fin]
      have hv : negInf.val ≤ 0 := by decide +kernel
      refine ⟨⟨fun h => absurd h (by decide), fun h => ?_⟩, fun _ => ⟨by linarith, fun _ => by linarith [hs.2.1]⟩⟩
      rw [o2.2 h.2] at h2; exact absurd h2 (lt_irrefl _)

/-- The release formula, for any power: NaN exactly for an infinite power at level 0. -/
theorem release_any {w r : F32} (hw : NonNeg w) (hr : Unit01 r) :
    (((lit 1 - w) * r).isNaN = true ↔ w.isInf = true ∧ r.val = 0) ∧
    (((lit 1 - w) * r).isNaN = false → ((lit 1 - w) * r).val ≤ r.val ∧ (1 ≤ w.val → ((lit 1 - w) * r).val ≤ 0)) := by
  rcases hi : w.isInf with _ | _
  · obtain ⟨v1, v2, v3⟩ := release_val (isFin_of_not hw.1 hi) hw.2 hr
    refine ⟨?_, fun _ => ⟨v2, v3⟩⟩
    rw [isFin.not_nan v1]; simp
  · rw [nonneg_inf hw hi, one_sub_inf]
    rcases negInf_mul hr with ⟨h1, h2⟩ | ⟨h1, h2⟩
    · rw [h1]
      exact ⟨⟨fun _ => ⟨rfl, h2⟩, fun _ => isNaN_nan⟩, fun h => by rw [isNaN_nan] at h; cases h⟩
    · rw [h1]
      have hv : negInf.val ≤ 0 := by decide +kernel
      refine ⟨⟨fun h => absurd h (by decide), fun h => ?_⟩, fun _ => ⟨by linarith, fun _ => hv⟩⟩
      rw [h.2] at h2; exact absurd h2 (lt_irrefl _)

theorem not_le_nan {x y : F32} (h : x.isNaN = true) : ¬ F32.le x y = true := by
  rw [le_nan_left h]; decide

theorem pow_any (hp : PowfContract powf) {t s : F32} (ht : NonNeg t) (hs : NonNeg s) : NonNeg (powf t s) :=
  ⟨hp.nn _ _ ht.1 ht.2 hs.1 hs.2, hp.nonneg _ _ ht.1 ht.2 hs.1 hs.2⟩

theorem Pos.nonNeg {x : F32} (h : Pos x) : NonNeg x := ⟨isFin.not_nan h.1, h.2.le⟩

theorem overflows_of {t r s : F32} (ht : NonNeg t) (h1 : t.val < 1 ∨ Overflows powf) (hr : r.isFin = true ∧ 0 ≤ r.val)
    (hs : Pos s) (h : (powf (t + r) s).isInf = true) : Overflows powf := by
  rcases h1 with h1 | h1
  · exact ⟨t + r, s, t_add_fin ht h1 hr, (t_add_any ht (FinNonNeg.nonNeg hr)).1.2, hs.1, hs.2.le, h⟩
  · exact h1

/-- One tick, for any times. -/
theorem tick_any (hp : PowfContract powf) {e : AudioRateADSR} (h : EnvAny (Overflows powf) e) :
    (Unit01 (e.tick powf).2 ∨ Overflows powf ∧ (e.tick powf).2.isNaN = true) ∧ EnvAny (Overflows powf) (e.tick powf).1 := by
  rcases hs : e.state with _ | _ | _ | _ | _
  · rw [idle_eq hs]; exact ⟨.inl unit_zero, h⟩
  · rw [attack_eq hs]
    have ht := (t_add_any h.t (FinNonNeg.nonNeg h.attack)).1
    have hi : NonNeg (lit 1 / e.slope) := inv_slope h.slope.1 h.slope.2
    have hw := pow_any hp ht hi
    split_ifs with hc
    · exact ⟨.inl unit_one, h.attack, h.decay, h.release, h.sustain, h.slope, h.sr, nonneg_zero,
        fun _ => .inl (by rw [lit0_val]; norm_num), .inl unit_one, h.rel⟩
    · rw [le_false (isFin.not_nan lit1_fin) hw.1, lit1_val] at hc
      have hu : Unit01 (powf (e.t + e.attack) (lit 1 / e.slope)) := ⟨hw.1, hw.2, hc.le⟩
      exact ⟨.inl hu, h.attack, h.decay, h.release, h.sustain, h.slope, h.sr, ht,
        fun hh => by simp [hs] at hh, .inl hu, h.rel⟩
  · rw [decay_eq hs]
    have ht := (t_add_any h.t (FinNonNeg.nonNeg h.decay)).1
    have hw := pow_any hp ht h.slope.nonNeg
    obtain ⟨v1, v2⟩ := decay_any hw h.sustain
    split_ifs with hc
    · exact ⟨.inl h.sustain, h.attack, h.decay, h.release, h.sustain, h.slope, h.sr, ht,
        fun hh => by simp at hh, .inl h.sustain, h.rel⟩
    · have hu : (Unit01 ((lit 1 - powf (e.t + e.decay) e.slope) * (lit 1 - e.sustain) + e.sustain) ∨ Overflows powf ∧
          ((lit 1 - powf (e.t + e.decay) e.slope) * (lit 1 - e.sustain) + e.sustain).isNaN = true) ∧
          ((e.t + e.decay).val < 1 ∨ Overflows powf) := by
        rcases hn : ((lit 1 - powf (e.t + e.decay) e.slope) * (lit 1 - e.sustain) + e.sustain).isNaN with _ | _
        · rw [le_false hn h.sustain.1] at hc
          refine ⟨.inl ⟨hn, by linarith [h.sustain.2.1], (v2 hn).1⟩, .inl ?_⟩
          by_contra hn'
          linarith [(v2 hn).2 (hp.ge_one _ _ ht.1 (not_lt.1 hn') h.slope.nonNeg.1 h.slope.nonNeg.2)]
        · have hB := overflows_of h.t (h.t1 (.inl hs)) h.decay h.slope (v1.1 hn).1
          exact ⟨.inr ⟨hB, rfl⟩, .inr hB⟩
      exact ⟨hu.1, h.attack, h.decay, h.release, h.sustain, h.slope, h.sr, ht, fun _ => hu.2, hu.1, h.rel⟩
  · rw [release_eq hs]
    have ht := (t_add_any h.t (FinNonNeg.nonNeg h.release)).1
    have hw := pow_any hp ht h.slope.nonNeg
    split_ifs with hc
    · exact ⟨.inl unit_zero, h.attack, h.decay, h.release, h.sustain, h.slope, h.sr, nonneg_zero,
        fun _ => .inl (by rw [lit0_val]; norm_num), .inl unit_zero, h.rel⟩
    · have hu : (Unit01 ((lit 1 - powf (e.t + e.release) e.slope) * e.releaseVal) ∨ Overflows powf ∧
          ((lit 1 - powf (e.t + e.release) e.slope) * e.releaseVal).isNaN = true) ∧
          ((e.t + e.release).val < 1 ∨ Overflows powf) := by
        rcases h.rel with hr | ⟨hB, hr⟩
        · obtain ⟨v1, v2⟩ := release_any hw hr
          rcases hn : ((lit 1 - powf (e.t + e.release) e.slope) * e.releaseVal).isNaN with _ | _
          · rw [le_false hn (isFin.not_nan epsilon_val.2), epsilon_val.1] at hc
            have : (0:ℚ) < 1 / 2 ^ 23 := by positivity
            refine ⟨.inl ⟨hn, by linarith, (v2 hn).1.trans hr.2.2⟩, .inl ?_⟩
            by_contra hn'
            linarith [(v2 hn).2 (hp.ge_one _ _ ht.1 (not_lt.1 hn') h.slope.nonNeg.1 h.slope.nonNeg.2)]
          · have hB := overflows_of h.t (h.t1 (.inr hs)) h.release h.slope (v1.1 hn).1
            exact ⟨.inr ⟨hB, rfl⟩, .inr hB⟩
        · exact ⟨.inr ⟨hB, by rw [mul_nan_right hr]; exact isNaN_nan⟩, .inr hB⟩
      exact ⟨hu.1, h.attack, h.decay, h.release, h.sustain, h.slope, h.sr, ht, fun _ => hu.2, hu.1, h.rel⟩
  · rw [sustain_eq hs]; exact ⟨.inl h.sustain, h⟩

/-! ### the setters -/

/-- What `clamp` returns, if it does, for a number: at least the lower and at most the upper bound. -/
theorem clamp_between {x lo hi r : F32} (hx : x.isNaN = false) (h : F32.clamp x lo hi = .ok r) :
    r.isNaN = false ∧ lo.val ≤ r.val ∧ r.val ≤ hi.val := by
  have hle : F32.le lo hi = true := by
    by_contra hc
    unfold F32.clamp at h
    rw [if_neg hc] at h; cases h
  obtain ⟨l1, l2, l3⟩ := le_iff.1 hle
  obtain ⟨r', hr', -, c1, c2, c3⟩ := clamp_cases (x := x) l1 l2 l3
  rw [h] at hr'; obtain rfl := Except.ok.inj hr'
  rcases lt_or_ge x.val lo.val with h0 | h0
  · rw [c1 hx h0]; exact ⟨l1, le_refl _, l3⟩
  · rcases lt_or_ge hi.val x.val with h1 | h1
    · rw [c2 hx h1]; exact ⟨l2, l3, le_refl _⟩
    · rw [c3 hx h0 h1]; exact ⟨hx, h0, h1⟩

theorem one_div_num {x : F32} (hx : x.isNaN = false) : (lit 1 / x).isNaN = false := by
  show (F32.div _ _).isNaN = false
  unfold F32.div
  rw [isFin.not_nan lit1_fin, hx, isFin.not_inf lit1_fin]
  have h1 : (lit 1 : F32).mag ≠ 0 := by decide +kernel
  have hp : ∀ (b : Bool) (n : Nat), n ≤ infMag → (pack b n).isNaN = false := fun b n hn => by
    rw [isNaN_false_iff, mag_pack_le hn]; exact hn
  simp only [Bool.or_self, Bool.false_eq_true, if_false, h1]
  split_ifs
  · exact hp _ _ (by norm_num [infMag])
  · exact hp _ _ (le_refl _)
  · exact rnd_not_nan _ _

theorem setTime_any {secs sr r : F32} (h1 : Pos secs) (h2 : Pos sr) (h : setTimeParameter secs sr = .ok r) :
    r.isFin = true ∧ 0 ≤ r.val := by
  have hm : (secs * sr).isNaN = false := by rw [mul_fin h1.1 h2.1]; exact rnd_not_nan _ _
  have hl : 0 ≤ (shortestTimeBase / sr).val := by
    unfold shortestTimeBase
    rw [div_fin lithalf_fin h2.1 h2.2.ne', lithalf_val]
    exact rnd_val_nonneg (div_nonneg (by norm_num) h2.2.le)
  obtain ⟨c1, c2, c3⟩ := clamp_between (one_div_num hm) h
  refine ⟨fin_of_val ?_, hl.trans c2⟩
  rw [abs_of_nonneg (hl.trans c2)]
  refine lt_of_le_of_lt c3 ?_
  rw [maxFin_val]; norm_num

theorem setter_any {m : M F32} {f : F32 → AudioRateADSR} {e' : AudioRateADSR} {x : Option F32}
    (h : (m >>= fun a => (pure (f a) : M AudioRateADSR)) >>= (fun e1 => (pure (e1, none) : M (AudioRateADSR × Option F32))) =
      .ok (e', x)) : ∃ r, m = .ok r ∧ e' = f r ∧ x = none := by
  cases m with
  | error _ => cases h
  | ok r => exact ⟨r, rfl, (Prod.mk.inj (Except.ok.inj h)).1.symm, (Prod.mk.inj (Except.ok.inj h)).2.symm⟩

/-- Every reasonable call that does not panic keeps the invariant. -/
theorem apply_any (hp : PowfContract powf) {e e' : AudioRateADSR} (h : EnvAny (Overflows powf) e) {o : EnvOp} (ho : o.Good)
    {x : Option F32} (ha : applyEnv powf e o = .ok (e', x)) :
    EnvAny (Overflows powf) e' ∧ ∀ y ∈ x, Unit01 y ∨ Overflows powf ∧ y.isNaN = true := by
  cases o with
  | setAttack s =>
    obtain ⟨r, hr, rfl, rfl⟩ := setter_any ha
    exact ⟨⟨setTime_any ho h.sr hr, h.decay, h.release, h.sustain, h.slope, h.sr, h.t, h.t1, h.env, h.rel⟩, by simp⟩
  | setDecay s =>
    obtain ⟨r, hr, rfl, rfl⟩ := setter_any ha
    exact ⟨⟨h.attack, setTime_any ho h.sr hr, h.release, h.sustain, h.slope, h.sr, h.t, h.t1, h.env, h.rel⟩, by simp⟩
  | setRelease s =>
    obtain ⟨r, hr, rfl, rfl⟩ := setter_any ha
    exact ⟨⟨h.attack, h.decay, setTime_any ho h.sr hr, h.sustain, h.slope, h.sr, h.t, h.t1, h.env, h.rel⟩, by simp⟩
  | setSustain s =>
    obtain ⟨r, hr, rfl, rfl⟩ := setter_any ha
    obtain ⟨r', hr', hu⟩ := clamp01 (s := s) ho
    rw [hr] at hr'; obtain rfl := Except.ok.inj hr'
    exact ⟨⟨h.attack, h.decay, h.release, hu, h.slope, h.sr, h.t, h.t1, h.env, h.rel⟩, by simp⟩
  | setSlope s =>
    obtain ⟨r, hr, rfl, rfl⟩ := setter_any ha
    obtain ⟨r', hr', h1, h2, -⟩ := clampSlope (s := s) (isFin.not_nan ho.1)
    rw [hr] at hr'; obtain rfl := Except.ok.inj hr'
    exact ⟨⟨h.attack, h.decay, h.release, h.sustain, ⟨h1, h2⟩, h.sr, h.t, h.t1, h.env, h.rel⟩, by simp⟩
  | setSr s =>
    obtain ⟨rfl, rfl⟩ := Prod.mk.inj (Except.ok.inj ha)
    exact ⟨⟨h.attack, h.decay, h.release, h.sustain, h.slope, ho, h.t, h.t1, h.env, h.rel⟩, by simp⟩
  | on =>
    obtain ⟨rfl, rfl⟩ := Prod.mk.inj (Except.ok.inj ha)
    refine ⟨?_, by simp⟩
    unfold triggerOn
    split
    all_goals first
      | exact ⟨h.attack, h.decay, h.release, h.sustain, h.slope, h.sr, nonneg_zero, fun hh => by simp at hh, h.env, h.rel⟩
      | exact ⟨h.attack, h.decay, h.release, h.sustain, h.slope, h.sr, h.t, fun hh => by simp at hh, h.env, h.rel⟩
  | off =>
    obtain ⟨rfl, rfl⟩ := Prod.mk.inj (Except.ok.inj ha)
    refine ⟨?_, by simp⟩
    unfold triggerOff
    split
    all_goals first
      | exact h
      | exact ⟨h.attack, h.decay, h.release, h.sustain, h.slope, h.sr, nonneg_zero,
          fun _ => .inl (by rw [lit0_val]; norm_num), h.env, h.env⟩
  | reset =>
    obtain ⟨rfl, rfl⟩ := Prod.mk.inj (Except.ok.inj ha)
    exact ⟨⟨h.attack, h.decay, h.release, h.sustain, h.slope, h.sr, h.t, fun hh => by simp [AudioRateADSR.reset] at hh, .inl unit_zero, h.rel⟩, by simp⟩
  | tick =>
    obtain ⟨rfl, rfl⟩ := Prod.mk.inj (Except.ok.inj ha)
    obtain ⟨h1, h2⟩ := tick_any hp h
    exact ⟨h2, by simpa using h1⟩

theorem run_any (hp : PowfContract powf) : ∀ (ops : List EnvOp) {e e' : AudioRateADSR} {xs : List F32},
    EnvAny (Overflows powf) e → (∀ o ∈ ops, o.Good) → runEnv powf e ops = .ok (e', xs) →
    EnvAny (Overflows powf) e' ∧ ∀ x ∈ xs, Unit01 x ∨ Overflows powf ∧ x.isNaN = true
  | [], e, e', xs, h, _, hr => by
    obtain ⟨rfl, rfl⟩ := Prod.mk.inj (Except.ok.inj hr)
    exact ⟨h, by simp⟩
  | o :: os, e, e', xs, h, ho, hr => by
    unfold runEnv at hr
    cases ha : applyEnv powf e o with
    | error f => rw [ha] at hr; cases hr
    | ok p =>
      obtain ⟨e1, x⟩ := p
      rw [ha, ok_bind] at hr; dsimp only at hr
      cases hb : runEnv powf e1 os with
      | error f => rw [hb] at hr; cases hr
      | ok p2 =>
        obtain ⟨e2, ys⟩ := p2
        rw [hb, ok_bind] at hr
        obtain ⟨rfl, rfl⟩ := Prod.mk.inj (Except.ok.inj hr)
        obtain ⟨h1, h2⟩ := apply_any hp h (ho o (by simp)) ha
        obtain ⟨h3, h4⟩ := run_any hp os h1 (fun o' ho' => ho o' (by simp [ho'])) hb
        refine ⟨h3, fun y hy => ?_⟩
        rcases List.mem_append.1 hy with hy | hy
        · exact h2 y (by simpa using hy)
        · exact h4 y hy

theorem reached_any (hp : PowfContract powf) {e : AudioRateADSR} {xs : List F32} (h : Reached powf e xs) :
    EnvAny (Overflows powf) e ∧ ∀ x ∈ xs, Unit01 x ∨ Overflows powf ∧ x.isNaN = true := by
  obtain ⟨a, d, s, r, sl, sr, ops, e0, ha, hd, hs, hr, hsl, hsr, hn, ho, hrun⟩ := h
  refine run_any hp ops ?_ ho hrun
  obtain ⟨s', hs', us⟩ := clamp01 hs
  unfold AudioRateADSR.new at hn
  rw [hs', ok_bind] at hn
  cases h1 : setTimeParameter d sr with
  | error f => rw [h1] at hn; cases hn
  | ok d' =>
    rw [h1, ok_bind] at hn
    cases h2 : setTimeParameter a sr with
    | error f => rw [h2] at hn; cases hn
    | ok a' =>
      rw [h2, ok_bind] at hn
      cases h3 : setTimeParameter r sr with
      | error f => rw [h3] at hn; cases hn
      | ok r' =>
        rw [h3, ok_bind] at hn
        obtain rfl := Except.ok.inj hn
        exact ⟨setTime_any ha hsr h2, setTime_any hd hsr h1, setTime_any hr hsr h3, us, hsl, hsr, nonneg_zero, fun hh => by simp at hh, .inl unit_zero,
          .inl unit_zero⟩

/-! ## C82 -/

/-- C82, what holds for times and slopes of any size: a sample is in [0,1], or it is NaN and the power
overflows for some finite base and exponent. -/
theorem C82_actual (hp : PowfContract powf) {e : AudioRateADSR} {xs : List F32} (h : Reached powf e xs) :
    ∀ x ∈ xs, Unit01 x ∨ Overflows powf ∧ x.isNaN = true := (reached_any hp h).2

/-- C82 holds in full, for times and slopes of any size, for every power that does not overflow. -/
theorem C82_saturating_actual (hp : PowfContract powf) (hf : ¬ Overflows powf) {e : AudioRateADSR} {xs : List F32}
    (h : Reached powf e xs) : ∀ x ∈ xs, Unit01 x := fun x hx =>
  ((reached_any hp h).2 x hx).resolve_right fun h' => hf h'.1

/-- slope 1, where the power is its base, does not overflow -/
example : PowfContract (fun t _ => t) ∧ ¬ Overflows (fun t _ => t) :=
  ⟨powf_one.toPowfContract, fun ⟨_, _, h, _, _, _, hi⟩ => by rw [isFin.not_inf h] at hi; cases hi⟩

/-- Exactly when the next sample is NaN: in Decay towards sustain 1 with an infinite power; in Release from level 0 with an
infinite power, or from a level that was NaN. -/
theorem C82_nan_actual (hp : PowfContract powf) {e : AudioRateADSR} {xs : List F32} (h : Reached powf e xs) :
    (e.tick powf).2.isNaN = true ↔
      (e.state = .decay ∧ e.sustain.val = 1 ∧ (powf (e.t + e.decay) e.slope).isInf = true) ∨
      (e.state = .release ∧
        (e.releaseVal.isNaN = true ∨ e.releaseVal.val = 0 ∧ (powf (e.t + e.release) e.slope).isInf = true)) := by
  have hi := (reached_any hp h).1
  rcases hs : e.state with _ | _ | _ | _ | _
  · rw [idle_eq hs]; simp [isFin.not_nan lit0_fin]
  · rw [attack_eq hs]
    have hw := pow_any hp (t_add_any hi.t (FinNonNeg.nonNeg hi.attack)).1 (inv_slope hi.slope.1 hi.slope.2)
    split_ifs <;> simp [isFin.not_nan lit1_fin, hw.1]
  · rw [decay_eq hs]
    have hw := pow_any hp (t_add_any hi.t (FinNonNeg.nonNeg hi.decay)).1 hi.slope.nonNeg
    obtain ⟨v1, -⟩ := decay_any hw hi.sustain
    split_ifs with hc
    · have hn := (le_iff.1 hc).1
      have := v1.not.1 (by rw [hn]; decide)
      simp only [hi.sustain.1, Bool.false_eq_true, true_and, false_and, or_false, false_iff]
      exact fun h' => this ⟨h'.2, h'.1⟩
    · simp only [v1, true_and, false_and, or_false]; exact and_comm
  · rw [release_eq hs]
    have hw := pow_any hp (t_add_any hi.t (FinNonNeg.nonNeg hi.release)).1 hi.slope.nonNeg
    simp only [reduceCtorEq, false_and, true_and, false_or]
    rcases hi.rel with hr | ⟨-, hr⟩
    · obtain ⟨v1, -⟩ := release_any hw hr
      split_ifs with hc
      · have hn := (le_iff.1 hc).1
        have := v1.not.1 (by rw [hn]; decide)
        simp only [isFin.not_nan lit0_fin, Bool.false_eq_true, false_iff, hr.1, false_or]
        exact fun h' => this ⟨h'.2, h'.1⟩
      · simp only [v1, hr.1, Bool.false_eq_true, false_or]; exact and_comm
    · have hn : ((lit 1 - powf (e.t + e.release) e.slope) * e.releaseVal).isNaN = true := by
        rw [mul_nan_right hr]; exact isNaN_nan
      rw [if_neg (not_le_nan hn)]
      simp [hn, hr]
  · rw [sustain_eq hs]; simp [hi.sustain.1]

/-- the refuting history: the first case of the equivalence -/
example : Reached powfOverflow stuckEnv [lit 1, F32.nan] ∧ stuckEnv.state = .decay ∧ stuckEnv.sustain.val = 1 ∧
    (powfOverflow (stuckEnv.t + stuckEnv.decay) stuckEnv.slope).isInf = true :=
  ⟨stuck_reached, rfl, by decide +kernel, by decide +kernel⟩

/-! ## C87 -/

/-- C87, what holds for times of any length: a tick in Decay returns between the sustain level and 1, unless the sustain level
is 1 and the power infinite. -/
theorem C87_actual (hp : PowfContract powf) {e : AudioRateADSR} {xs : List F32} (h : Reached powf e xs) (hs : e.state = .decay)
    (hok : e.sustain.val < 1 ∨ (powf (e.t + e.decay) e.slope).isInf = false) :
    (e.tick powf).2.isNaN = false ∧ e.sustain.val ≤ (e.tick powf).2.val ∧ (e.tick powf).2.val ≤ 1 := by
  have hi := (reached_any hp h).1
  have hn : (e.tick powf).2.isNaN = false := by
    rw [Bool.eq_false_iff, ne_eq, C82_nan_actual hp h]
    rintro (⟨-, h1, h2⟩ | ⟨h1, -⟩)
    · rcases hok with h' | h'
      · linarith
      · rw [h'] at h2; cases h2
    · rw [hs] at h1; cases h1
  have hu : Unit01 (e.tick powf).2 := by
    rcases (tick_any hp hi).1 with h' | ⟨-, h'⟩
    · exact h'
    · rw [hn] at h'; cases h'
  refine ⟨hn, ?_, hu.2.2⟩
  revert hn
  rw [decay_eq hs]
  split_ifs with hc
  · intro _; exact le_refl _
  · intro hn
    exact ((le_false hn hi.sustain.1).1 hc).le

/-! ## C84 -/

/-- One tick of a running stage, for any times: it ends, or it returns NaN, or the phase moves by the rate and stays below 1. In
Attack it never returns NaN. -/
theorem stage_step_any (hp : PowfContract powf) {e : AudioRateADSR} (h : EnvAny (Overflows powf) e) {S S' : EnvelopeState}
    {rate : AudioRateADSR → F32}
    (hS : (S = .attack ∧ S' = .decay ∧ rate = AudioRateADSR.attack) ∨ (S = .decay ∧ S' = .sustain ∧ rate = AudioRateADSR.decay) ∨
      (S = .release ∧ S' = .idle ∧ rate = AudioRateADSR.release)) (hs : e.state = S) :
    ((e.tick powf).1.state = S' ∨ S ≠ .attack ∧ (e.tick powf).2.isNaN = true ∨
      (e.tick powf).1.state = S ∧ (e.tick powf).1.t = e.t + rate e ∧ (e.t + rate e).val < 1) ∧
    (e.tick powf).1.attack = e.attack ∧ (e.tick powf).1.decay = e.decay ∧ (e.tick powf).1.release = e.release := by
  rcases hS with ⟨rfl, rfl, rfl⟩ | ⟨rfl, rfl, rfl⟩ | ⟨rfl, rfl, rfl⟩
  · rw [attack_eq hs]
    have ht := (t_add_any h.t (FinNonNeg.nonNeg h.attack)).1
    have hi : NonNeg (lit 1 / e.slope) := inv_slope h.slope.1 h.slope.2
    have hw := pow_any hp ht hi
    split_ifs with hc
    · exact ⟨.inl rfl, rfl, rfl, rfl⟩
    · refine ⟨.inr (.inr ⟨hs, rfl, ?_⟩), rfl, rfl, rfl⟩
      rw [le_false (isFin.not_nan lit1_fin) hw.1, lit1_val] at hc
      by_contra hn
      linarith [hp.ge_one _ _ ht.1 (not_lt.1 hn) hi.1 hi.2]
  · rw [decay_eq hs]
    have ht := (t_add_any h.t (FinNonNeg.nonNeg h.decay)).1
    have hw := pow_any hp ht h.slope.nonNeg
    obtain ⟨-, v2⟩ := decay_any hw h.sustain
    split_ifs with hc
    · exact ⟨.inl rfl, rfl, rfl, rfl⟩
    · refine ⟨.inr ?_, rfl, rfl, rfl⟩
      rcases hn : ((lit 1 - powf (e.t + e.decay) e.slope) * (lit 1 - e.sustain) + e.sustain).isNaN with _ | _
      · refine .inr ⟨hs, rfl, ?_⟩
        rw [le_false hn h.sustain.1] at hc
        by_contra hn'
        linarith [(v2 hn).2 (hp.ge_one _ _ ht.1 (not_lt.1 hn') h.slope.nonNeg.1 h.slope.nonNeg.2)]
      · exact .inl ⟨by decide, rfl⟩
  · rw [release_eq hs]
    have ht := (t_add_any h.t (FinNonNeg.nonNeg h.release)).1
    have hw := pow_any hp ht h.slope.nonNeg
    split_ifs with hc
    · exact ⟨.inl rfl, rfl, rfl, rfl⟩
    · refine ⟨.inr ?_, rfl, rfl, rfl⟩
      rcases hn : ((lit 1 - powf (e.t + e.release) e.slope) * e.releaseVal).isNaN with _ | _
      · refine .inr ⟨hs, rfl, ?_⟩
        rcases h.rel with hr | ⟨-, hr⟩
        · rw [le_false hn (isFin.not_nan epsilon_val.2), epsilon_val.1] at hc
          have : (0:ℚ) < 1 / 2 ^ 23 := by positivity
          by_contra hn'
          linarith [((release_any hw hr).2 hn).2 (hp.ge_one _ _ ht.1 (not_lt.1 hn') h.slope.nonNeg.1 h.slope.nonNeg.2)]
        · rw [mul_nan_right hr] at hn; exact absurd hn (by decide)
      · exact .inl ⟨by decide, rfl⟩

theorem stage_ends_any (hp : PowfContract powf) {S S' : EnvelopeState} {rate : AudioRateADSR → F32}
    (hS : (S = .attack ∧ S' = .decay ∧ rate = AudioRateADSR.attack) ∨ (S = .decay ∧ S' = .sustain ∧ rate = AudioRateADSR.decay) ∨
      (S = .release ∧ S' = .idle ∧ rate = AudioRateADSR.release)) (n : Nat) :
    ∀ {e : AudioRateADSR}, EnvAny (Overflows powf) e → e.state = S → 1 ≤ e.t.val + (n + 1) * ((rate e).val - 1 / 2 ^ 25) →
    ∃ k ≤ n, (∀ j ≤ k, (ticks powf j e).1.state = S) ∧
      ((ticks powf (k + 1) e).1.state = S' ∨ S ≠ .attack ∧ ((ticks powf k e).1.tick powf).2.isNaN = true) := by
  have hrate : ∀ {e : AudioRateADSR}, EnvAny (Overflows powf) e → NonNeg (rate e) := by
    intro e h
    rcases hS with ⟨-, -, rfl⟩ | ⟨-, -, rfl⟩ | ⟨-, -, rfl⟩
    · exact FinNonNeg.nonNeg h.attack
    · exact FinNonNeg.nonNeg h.decay
    · exact FinNonNeg.nonNeg h.release
  have hsame : ∀ {e e' : AudioRateADSR}, e'.attack = e.attack → e'.decay = e.decay → e'.release = e.release → rate e' = rate e := by
    intro e e' h1 h2 h3
    rcases hS with ⟨-, -, rfl⟩ | ⟨-, -, rfl⟩ | ⟨-, -, rfl⟩
    · exact h1
    · exact h2
    · exact h3
  have zero : ∀ {e : AudioRateADSR}, e.state = S → ∀ j ≤ 0, (ticks powf j e).1.state = S := by
    intro e hs j hj
    obtain rfl : j = 0 := by omega
    exact hs
  induction n with
  | zero =>
    intro e h hs h1
    obtain ⟨hc, -⟩ := stage_step_any hp h hS hs
    refine ⟨0, le_refl _, zero hs, ?_⟩
    rcases hc with hc | hc | ⟨-, -, hlt⟩
    · exact .inl hc
    · exact .inr hc
    · have := (t_add_any h.t (hrate h)).2.2 (by norm_num at h1; linarith)
      linarith
  | succ n ih =>
    intro e h hs h1
    obtain ⟨hc, e1, e2, e3⟩ := stage_step_any hp h hS hs
    rcases hc with hc | hc | ⟨hs', ht', hlt⟩
    · exact ⟨0, by omega, zero hs, .inl hc⟩
    · exact ⟨0, by omega, zero hs, .inr hc⟩
    · obtain ⟨-, h5, h6⟩ := t_add_any h.t (hrate h)
      have hle : e.t.val + (rate e).val ≤ 1 := by
        by_contra hn; linarith [h6 (not_le.1 hn).le]
      obtain ⟨k, hk, g0, g1⟩ := ih (tick_any hp h).2 hs' (by
        rw [hsame e1 e2 e3, ht']
        have := h5 hle
        push_cast at h1
        linarith)
      refine ⟨k + 1, by omega, ?_, g1⟩
      intro j hj
      cases j with
      | zero => exact hs
      | succ j => exact g0 j (by omega)

/-- C84, what holds for times of any length: from any phase on, if a stage's rate is at least 2^-22, then within `N` ticks,
`N ≥ 8 / (7 · rate)`, the stage ends; Decay and Release may instead return NaN within that time (see `C82_nan_actual`). -/
theorem C84_actual (hp : PowfContract powf) {e : AudioRateADSR} {xs : List F32} (h : Reached powf e xs) (N : Nat) :
    (e.state = .attack → 1 / 2 ^ 22 ≤ e.attack.val → 8 ≤ 7 * N * e.attack.val →
      ∃ k < N, (∀ j ≤ k, (ticks powf j e).1.state = .attack) ∧ (ticks powf (k + 1) e).1.state = .decay) ∧
    (e.state = .decay → 1 / 2 ^ 22 ≤ e.decay.val → 8 ≤ 7 * N * e.decay.val →
      ∃ k < N, (∀ j ≤ k, (ticks powf j e).1.state = .decay) ∧
        ((ticks powf (k + 1) e).1.state = .sustain ∨ ((ticks powf k e).1.tick powf).2.isNaN = true)) ∧
    (e.state = .release → 1 / 2 ^ 22 ≤ e.release.val → 8 ≤ 7 * N * e.release.val →
      ∃ k < N, (∀ j ≤ k, (ticks powf j e).1.state = .release) ∧
        ((ticks powf (k + 1) e).1.state = .idle ∨ ((ticks powf k e).1.tick powf).2.isNaN = true)) := by
  have hi := (reached_any hp h).1
  refine ⟨fun hs h1 h2 => ?_, fun hs h1 h2 => ?_, fun hs h1 h2 => ?_⟩ <;> obtain ⟨n, rfl, hn⟩ := bound_ok h1 h2
  · obtain ⟨k, hk, g0, g1⟩ := stage_ends_any hp (.inl ⟨rfl, rfl, rfl⟩) n hi hs (by linarith [hi.t.2])
    exact ⟨k, by omega, g0, g1.resolve_right fun h' => h'.1 rfl⟩
  · obtain ⟨k, hk, g0, g1⟩ := stage_ends_any hp (.inr (.inl ⟨rfl, rfl, rfl⟩)) n hi hs (by linarith [hi.t.2])
    exact ⟨k, by omega, g0, g1.imp id And.right⟩
  · obtain ⟨k, hk, g0, g1⟩ := stage_ends_any hp (.inr (.inr ⟨rfl, rfl, rfl⟩)) n hi hs (by linarith [hi.t.2])
    exact ⟨k, by omega, g0, g1.imp id And.right⟩

/-- times far below one sample: the attack of the refuting envelope ends in its first tick, its decay returns NaN -/
example : Reached powfOverflow shortEnv.triggerOn [] ∧ (shortEnv.triggerOn).attack.val = 256 ∧
    (ticks powfOverflow 1 shortEnv.triggerOn).1.state = .decay ∧
    ((ticks powfOverflow 1 shortEnv.triggerOn).1.tick powfOverflow).2.isNaN = true := by
  have p1 : Pos (lit (1/2^24)) := by constructor <;> decide +kernel
  refine ⟨⟨lit (1/2^24), lit (1/2^24), lit 1, lit (1/2^24), lit 20, lit 65536, [.on], shortEnv, p1, p1,
    by decide +kernel, p1, ⟨by decide +kernel, by decide +kernel⟩, ⟨by decide +kernel, by decide +kernel⟩, shortEnv_new, ?_,
    by decide +kernel⟩, by decide +kernel, by decide +kernel, by decide +kernel⟩
  intro o ho
  simp only [List.mem_cons, List.not_mem_nil, or_false] at ho
  subst ho; trivial

end Verif
