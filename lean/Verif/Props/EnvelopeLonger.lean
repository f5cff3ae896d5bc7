import Verif.Props.EnvelopeAny
import Verif.Props.EnvelopeCurve

/-! # C169: a longer time asked for never makes a stage move faster

Two envelopes that differ only in the time set for the stage they are in. -/

namespace Verif
open F32 AudioRateADSR

variable {powf : F32 → F32 → F32}

/-! ## from the time to the rate -/

theorem one_div_anti {p p' : F32} (hn : p.isNaN = false) (hn' : p'.isNaN = false) (h1 : 1 ≤ p.val) (h : p.val ≤ p'.val) :
    (lit 1 / p').val ≤ (lit 1 / p).val := by
  rcases hi : p'.isInf with _ | _
  · have f' := isFin_of_not hn' hi
    have f : p.isFin = true := by
      refine fin_of_val ?_
      rw [abs_of_nonneg (by linarith)]
      have := fin_le_max f'
      rw [abs_of_nonneg (by linarith)] at this
      have : ((2:ℚ) ^ 24 - 1) * 2 ^ 104 < 2 ^ 128 := by norm_num
      linarith
    rw [div_fin lit1_fin f (by linarith), div_fin lit1_fin f' (by linarith), lit1_val]
    exact rnd_mono (one_div_le_one_div_of_le (by linarith) h)
  · have : (lit 1 / p').val = 0 := by
      rcases inf_cases hi with rfl | rfl <;> decide +kernel
    rw [this]
    exact (one_div_big hn h1).2.1

/-- The rate of a longer time is not larger. -/
theorem rate_anti {x y sr r r' : F32} (hs : sr.isFin = true) (h2 : 1 / 2 ≤ sr.val) (hx : AtLeastOneSample x sr)
    (hy : AtLeastOneSample y sr) (h : x.val ≤ y.val) (h1 : setTimeParameter x sr = .ok r) (h1' : setTimeParameter y sr = .ok r') :
    r'.val ≤ r.val := by
  have p : ∀ z, AtLeastOneSample z sr → (z * sr).isNaN = false ∧ 1 ≤ (z * sr).val := fun z hz => by
    rw [mul_fin hz.1.1 hs]; exact ⟨rnd_not_nan _ _, rep_le_rnd rep_one hz.2⟩
  have hm : (x * sr).val ≤ (y * sr).val := by
    rw [mul_fin hx.1.1 hs, mul_fin hy.1.1 hs]; exact rnd_mono (mul_le_mul_of_nonneg_right h (by linarith))
  have ha := one_div_anti (p x hx).1 (p y hy).1 (p x hx).2 hm
  obtain ⟨q1, q2, q3⟩ := one_div_big (p x hx).1 (p x hx).2
  obtain ⟨q1', q2', q3'⟩ := one_div_big (p y hy).1 (p y hy).2
  obtain ⟨l1, l2, l3⟩ := half_div hs h2
  obtain ⟨s, e1, -, c1, c2, c3⟩ := clamp_cases (x := lit 1 / (x * sr)) (isFin.not_nan l1) (isFin.not_nan maxFin_fin)
    (l3.trans maxFin_ge_one)
  obtain ⟨s', e1', -, c1', c2', c3'⟩ := clamp_cases (x := lit 1 / (y * sr)) (isFin.not_nan l1) (isFin.not_nan maxFin_fin)
    (l3.trans maxFin_ge_one)
  have er : r = s := Except.ok.inj (h1.symm.trans e1)
  have er' : r' = s' := Except.ok.inj (h1'.symm.trans e1')
  rw [er, er']
  rcases lt_or_ge (lit 1 / (x * sr)).val (shortestTimeBase / sr).val with hc | hc
  · rw [c1 (isFin.not_nan q1) hc, c1' (isFin.not_nan q1') (lt_of_le_of_lt ha hc)]
  · rw [c3 (isFin.not_nan q1) hc (q3.trans maxFin_ge_one)]
    rcases lt_or_ge (lit 1 / (y * sr)).val (shortestTimeBase / sr).val with hd | hd
    · rw [c1' (isFin.not_nan q1') hd]; exact hc
    · rw [c3' (isFin.not_nan q1') hd (q3'.trans maxFin_ge_one)]; exact ha

/-- Not further along, and not faster. -/
structure Behind (t' r' t r : F32) : Prop where
  t : t'.val ≤ t.val
  r : r'.val ≤ r.val

theorem Behind.add {t' r' t r : F32} (h : Behind t' r' t r) (a : t.isFin = true) (a' : t'.isFin = true) (b : r.isFin = true)
    (b' : r'.isFin = true) : (t' + r').val ≤ (t + r).val := by
  rw [add_fin a b, add_fin a' b']; exact rnd_mono (add_le_add h.t h.r)

/-! ## attack -/

structure AttackBehind (e' e : AudioRateADSR) : Prop where
  s : e.state = .attack
  s' : e'.state = .attack
  i : EnvInv e
  i' : EnvInv e'
  b : Behind e'.t e'.attack e.t e.attack
  sl : e'.slope = e.slope

theorem AttackBehind.step (hp : PowfModerate powf) (hm : PowfMono powf) {e' e : AudioRateADSR} (h : AttackBehind e' e) :
    (e'.tick powf).2.val ≤ (e.tick powf).2.val ∧
    ((e.tick powf).1.state = .attack → AttackBehind (e'.tick powf).1 (e.tick powf).1) := by
  obtain ⟨a1, a2, a3, -⟩ := t_add h.i.t h.i.attack
  obtain ⟨b1, b2, b3, -⟩ := t_add h.i'.t h.i'.attack
  obtain ⟨i1, i2⟩ := inv_slope h.i.slope.1 h.i.slope.2.1
  have i3 : 0 < (lit 1 / e.slope : F32).val := lt_of_lt_of_le (by norm_num) (inv_slope_ge h.i.slope)
  have hadd := h.b.add h.i.t.1 h.i'.t.1 h.i.attack.1 h.i'.attack.1
  have hw := hm _ _ (lit 1 / e.slope) b2 hadd a3 b1 a1 i3 i1
  have n1 := hp.nn _ _ (isFin.not_nan a1) a2 i1 i2
  have n2 := hp.nn _ _ (isFin.not_nan b1) b2 i1 i2
  have u' := (tick_inv hp h.i').1
  have v := (tick_inv hp h.i).2
  have v' := (tick_inv hp h.i').2
  rw [attack_eq h.s] at v ⊢
  rw [attack_eq h.s', h.sl] at u' v' ⊢
  by_cases hc : F32.le (lit 1) (powf (e.t + e.attack) (lit 1 / e.slope)) = true
  · rw [if_pos hc]
    refine ⟨?_, fun hh => by cases hh⟩
    show _ ≤ (lit 1 : F32).val
    rw [lit1_val]; exact u'.2.2
  · have hc' : ¬ F32.le (lit 1) (powf (e'.t + e'.attack) (lit 1 / e.slope)) = true := by
      rw [le_false (isFin.not_nan lit1_fin) n1] at hc
      rw [le_false (isFin.not_nan lit1_fin) n2]
      exact lt_of_le_of_lt hw hc
    rw [if_neg hc] at v ⊢
    rw [if_neg hc'] at v' ⊢
    exact ⟨hw, fun _ => ⟨h.s, h.s', v, v', ⟨hadd, h.b.r⟩, rfl⟩⟩

theorem AttackBehind.many (hp : PowfModerate powf) (hm : PowfMono powf) {e' e : AudioRateADSR} (h : AttackBehind e' e) (n : ℕ)
    (hs : ∀ j ≤ n, (ticks powf j e).1.state = .attack) : AttackBehind (ticks powf n e').1 (ticks powf n e).1 := by
  induction n with
  | zero => exact h
  | succ n ih =>
    have := ih fun j hj => hs j (by omega)
    have e1 := hs (n + 1) (le_refl _)
    rw [ticks_snoc] at e1 ⊢
    rw [ticks_snoc]
    exact (this.step hp hm).2 e1

/-- C169, attack: as long as the shorter attack goes on, so does the longer one, and no sample of it is higher (the sample that
ends the shorter one included). -/
theorem C169_attack (hp : PowfModerate powf) (hm : PowfMono powf) {e e₁ e₂ : AudioRateADSR} {xs : List F32} {x y : F32}
    (h : ModeratelyReached powf e xs) (hs : e.state = .attack) (hx : AtLeastOneSample x e.sr) (hy : AtLeastOneSample y e.sr)
    (hxy : x.val ≤ y.val) (h1 : e.setAttack x = .ok e₁) (h2 : e.setAttack y = .ok e₂) (n : ℕ)
    (hn : ∀ j ≤ n, (ticks powf j e₁).1.state = .attack) :
    (ticks powf n e₂).1.state = .attack ∧ ((ticks powf n e₂).1.tick powf).2.val ≤ ((ticks powf n e₁).1.tick powf).2.val := by
  have hi := (reached_inv hp h).1
  obtain ⟨r, hr, f⟩ := setTime_moderate hi.sr.1 hi.sr.2 hx
  obtain ⟨r', hr', f'⟩ := setTime_moderate hi.sr.1 hi.sr.2 hy
  have g1 : e₁ = { e with attack := r } := by
    unfold setAttack at h1; rw [hr] at h1; exact (Except.ok.inj h1).symm
  have g2 : e₂ = { e with attack := r' } := by
    unfold setAttack at h2; rw [hr'] at h2; exact (Except.ok.inj h2).symm
  have hb : AttackBehind e₂ e₁ := by
    rw [g1, g2]
    exact ⟨hs, hs, ⟨f, hi.decay, hi.release, hi.sustain, hi.slope, hi.sr, hi.t, hi.t1, hi.env, hi.rel⟩,
      ⟨f', hi.decay, hi.release, hi.sustain, hi.slope, hi.sr, hi.t, hi.t1, hi.env, hi.rel⟩,
      ⟨le_refl _, rate_anti hi.sr.1 hi.sr.2 hx hy hxy hr hr'⟩, rfl⟩
  have := hb.many hp hm n hn
  exact ⟨this.s', (this.step hp hm).1⟩

/-! ## decay -/

structure DecayBehind (e' e : AudioRateADSR) : Prop where
  s : e.state = .decay
  s' : e'.state = .decay
  i : EnvInv e
  i' : EnvInv e'
  b : Behind e'.t e'.decay e.t e.decay
  sl : e'.slope = e.slope
  su : e'.sustain = e.sustain

theorem DecayBehind.step (hp : PowfModerate powf) (hm : PowfMono powf) {e' e : AudioRateADSR} (h : DecayBehind e' e) :
    (e.tick powf).2.val ≤ (e'.tick powf).2.val ∧
    ((e.tick powf).1.state = .decay → DecayBehind (e'.tick powf).1 (e.tick powf).1) := by
  obtain ⟨a1, a2, a3, -⟩ := t_add h.i.t h.i.decay
  obtain ⟨b1, b2, b3, -⟩ := t_add h.i'.t h.i'.decay
  have hsl := h.i.slope
  have hsu := h.i.sustain
  have hadd := h.b.add h.i.t.1 h.i'.t.1 h.i.decay.1 h.i'.decay.1
  have hw := hm _ _ e.slope b2 hadd a3 b1 a1 hsl.2.1 (isFin.not_nan hsl.1)
  have f1 := hp.fin _ _ (isFin.not_nan a1) a2 a3 (isFin.not_nan hsl.1) hsl.2.1.le hsl.2.2
  have f2 := hp.fin _ _ (isFin.not_nan b1) b2 b3 (isFin.not_nan hsl.1) hsl.2.1.le hsl.2.2
  have n1 := hp.nonneg _ _ (isFin.not_nan a1) a2 (isFin.not_nan hsl.1) hsl.2.1.le
  have n2 := hp.nonneg _ _ (isFin.not_nan b1) b2 (isFin.not_nan hsl.1) hsl.2.1.le
  obtain ⟨d1, d2, -, d4⟩ := one_sub_val hsu.fin hsu.2.1
  have o1 := (one_sub_val f1 n1).1
  have o2 := (one_sub_val f2 n2).1
  have m := mul_mono_right o2 o1 d1 (d4 hsu.2.2) (one_sub_anti f2 f1 hw)
  have p1 := (mul_unit o1 d1 (d4 hsu.2.2) d2).1
  have p2 := (mul_unit o2 d1 (d4 hsu.2.2) d2).1
  have hv : ((lit 1 - powf (e.t + e.decay) e.slope) * (lit 1 - e.sustain) + e.sustain).val ≤
      ((lit 1 - powf (e'.t + e'.decay) e.slope) * (lit 1 - e.sustain) + e.sustain).val := by
    rw [add_fin p1 hsu.fin, add_fin p2 hsu.fin]
    exact rnd_mono (by linarith)
  have nn1 : ((lit 1 - powf (e.t + e.decay) e.slope) * (lit 1 - e.sustain) + e.sustain).isNaN = false := by
    rw [add_fin p1 hsu.fin]; exact rnd_not_nan _ _
  have nn2 : ((lit 1 - powf (e'.t + e'.decay) e.slope) * (lit 1 - e.sustain) + e.sustain).isNaN = false := by
    rw [add_fin p2 hsu.fin]; exact rnd_not_nan _ _
  have v := (tick_inv hp h.i).2
  have v' := (tick_inv hp h.i').2
  rw [decay_eq h.s] at v ⊢
  rw [decay_eq h.s', h.sl, h.su] at v' ⊢
  by_cases hc : F32.le ((lit 1 - powf (e.t + e.decay) e.slope) * (lit 1 - e.sustain) + e.sustain) e.sustain = true
  · rw [if_pos hc]
    refine ⟨?_, fun hh => by cases hh⟩
    split_ifs with hc'
    · exact le_refl _
    · exact ((le_false nn2 hsu.1).1 hc').le
  · have hc' : ¬ F32.le ((lit 1 - powf (e'.t + e'.decay) e.slope) * (lit 1 - e.sustain) + e.sustain) e.sustain = true := by
      rw [le_false nn1 hsu.1] at hc
      rw [le_false nn2 hsu.1]
      exact lt_of_lt_of_le hc hv
    rw [if_neg hc] at v ⊢
    rw [if_neg hc'] at v' ⊢
    exact ⟨hv, fun _ => ⟨h.s, h.s', v, v', ⟨hadd, h.b.r⟩, rfl, rfl⟩⟩

theorem DecayBehind.many (hp : PowfModerate powf) (hm : PowfMono powf) {e' e : AudioRateADSR} (h : DecayBehind e' e) (n : ℕ)
    (hs : ∀ j ≤ n, (ticks powf j e).1.state = .decay) : DecayBehind (ticks powf n e').1 (ticks powf n e).1 := by
  induction n with
  | zero => exact h
  | succ n ih =>
    have := ih fun j hj => hs j (by omega)
    have e1 := hs (n + 1) (le_refl _)
    rw [ticks_snoc] at e1 ⊢
    rw [ticks_snoc]
    exact (this.step hp hm).2 e1

/-- C169, decay: as long as the shorter decay goes on, so does the longer one, and no sample of it is lower. -/
theorem C169_decay (hp : PowfModerate powf) (hm : PowfMono powf) {e e₁ e₂ : AudioRateADSR} {xs : List F32} {x y : F32}
    (h : ModeratelyReached powf e xs) (hs : e.state = .decay) (hx : AtLeastOneSample x e.sr) (hy : AtLeastOneSample y e.sr)
    (hxy : x.val ≤ y.val) (h1 : e.setDecay x = .ok e₁) (h2 : e.setDecay y = .ok e₂) (n : ℕ)
    (hn : ∀ j ≤ n, (ticks powf j e₁).1.state = .decay) :
    (ticks powf n e₂).1.state = .decay ∧ ((ticks powf n e₁).1.tick powf).2.val ≤ ((ticks powf n e₂).1.tick powf).2.val := by
  have hi := (reached_inv hp h).1
  obtain ⟨r, hr, f⟩ := setTime_moderate hi.sr.1 hi.sr.2 hx
  obtain ⟨r', hr', f'⟩ := setTime_moderate hi.sr.1 hi.sr.2 hy
  have g1 : e₁ = { e with decay := r } := by
    unfold setDecay at h1; rw [hr] at h1; exact (Except.ok.inj h1).symm
  have g2 : e₂ = { e with decay := r' } := by
    unfold setDecay at h2; rw [hr'] at h2; exact (Except.ok.inj h2).symm
  have hb : DecayBehind e₂ e₁ := by
    rw [g1, g2]
    exact ⟨hs, hs, ⟨hi.attack, f, hi.release, hi.sustain, hi.slope, hi.sr, hi.t, hi.t1, hi.env, hi.rel⟩,
      ⟨hi.attack, f', hi.release, hi.sustain, hi.slope, hi.sr, hi.t, hi.t1, hi.env, hi.rel⟩,
      ⟨le_refl _, rate_anti hi.sr.1 hi.sr.2 hx hy hxy hr hr'⟩, rfl, rfl⟩
  have := hb.many hp hm n hn
  exact ⟨this.s', (this.step hp hm).1⟩

/-! ## release -/

structure ReleaseBehind (e' e : AudioRateADSR) : Prop where
  s : e.state = .release
  s' : e'.state = .release
  i : EnvInv e
  i' : EnvInv e'
  b : Behind e'.t e'.release e.t e.release
  sl : e'.slope = e.slope
  rv : e'.releaseVal = e.releaseVal

theorem ReleaseBehind.step (hp : PowfModerate powf) (hm : PowfMono powf) {e' e : AudioRateADSR} (h : ReleaseBehind e' e) :
    (e.tick powf).2.val ≤ (e'.tick powf).2.val ∧
    ((e.tick powf).1.state = .release → ReleaseBehind (e'.tick powf).1 (e.tick powf).1) := by
  obtain ⟨a1, a2, a3, -⟩ := t_add h.i.t h.i.release
  obtain ⟨b1, b2, b3, -⟩ := t_add h.i'.t h.i'.release
  have hsl := h.i.slope
  have hrv := h.i.rel
  have hadd := h.b.add h.i.t.1 h.i'.t.1 h.i.release.1 h.i'.release.1
  have hw := hm _ _ e.slope b2 hadd a3 b1 a1 hsl.2.1 (isFin.not_nan hsl.1)
  have f1 := hp.fin _ _ (isFin.not_nan a1) a2 a3 (isFin.not_nan hsl.1) hsl.2.1.le hsl.2.2
  have f2 := hp.fin _ _ (isFin.not_nan b1) b2 b3 (isFin.not_nan hsl.1) hsl.2.1.le hsl.2.2
  have n1 := hp.nonneg _ _ (isFin.not_nan a1) a2 (isFin.not_nan hsl.1) hsl.2.1.le
  have n2 := hp.nonneg _ _ (isFin.not_nan b1) b2 (isFin.not_nan hsl.1) hsl.2.1.le
  have o1 := (one_sub_val f1 n1).1
  have o2 := (one_sub_val f2 n2).1
  have hv := mul_mono_right o2 o1 hrv.fin hrv.2.1 (one_sub_anti f2 f1 hw)
  have nn1 : ((lit 1 - powf (e.t + e.release) e.slope) * e.releaseVal).isNaN = false := by
    rw [mul_fin o1 hrv.fin]; exact rnd_not_nan _ _
  have nn2 : ((lit 1 - powf (e'.t + e'.release) e.slope) * e.releaseVal).isNaN = false := by
    rw [mul_fin o2 hrv.fin]; exact rnd_not_nan _ _
  have en : epsilon.isNaN = false := by decide +kernel
  have v := (tick_inv hp h.i).2
  have v' := (tick_inv hp h.i').2
  have u' := (tick_inv hp h.i').1
  rw [release_eq h.s] at v ⊢
  rw [release_eq h.s', h.sl, h.rv] at u' v' ⊢
  by_cases hc : F32.le ((lit 1 - powf (e.t + e.release) e.slope) * e.releaseVal) epsilon = true
  · rw [if_pos hc]
    refine ⟨?_, fun hh => by cases hh⟩
    show (lit 0 : F32).val ≤ _
    rw [lit0_val]; exact u'.2.1
  · have hc' : ¬ F32.le ((lit 1 - powf (e'.t + e'.release) e.slope) * e.releaseVal) epsilon = true := by
      rw [le_false nn1 en] at hc
      rw [le_false nn2 en]
      exact lt_of_lt_of_le hc hv
    rw [if_neg hc] at v ⊢
    rw [if_neg hc'] at v' ⊢
    exact ⟨hv, fun _ => ⟨h.s, h.s', v, v', ⟨hadd, h.b.r⟩, rfl, rfl⟩⟩

theorem ReleaseBehind.many (hp : PowfModerate powf) (hm : PowfMono powf) {e' e : AudioRateADSR} (h : ReleaseBehind e' e) (n : ℕ)
    (hs : ∀ j ≤ n, (ticks powf j e).1.state = .release) : ReleaseBehind (ticks powf n e').1 (ticks powf n e).1 := by
  induction n with
  | zero => exact h
  | succ n ih =>
    have := ih fun j hj => hs j (by omega)
    have e1 := hs (n + 1) (le_refl _)
    rw [ticks_snoc] at e1 ⊢
    rw [ticks_snoc]
    exact (this.step hp hm).2 e1

/-- C169, release: as long as the shorter release goes on, so does the longer one, and no sample of it is lower. -/
theorem C169_release (hp : PowfModerate powf) (hm : PowfMono powf) {e e₁ e₂ : AudioRateADSR} {xs : List F32} {x y : F32}
    (h : ModeratelyReached powf e xs) (hs : e.state = .release) (hx : AtLeastOneSample x e.sr) (hy : AtLeastOneSample y e.sr)
    (hxy : x.val ≤ y.val) (h1 : e.setRelease x = .ok e₁) (h2 : e.setRelease y = .ok e₂) (n : ℕ)
    (hn : ∀ j ≤ n, (ticks powf j e₁).1.state = .release) :
    (ticks powf n e₂).1.state = .release ∧ ((ticks powf n e₁).1.tick powf).2.val ≤ ((ticks powf n e₂).1.tick powf).2.val := by
  have hi := (reached_inv hp h).1
  obtain ⟨r, hr, f⟩ := setTime_moderate hi.sr.1 hi.sr.2 hx
  obtain ⟨r', hr', f'⟩ := setTime_moderate hi.sr.1 hi.sr.2 hy
  have g1 : e₁ = { e with release := r } := by
    unfold setRelease at h1; rw [hr] at h1; exact (Except.ok.inj h1).symm
  have g2 : e₂ = { e with release := r' } := by
    unfold setRelease at h2; rw [hr'] at h2; exact (Except.ok.inj h2).symm
  have hb : ReleaseBehind e₂ e₁ := by
    rw [g1, g2]
    exact ⟨hs, hs, ⟨hi.attack, hi.decay, f, hi.sustain, hi.slope, hi.sr, hi.t, hi.t1, hi.env, hi.rel⟩,
      ⟨hi.attack, hi.decay, f', hi.sustain, hi.slope, hi.sr, hi.t, hi.t1, hi.env, hi.rel⟩,
      ⟨le_refl _, rate_anti hi.sr.1 hi.sr.2 hx hy hxy hr hr'⟩, rfl, rfl⟩
  have := hb.many hp hm n hn
  exact ⟨this.s', (this.step hp hm).1⟩

/-- At 8 samples a second: an attack of half a second, and one of a whole second. -/
example : ModeratelyReached (fun t _ => t) smallEnv.triggerOn [] ∧ smallEnv.triggerOn.state = .attack ∧
    AtLeastOneSample (lit (1/2)) smallEnv.triggerOn.sr ∧ AtLeastOneSample (lit 1) smallEnv.triggerOn.sr ∧
    smallEnv.triggerOn.setAttack (lit (1/2)) = .ok smallEnv.triggerOn ∧
    (ticks (fun t _ => t) 4 smallEnv.triggerOn).2 = [lit (1/4), lit (1/2), lit (3/4), lit 1] ∧
    (∀ j ≤ 3, (ticks (fun t _ => t) j smallEnv.triggerOn).1.state = .attack) ∧
    (ticks (fun t _ => t) 4 smallEnv.triggerOn).1.state = .decay ∧
    smallEnv.triggerOn.setAttack (lit 1) = .ok { smallEnv.triggerOn with attack := lit (1/8) } ∧
    (ticks (fun t _ => t) 4 { smallEnv.triggerOn with attack := lit (1/8) }).2 = [lit (1/8), lit (1/4), lit (3/8), lit (1/2)] ∧
    (ticks (fun t _ => t) 4 { smallEnv.triggerOn with attack := lit (1/8) }).1.state = .attack :=
  ⟨smallEnv_reached [.on] ⟨trivial, trivial⟩ rfl, rfl, small_one, ⟨⟨by decide +kernel, by decide +kernel⟩, by decide +kernel⟩,
    by decide +kernel, by decide +kernel, by decide +kernel, by decide +kernel, by decide +kernel, by decide +kernel, by decide +kernel⟩

/-- The release of a full level, over half a second and over a whole one. -/
example :
    (ticks (fun t _ => t) 4 { smallEnv with state := .release, releaseVal := lit 1 }).2 = [lit (3/4), lit (1/2), lit (1/4), lit 0] ∧
    ({ smallEnv with state := .release, releaseVal := lit 1 } : AudioRateADSR).setRelease (lit 1) =
      .ok { smallEnv with state := .release, releaseVal := lit 1, release := lit (1/8) } ∧
    (ticks (fun t _ => t) 4 { smallEnv with state := .release, releaseVal := lit 1, release := lit (1/8) }).2 =
      [lit (7/8), lit (3/4), lit (5/8), lit (1/2)] := by decide +kernel

end Verif
