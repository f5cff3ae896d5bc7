import Verif.Lemmas.SinReduce
import Verif.Props.Oscillators

/-! # C92, C93, C95: the float sines against the real sine -/

namespace Verif
open F32 FMath FixedPoint

/-! ## C92 -/

/-- Truncation moves a number by less than one. -/
theorem truncInt_near (x : F32) : |(x.truncInt : ℚ) - x.val| ≤ 1 := by
  rw [abs_le]
  rcases lt_or_ge x.val 0 with h | h
  · rw [truncInt_neg h]
    constructor <;> linarith [Int.le_ceil x.val, Int.ceil_lt_add_one x.val]
  · rw [truncInt_nonneg h]
    constructor <;> linarith [Int.floor_le x.val, Int.lt_floor_add_one x.val]

/-- The `i16` phase handed to the fixed-point routine is within two units of the quadrant position. -/
theorem fixedSin_phase {n : F32} (hn : n.isFin = true) (hb : |n.val| ≤ 2) :
    |((F32.toIntSat (-32768) 32767 (i16MaxF * (n.abs - lit 1)) : Int) : ℚ) / 32768 - (|n.val| - 1)| ≤ 62 / 10 ^ 6 := by
  have af : n.abs.isFin = true := by rw [isFin_abs]; exact hn
  have av : n.abs.val = |n.val| := by rw [val_abs]
  have n0 := abs_nonneg n.val
  have hq : |n.abs.val - (lit 1 : F32).val| ≤ 1 := by rw [av, lit1_val, abs_le]; constructor <;> linarith
  obtain ⟨qf, qb⟩ : (n.abs - lit 1).isFin = true ∧ |(n.abs - lit 1).val| ≤ 1 := by
    rw [sub_fin af lit1_fin]; exact rnd_unit hq
  have E1 : |(n.abs - lit 1).val - (|n.val| - 1)| ≤ 1 / 2 ^ 150 + 1 / 2 ^ 24 := by
    have h := qf
    rw [sub_fin af lit1_fin] at h ⊢
    have := rnd_abs_error h hq
    rw [av, lit1_val] at this ⊢
    exact this
  generalize n.abs - lit 1 = q at *
  have hm : |i16MaxF.val * q.val| ≤ |i16MaxF.val| := by
    rw [abs_mul]; exact mul_le_of_le_one_right (abs_nonneg _) qb
  have mf : (i16MaxF * q).isFin = true := by rw [mul_fin i16MaxF_fin qf]; exact rnd_fin i16MaxF_fin hm
  have mb : |(i16MaxF * q).val| ≤ 32767 := by
    have := rnd_abs_le (s := i16MaxF.neg != q.neg) hm
    rw [mul_fin i16MaxF_fin qf]
    rw [i16MaxF_val, abs_of_pos (a := (32767:ℚ)) (by norm_num)] at this
    rw [i16MaxF_val]; exact this
  have E2 : |(i16MaxF * q).val - 32767 * q.val| ≤ 1 / 2 ^ 150 + 32767 / 2 ^ 24 := by
    have h := mf
    rw [mul_fin i16MaxF_fin qf] at h ⊢
    rw [i16MaxF_val, abs_of_pos (a := (32767:ℚ)) (by norm_num)] at hm
    rw [i16MaxF_val] at h ⊢
    exact rnd_abs_error h hm
  have E3 := truncInt_near (i16MaxF * q)
  generalize hmm : i16MaxF * q = m at *
  have hz : toIntSat (-32768) 32767 m = m.truncInt := by
    unfold toIntSat
    rw [isFin.not_nan mf]
    have h1 : ((-32768 : Int) : ℚ) ≤ m.truncInt := by push_cast; linarith [(abs_le.1 E3).1, (abs_le.1 mb).1]
    have h2 : m.truncInt ≤ 32767 := by
      rcases lt_or_ge m.val 0 with h | h
      · rw [truncInt_neg h]
        have : ⌈m.val⌉ ≤ 0 := Int.ceil_le.2 (by push_cast; exact h.le)
        omega
      · rw [truncInt_nonneg h]
        have : (⌊m.val⌋ : ℚ) ≤ 32767 := (Int.floor_le _).trans (abs_le.1 mb).2
        exact_mod_cast this
    have h1' : -32768 ≤ m.truncInt := by exact_mod_cast h1
    simp only [Bool.false_eq_true, if_false]
    omega
  rw [hz]
  generalize (m.truncInt : ℚ) = z at *
  generalize m.val = M at *
  generalize |n.val| - 1 = u at *
  have s150 : (1:ℚ) / 2 ^ 150 ≤ 1 / 10 ^ 12 := by norm_num
  generalize (1:ℚ) / 2 ^ 150 = ε at *
  rw [abs_le] at *
  generalize q.val = Q at *
  norm_num at *
  constructor <;> linarith [E1.1, E1.2, E2.1, E2.2, E3.1, E3.2, qb.1, qb.2]

/-- C92: `fixed_point_sin` is within `0.0003 + |x|/4000000` of the real sine, for every finite `x` and every
`rem_euclid` meeting its contract. -/
theorem C92_sin {rem : F32 → F32 → F32} (hrem : RemContract rem) (checks : Bool) {x : F32} (hx : x.isFin = true) :
    ∃ r, fixedPointSin checks rem x = .ok r ∧
      |(r.val : ℝ) - Real.sin (x.val : ℝ)| ≤ 3 / 10 ^ 4 + |(x.val : ℝ)| / (4 * 10 ^ 6) := by
  obtain ⟨nf, nb⟩ := normalizedRads_bounds hrem hx
  have hph := fixedSin_phase nf nb
  have hred := normalizedRads_sin hrem hx
  obtain ⟨z, hz⟩ : ∃ z, z = F32.toIntSat (-32768) 32767 (i16MaxF * ((normalizedRads rem x).abs - lit 1)) := ⟨_, rfl⟩
  have hm := toIntSat_mem (lo := -32768) (hi := 32767) (i16MaxF * ((normalizedRads rem x).abs - lit 1)) (by norm_num) (by norm_num)
  rw [← hz] at hm hph
  obtain ⟨he, h1, h2⟩ := sinUnchecked_ok (checks := checks) hm.1 hm.2 (d := 4) le_rfl
  obtain ⟨r', hr', hacc⟩ := C59_accurate checks hm.1 hm.2
  have hr'' : r' = fixedSinSpec z 4 := by
    have := (C58_sin checks hm.1 hm.2 4).1
    rw [hr'] at this
    injection this
  have hab : |fixedSinSpec z 4| ≤ 2 ^ 24 := by rw [abs_le]; constructor <;> norm_num <;> linarith
  have hv := ofInt_val hab
  have hf := ofInt_fin hab
  refine ⟨F32.ofInt (fixedSinSpec z 4) / i16MaxF, ?_, ?_⟩
  · unfold fixedPointSin
    simp only [← hz, he, bind, Except.bind, pure, Except.pure]
  rw [← hr''] at hv hf h1 h2 ⊢
  have hdiv := div_fin hf i16MaxF_fin (by rw [i16MaxF_val]; norm_num)
  rw [i16MaxF_val, hv] at hdiv
  have hqb : |(r' : ℚ) / 32767| ≤ 2 := by
    have a1 : (-32768 : ℚ) ≤ r' := by exact_mod_cast h1
    have a2 : (r' : ℚ) ≤ 32767 := by exact_mod_cast h2
    rw [abs_le]; constructor
    · rw [le_div_iff₀ (by norm_num)]; linarith
    · rw [div_le_iff₀ (by norm_num)]; linarith
  have Ed : |(F32.ofInt r' / i16MaxF).val - (r' : ℚ) / 32767| ≤ 1 / 2 ^ 150 + 2 / 2 ^ 24 := by
    rw [hdiv]
    exact rnd_abs_error (rnd_fin lit2_fin (by rw [lit2_val, abs_of_pos (a := (2:ℚ)) (by norm_num)]; exact hqb)) hqb
  generalize (F32.ofInt r' / i16MaxF).val = R at *
  generalize (normalizedRads rem x).val = n at *
  generalize x.val = X at *
  have Ed' : |(R : ℝ) - (r' : ℝ) / 32767| ≤ 1 / 2 ^ 150 + 2 / 2 ^ 24 := by
    have := (Rat.cast_le (K := ℝ)).2 Ed; push_cast at this; exact this
  have hph' : |(z : ℝ) / 32768 - (|(n : ℝ)| - 1)| ≤ 62 / 10 ^ 6 := by
    have := (Rat.cast_le (K := ℝ)).2 hph; push_cast at this; exact this
  have hs : |Real.sin (Real.pi / 2 * (z / 32768)) - Real.sin (Real.pi / 2 * (|(n : ℝ)| - 1))| ≤ 98 / 10 ^ 6 := by
    refine (Real.abs_sin_sub_sin_le _ _).trans ?_
    have p0 := Real.pi_pos
    have p2 := Real.pi_lt_d20
    rw [← mul_sub, abs_mul, abs_of_pos (a := Real.pi / 2) (by linarith)]
    have hp : Real.pi / 2 ≤ 1.5708 := by norm_num at p2 ⊢; linarith
    refine (mul_le_mul hp hph' (abs_nonneg _) (by norm_num)).trans (by norm_num)
  have S1 := Real.sin_le_one (Real.pi / 2 * (z / 32768))
  have S2 := Real.neg_one_le_sin (Real.pi / 2 * (z / 32768))
  generalize Real.sin (Real.pi / 2 * (z / 32768)) = Sz at *
  generalize Real.sin (Real.pi / 2 * (|(n : ℝ)| - 1)) = Sn at *
  generalize Real.sin (X : ℝ) = S at *
  have s150 : (1:ℝ) / 2 ^ 150 ≤ 1 / 10 ^ 12 := by norm_num
  generalize (1:ℝ) / 2 ^ 150 = ε at *
  generalize |(X : ℝ)| / (4 * 10 ^ 6) = w at *
  rw [abs_le] at Ed' hs hacc hred ⊢
  generalize (r' : ℝ) = ρ at *
  generalize (R : ℝ) = R' at *
  clear hph hph' hdiv Ed
  norm_num at *
  obtain ⟨a1, a2⟩ := Ed'; obtain ⟨a3, a4⟩ := hs; obtain ⟨a5, a6⟩ := hacc; obtain ⟨a7, a8⟩ := hred
  constructor <;> linarith

/-- one radian, with micromath's `rem_euclid` -/
example : (fixedPointSin true mmRem (lit 1)).toOption.map (fun r => decide (|r.val - 84147 / 100000| ≤ 3 / 10 ^ 4)) = some true := by
  decide +kernel

/-! ## C93 -/

theorem fracPi2_val : (lit fracPi2Q : F32).val = 13176795 / 2 ^ 23 := by decide +kernel
theorem fracPi2_fin : (lit fracPi2Q : F32).isFin = true := by decide +kernel

/-- C93: `fixed_point_cos` is within `0.0004 + |x|/2000000` of the real cosine, for every finite `x`. -/
theorem C93_cos {rem : F32 → F32 → F32} (hrem : RemContract rem) (checks : Bool) {x : F32} (hx : x.isFin = true) :
    ∃ r, fixedPointCos checks rem x = .ok r ∧
      |(r.val : ℝ) - Real.cos (x.val : ℝ)| ≤ 4 / 10 ^ 4 + |(x.val : ℝ)| / (2 * 10 ^ 6) := by
  have hb : |(lit fracPi2Q : F32).val - x.val| ≤ |x.val| + 2 := by
    refine (abs_sub _ _).trans ?_
    rw [fracPi2_val, abs_of_pos (by norm_num)]
    norm_num; linarith
  have af : (lit fracPi2Q - x : F32).isFin = true := by
    rw [sub_fin fracPi2_fin hx]
    refine rnd_fin_of_lt (lt_of_le_of_lt hb ?_)
    have := fin_le_max hx
    have h4 : ((2:ℚ) ^ 24 - 1) * 2 ^ 104 + 2 < 2 ^ 128 - 2 ^ 103 := by norm_num
    linarith
  have E : |(lit fracPi2Q - x : F32).val - (13176795 / 2 ^ 23 - x.val)| ≤ 1 / 2 ^ 150 + (|x.val| + 2) / 2 ^ 24 := by
    have h := af
    rw [sub_fin fracPi2_fin hx] at h ⊢
    have := rnd_abs_error h hb
    rw [fracPi2_val] at this ⊢
    exact this
  obtain ⟨r, hr, hacc⟩ := C92_sin hrem checks af
  refine ⟨r, hr, ?_⟩
  generalize (lit fracPi2Q - x : F32).val = a at *
  generalize x.val = X at *
  have E' : |(a : ℝ) - (13176795 / 2 ^ 23 - X)| ≤ 1 / 2 ^ 150 + (|(X : ℝ)| + 2) / 2 ^ 24 := by
    have := (Rat.cast_le (K := ℝ)).2 E; push_cast at this; exact this
  rw [← Real.sin_pi_div_two_sub]
  have hs := Real.abs_sin_sub_sin_le (a : ℝ) (Real.pi / 2 - X)
  have p1 := Real.pi_gt_d20
  have p2 := Real.pi_lt_d20
  have hd : |(a : ℝ) - (Real.pi / 2 - X)| ≤ 3 / 10 ^ 7 + |(X : ℝ)| * (6 / 10 ^ 8) := by
    have : (|(X : ℝ)| + 2) / 2 ^ 24 = |(X : ℝ)| * (1 / 2 ^ 24) + 2 / 2 ^ 24 := by ring
    rw [this] at E'
    have s150 : (1:ℝ) / 2 ^ 150 ≤ 1 / 10 ^ 12 := by norm_num
    generalize (1:ℝ) / 2 ^ 150 = ε at *
    have h0 := abs_nonneg (X : ℝ)
    rw [abs_le] at E' ⊢
    norm_num at *
    constructor <;> linarith [E'.1, E'.2]
  have ha : |(a : ℝ)| ≤ 2 + 101 / 100 * |(X : ℝ)| := by
    have h0 := abs_nonneg (X : ℝ)
    have h1 := neg_abs_le (X : ℝ)
    have h2 := le_abs_self (X : ℝ)
    rw [abs_le] at hd ⊢
    norm_num at *
    constructor <;> linarith [hd.1, hd.2]
  have hs2 := hs.trans hd
  generalize Real.sin (a : ℝ) = Sa at *
  generalize Real.sin (Real.pi / 2 - X) = S at *
  have h0 := abs_nonneg (X : ℝ)
  rw [abs_le] at hacc hs2 ⊢
  have hw : |(a : ℝ)| / (4 * 10 ^ 6) ≤ (2 + 101 / 100 * |(X : ℝ)|) / (4 * 10 ^ 6) :=
    div_le_div_of_nonneg_right ha (by norm_num)
  constructor <;> linarith [hacc.1, hacc.2, hs2.1, hs2.2]

example : (fixedPointCos true mmRem (lit 1)).toOption.map (fun r => decide (|r.val - 54030 / 100000| ≤ 4 / 10 ^ 4)) = some true := by
  decide +kernel

/-! ## C95 -/

theorem tau_val : (lit tauQ : F32).val = 13176795 / 2 ^ 21 := by decide +kernel
theorem tau_fin : (lit tauQ : F32).isFin = true := by decide +kernel

/-- The argument of the sine oscillator: a phase of [0,1] spread over a full turn. -/
theorem sine_argument {p : F32} (h : IsPhase p) :
    (Interpolation.lerpUnchecked (lit 0) (lit tauQ) p : F32).isFin = true ∧
    |(Interpolation.lerpUnchecked (lit 0) (lit tauQ) p : F32).val - 13176795 / 2 ^ 21 * p.val| ≤ 4 / 10 ^ 7 := by
  obtain ⟨pf, p0, p1⟩ := h
  have d1 : |(lit 1 : F32).val - p.val| ≤ 1 := by rw [lit1_val, abs_le]; constructor <;> linarith
  obtain ⟨sf, -⟩ : (lit 1 - p : F32).isFin = true ∧ |(lit 1 - p : F32).val| ≤ 1 := by
    rw [sub_fin lit1_fin pf]; exact rnd_unit d1
  have z : ((lit 0 : F32) * (lit 1 - p)).isFin = true ∧ ((lit 0 : F32) * (lit 1 - p)).val = 0 := by
    have := mul_exact lit0_fin sf (by rw [lit0_val, zero_mul]; exact rep_zero)
    rwa [lit0_val, zero_mul] at this
  have hb : |(lit tauQ : F32).val * p.val| ≤ |(lit tauQ : F32).val| := by
    rw [abs_mul]; exact mul_le_of_le_one_right (abs_nonneg _) (by rw [abs_of_nonneg p0]; exact p1)
  have mf : ((lit tauQ : F32) * p).isFin = true := by rw [mul_fin tau_fin pf]; exact rnd_fin tau_fin hb
  have hm : |((lit tauQ : F32) * p).val - 13176795 / 2 ^ 21 * p.val| ≤ 4 / 10 ^ 7 := by
    have h := mf
    have hb' : |(lit tauQ : F32).val * p.val| ≤ 63 / 10 := by
      refine hb.trans ?_
      rw [tau_val, abs_of_pos (by norm_num)]; norm_num
    rw [mul_fin tau_fin pf] at h ⊢
    have := rnd_abs_error h hb'
    rw [tau_val] at this ⊢
    refine this.trans (by norm_num)
  unfold Interpolation.lerpUnchecked
  have he := add_exact z.1 mf (by rw [z.2, zero_add]; exact rep_val mf)
  rw [z.2, zero_add] at he
  exact ⟨he.1, by rw [he.2]; exact hm⟩

/-- C95: the sine oscillator never fails from any state; it advances the accumulator by one step, keeps the rest, and
its output is within 0.0004 of `sin(2π·phase/2^32)`, phase being the 32-bit phase the accumulator reports. -/
theorem C95_sine_oscillator {rem : F32 → F32 → F32} (hrem : RemContract rem) (checks : Bool) (floor : F32 → F32)
    (o : FunctionalOscillator SoftPhaseAccumulator) (hw : o.wave = .sine) :
    ∃ x, o.next checks floor rem = .ok ({ o with acc := o.acc.nextValue.1 }, x) ∧ x.isFin = true ∧
      -(32768 / 32767) ≤ x.val ∧ x.val ≤ 1 ∧
      |(x.val : ℝ) - Real.sin (2 * Real.pi * ((o.acc.nextValue.2 : ℝ) / 2 ^ 32))| ≤ 4 / 10 ^ 4 := by
  have hp := phase_isPhase o.acc
  have herr := phase_err o.acc
  obtain ⟨af, aerr⟩ := sine_argument hp
  obtain ⟨r, hr, hacc⟩ := C92_sin hrem checks af
  obtain ⟨r', z, hr', hf, hlo, hhi, -⟩ := C60_range_partial checks rem
    (Interpolation.lerpUnchecked (lit 0) (lit tauQ) o.acc.nextValueNormalized.2)
  rw [hr] at hr'
  injection hr' with hr'
  subst hr'
  refine ⟨r, ?_, hf, hlo, hhi, ?_⟩
  · unfold FunctionalOscillator.next
    have hs : FunctionalOscillator.sineOf checks rem o.acc.nextValueNormalized.2 = .ok r := hr
    have hs' : FunctionalOscillator.sineOf checks rem (PhaseAccumulator.nextValueNormalized o.acc).2 = .ok r := hs
    simp only [hw, hs', bind, Except.bind, pure, Except.pure]
    rfl
  generalize (Interpolation.lerpUnchecked (lit 0) (lit tauQ) o.acc.nextValueNormalized.2 : F32).val = a at *
  obtain ⟨-, p0, p1⟩ := hp
  generalize o.acc.nextValueNormalized.2.val = p at *
  generalize o.acc.nextValue.2 = k at *
  have A : |(a : ℝ) - 13176795 / 2 ^ 21 * p| ≤ 4 / 10 ^ 7 := by
    have := (Rat.cast_le (K := ℝ)).2 aerr; push_cast at this; exact this
  have B : |(p : ℝ) - (k : ℝ) / 2 ^ 32| ≤ 1 / 2 ^ 24 := by
    have := (Rat.cast_le (K := ℝ)).2 herr; push_cast at this; exact this
  have P0 : (0:ℝ) ≤ p := by exact_mod_cast p0
  have P1 : (p:ℝ) ≤ 1 := by exact_mod_cast p1
  have p1 := Real.pi_gt_d20
  have p2 := Real.pi_lt_d20
  generalize (k : ℝ) / 2 ^ 32 = κ at *
  have hd : |(a : ℝ) - 2 * Real.pi * κ| ≤ 2 / 10 ^ 6 := by
    have e : (a : ℝ) - 2 * Real.pi * κ = ((a : ℝ) - 13176795 / 2 ^ 21 * p) + (13176795 / 2 ^ 21 - 2 * Real.pi) * p + 2 * Real.pi * (p - κ) := by ring
    have h1 : |(13176795 / 2 ^ 21 - 2 * Real.pi) * (p : ℝ)| ≤ 2 / 10 ^ 7 := by
      rw [abs_mul, abs_of_nonneg P0]
      have : |(13176795 / 2 ^ 21 - 2 * Real.pi : ℝ)| ≤ 2 / 10 ^ 7 := by
        rw [abs_le]; norm_num at *; constructor <;> linarith
      calc _ ≤ 2 / 10 ^ 7 * (1:ℝ) := mul_le_mul this P1 P0 (by norm_num)
        _ = _ := by ring
    have h2 : |2 * Real.pi * ((p : ℝ) - κ)| ≤ 4 / 10 ^ 7 := by
      rw [abs_mul, abs_of_pos (a := 2 * Real.pi) (by linarith)]
      calc _ ≤ 6.2832 * (1 / 2 ^ 24 : ℝ) := mul_le_mul (by norm_num at *; linarith) B (abs_nonneg _) (by norm_num)
        _ ≤ _ := by norm_num
    rw [e]
    refine (abs_add_le _ _).trans ((add_le_add (abs_add_le _ _) le_rfl).trans ?_)
    norm_num at *; linarith
  have ha : |(a : ℝ)| ≤ 7 := by
    rw [abs_le] at A ⊢
    norm_num at A ⊢
    constructor <;> linarith [A.1, A.2]
  have hs := (Real.abs_sin_sub_sin_le (a : ℝ) (2 * Real.pi * κ)).trans hd
  generalize Real.sin (a : ℝ) = Sa at *
  generalize Real.sin (2 * Real.pi * κ) = S at *
  have hw : |(a : ℝ)| / (4 * 10 ^ 6) ≤ 7 / (4 * 10 ^ 6) := div_le_div_of_nonneg_right ha (by norm_num)
  rw [abs_le] at hacc hs ⊢
  constructor <;> linarith [hacc.1, hacc.2, hs.1, hs.2]

/-- a quarter of the way round -/
example : (FunctionalOscillator.next true stdFloor mmRem (FunctionalOscillator.new
    ({ counter := 2 ^ 30, freq := lit 0, shift := 0, minStep := lit 0 } : SoftPhaseAccumulator))).toOption.map (·.2.val) = some (32767 / 32768) := by
  decide +kernel

end Verif
