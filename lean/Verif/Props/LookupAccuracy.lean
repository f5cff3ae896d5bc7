import Verif.Props.SinAccuracy
import Verif.Props.Interpolation
import Mathlib.Analysis.SpecialFunctions.Trigonometric.Inverse

/-! # C94: `lookup_sin` against the real sine -/

namespace Verif
open F32 FMath FixedPoint

/-- The crate's table. -/
def sineLookup : List Int := (List.range 4096).map fun i : Nat => fixedSinSpec ((i : Int) * 15 - 32767) 4

theorem sineLookup_eq : sineTable 4096 = .ok sineLookup := (C64_table (n := 4096) (by norm_num) (by norm_num)).1

theorem sineLookup_length : sineLookup.length = 4096 := by unfold sineLookup; simp

theorem sineLookup_getElem {i : Nat} (hi : i < sineLookup.length) :
    sineLookup[i] = fixedSinSpec ((i : Int) * 15 - 32767) 4 := by
  simp only [sineLookup, List.getElem_map, List.getElem_range]

/-- Table position `f` as a quarter-turn count. -/
noncomputable def tableAngle (f : ℝ) : ℝ := Real.pi / 2 * ((15 * f - 32767) / 32768)

theorem tableAngle_lipschitz (f g : ℝ) : |32768 * Real.sin (tableAngle f) - 32768 * Real.sin (tableAngle g)| ≤ 236 / 10 * |f - g| := by
  rw [← mul_sub, abs_mul, abs_of_pos (a := (32768:ℝ)) (by norm_num)]
  have h := Real.abs_sin_sub_sin_le (tableAngle f) (tableAngle g)
  have e : tableAngle f - tableAngle g = Real.pi / 2 * (15 / 32768) * (f - g) := by unfold tableAngle; ring
  have p0 := Real.pi_pos
  have p2 := Real.pi_lt_d20
  rw [e, abs_mul, abs_of_pos (a := Real.pi / 2 * (15 / 32768)) (by positivity)] at h
  have h0 := abs_nonneg (f - g)
  have : Real.pi / 2 * (15 / 32768) ≤ 236 / 10 / 32768 := by norm_num at p2 ⊢; linarith
  have h2 := h.trans (mul_le_mul_of_nonneg_right this h0)
  linarith

/-- Every entry of the table, against the sine of its position, and of any position within one step of it. -/
theorem sineLookup_entry {i : Nat} (hi : i < sineLookup.length) {f : ℝ} (hf : |(i : ℝ) - f| ≤ 1) :
    |(sineLookup[i] : ℝ) - 32768 * Real.sin (tableAngle f)| ≤ 286 / 10 := by
  have hi' : i < 4096 := lt_of_lt_of_eq hi sineLookup_length
  have he := sineLookup_getElem hi
  obtain ⟨r, hr, hacc⟩ := C59_accurate true (z := (i : Int) * 15 - 32767) (by omega) (by omega)
  have hr' : r = fixedSinSpec ((i : Int) * 15 - 32767) 4 := by
    have := (C58_sin true (z := (i : Int) * 15 - 32767) (by omega) (by omega) 4).1
    rw [hr] at this; injection this
  have ha : Real.pi / 2 * ((((i : Int) * 15 - 32767 : Int) : ℝ) / 32768) = tableAngle i := by
    unfold tableAngle; push_cast; ring
  rw [ha, hr', ← he] at hacc
  have hl := (tableAngle_lipschitz i f).trans (mul_le_mul_of_nonneg_left hf (by norm_num))
  rw [abs_le] at *
  constructor <;> linarith [hacc.1, hacc.2, hl.1, hl.2]

theorem sineLookup_range {i : Nat} (hi : i < sineLookup.length) : -32768 ≤ sineLookup[i] ∧ sineLookup[i] ≤ 32767 := by
  have hi' : i < 4096 := lt_of_lt_of_eq hi sineLookup_length
  have he := sineLookup_getElem hi
  rw [he]
  exact (sinUnchecked_ok (checks := true) (z := (i : Int) * 15 - 32767) (by omega) (by omega) (d := 4) le_rfl).2

/-- A value within 29 of `32768 S`, divided by 32767 in float arithmetic. -/
theorem lookup_divide {v : F32} (vf : v.isFin = true) {S : ℝ} (hS : |S| ≤ 1) (hv : |(v.val : ℝ) - 32768 * S| ≤ 288 / 10) :
    |((v / i16MaxF).val : ℝ) - S| ≤ 95 / 10 ^ 5 := by
  have hvb : |v.val| ≤ 33000 := by
    have : |(v.val : ℝ)| ≤ 33000 := by
      rw [abs_le] at *
      constructor <;> linarith [hS.1, hS.2, hv.1, hv.2]
    exact_mod_cast this
  have hq : |v.val / 32767| ≤ 2 := by
    rw [abs_div, abs_of_pos (a := (32767:ℚ)) (by norm_num), div_le_iff₀ (by norm_num)]; linarith
  have hdiv := div_fin vf i16MaxF_fin (by rw [i16MaxF_val]; norm_num)
  rw [i16MaxF_val] at hdiv
  have E : |(v / i16MaxF).val - v.val / 32767| ≤ 1 / 2 ^ 150 + 2 / 2 ^ 24 := by
    rw [hdiv]
    exact rnd_abs_error (rnd_fin lit2_fin (by rw [lit2_val, abs_of_pos (a := (2:ℚ)) (by norm_num)]; exact hq)) hq
  have E' : |((v / i16MaxF).val : ℝ) - (v.val : ℝ) / 32767| ≤ 1 / 2 ^ 150 + 2 / 2 ^ 24 := by
    have := (Rat.cast_le (K := ℝ)).2 E; push_cast at this; exact this
  have s150 : (1:ℝ) / 2 ^ 150 ≤ 1 / 10 ^ 12 := by norm_num
  generalize (1:ℝ) / 2 ^ 150 = ε at *
  rw [abs_le] at E' hS hv ⊢
  norm_num at *
  constructor <;> linarith [E'.1, E'.2, hS.1, hS.2, hv.1, hv.2]

theorem convex_near {T a b S r : ℝ} (T0 : 0 ≤ T) (T1 : T ≤ 1) (ha : |a - S| ≤ 286 / 10) (hb : |b - S| ≤ 286 / 10)
    (hr : |r - ((1 - T) * a + T * b)| ≤ 1 / 100) : |r - S| ≤ 288 / 10 := by
  rw [abs_le] at *
  obtain ⟨a1, a2⟩ := ha
  obtain ⟨b1, b2⟩ := hb
  have m1 : (1 - T) * a + T * b - S ≤ 286 / 10 := by nlinarith
  have m2 : -(286 / 10) ≤ (1 - T) * a + T * b - S := by nlinarith
  constructor <;> linarith [hr.1, hr.2]

/-- What `lookup_sin` reads: near the table position `4095·|n|/2`. -/
theorem lookup_position {rem : F32 → F32 → F32} (hrem : RemContract rem) (c : Cfg) {x : F32} (hx : x.isFin = true) :
    ∃ (r : F32) (f : ℚ), lookupSin c rem sineLookup x = .ok r ∧
      |f - 4095 * (|(normalizedRads rem x).val| / 2)| ≤ 1 / 1000 ∧
      |(r.val : ℝ) - Real.sin (tableAngle f)| ≤ 95 / 10 ^ 5 := by
  have hw : (2:Nat) ^ 16 ≤ 2 ^ c.w := Nat.pow_le_pow_right (by norm_num) c.w_ge
  have hmax : (2:Nat) ^ 16 - 1 ≤ c.usizeMax := by unfold Cfg.usizeMax; omega
  have hlen := sineLookup_length
  have hsub : c.usub sineLookup.length 1 = .ok 4095 := by rw [c.usub_eq (by omega), hlen]
  have hent : ∀ {i : Nat} (h : i < sineLookup.length), (F32.ofInt sineLookup[i]).isFin = true ∧
      (F32.ofInt sineLookup[i]).val = sineLookup[i] := by
    intro i h
    have hb := sineLookup_range h
    have ha : |sineLookup[i]| ≤ 2 ^ 24 := by rw [abs_le]; constructor <;> norm_num <;> omega
    exact ⟨ofInt_fin ha, ofInt_val ha⟩
  have ok : ∀ {α β : Type} (v : α) (f : α → M β), (Except.ok v >>= f) = f v := fun _ _ => rfl
  unfold lookupSin
  rw [hsub, ok]
  have hnf := c.u2f_fin (n := 4095) (by norm_num)
  have hnv := c.u2f_val (n := 4095) (by norm_num)
  obtain ⟨nf, nb⟩ := normalizedRads_bounds hrem hx
  generalize normalizedRads rem x = n at *
  obtain ⟨q, hq⟩ : ∃ q, q = n.abs / lit 2 := ⟨_, rfl⟩
  have q0 : 0 ≤ |n.val| / 2 := by positivity
  have qle : |(|n.val|) / 2| ≤ 1 := by rw [abs_of_nonneg q0]; linarith
  have eq1 : q = rnd (n.abs.neg != (lit 2 : F32).neg) (|n.val| / 2) := by
    rw [hq, div_fin (by rw [isFin_abs]; exact nf) lit2_fin (by rw [lit2_val]; norm_num), val_abs, lit2_val]
  have qu := rnd_unit (s := n.abs.neg != (lit 2 : F32).neg) qle
  rw [← eq1] at qu
  have qf := qu.1
  have qv0 : 0 ≤ q.val := by rw [eq1]; exact rnd_val_nonneg q0
  have qv1 : q.val ≤ 1 := (le_abs_self _).trans qu.2
  have Eq : |q.val - |n.val| / 2| ≤ 1 / 2 ^ 150 + 1 / 2 ^ 24 := by
    have h := qf; rw [eq1] at h ⊢; exact rnd_abs_error h qle
  rw [← hq]
  obtain ⟨f, hf⟩ : ∃ f, f = c.u2f 4095 * q := ⟨_, rfl⟩
  have ef : f = rnd ((c.u2f 4095).neg != q.neg) (4095 * q.val) := by rw [hf, mul_fin hnf qf, hnv]; norm_num
  have fle : |(4095 : ℚ) * q.val| ≤ 4095 := by
    rw [abs_of_nonneg (by positivity)]; linarith
  have fle' : |(4095 : ℚ) * q.val| ≤ |(c.u2f 4095).val| := by
    rw [hnv]; refine fle.trans (by norm_num)
  have ff : f.isFin = true := by rw [ef]; exact rnd_fin hnf fle'
  have f0 : 0 ≤ f.val := by rw [ef]; exact rnd_val_nonneg (by positivity)
  have f1 : f.val ≤ 4095 := by
    rw [ef]
    have := rnd_abs_le (s := (c.u2f 4095).neg != q.neg) fle'
    rw [hnv] at this
    exact (le_abs_self _).trans (this.trans (by norm_num))
  have Ef : |f.val - 4095 * q.val| ≤ 1 / 2 ^ 150 + 4095 / 2 ^ 24 := by
    have h := ff; rw [ef] at h ⊢; exact rnd_abs_error h fle
  have Etot : |f.val - 4095 * (|n.val| / 2)| ≤ 1 / 1000 := by
    have s150 : (1:ℚ) / 2 ^ 150 ≤ 1 / 10 ^ 12 := by norm_num
    generalize (1:ℚ) / 2 ^ 150 = ε at *
    generalize |n.val| / 2 = w at *
    rw [abs_le] at Eq Ef ⊢
    norm_num at Eq Ef s150 ⊢
    constructor <;> linarith [Eq.1, Eq.2, Ef.1, Ef.2]
  simp only [← hf]
  obtain ⟨i, hi⟩ : ∃ i, i = c.f2u f := ⟨_, rfl⟩
  have hfl0 : 0 ≤ ⌊f.val⌋ := Int.floor_nonneg.2 f0
  have hfln : ⌊f.val⌋ ≤ 4095 := by
    have : (⌊f.val⌋ : ℚ) ≤ 4095 := (Int.floor_le _).trans f1
    exact_mod_cast this
  have hifl : (i : Int) = ⌊f.val⌋ := by
    rw [hi, c.f2u_nonneg (isFin.not_nan ff) f0]
    omega
  have hin : i ≤ 4095 := by omega
  rw [← hi]
  have hir : (i : ℚ) = ⌊f.val⌋ := by rw [← hifl]; simp
  have d0 : 0 ≤ f.val - i := by rw [hir]; linarith [Int.floor_le f.val]
  have d1 : f.val - i ≤ 1 := by rw [hir]; linarith [Int.lt_floor_add_one f.val]
  have D0 : (0:ℝ) ≤ (f.val : ℝ) - i := by exact_mod_cast d0
  have D1 : (f.val : ℝ) - i ≤ 1 := by exact_mod_cast d1
  have hS : |Real.sin (tableAngle (f.val : ℝ))| ≤ 1 := Real.abs_sin_le_one _
  by_cases hie : i = 4095
  · rw [if_neg (by simpa using hie), tableGet_ok (show i < sineLookup.length by omega), ok]
    obtain ⟨vf, vv⟩ := hent (show i < sineLookup.length by omega)
    refine ⟨_, f.val, rfl, Etot, lookup_divide vf hS ?_⟩
    rw [vv]
    have := sineLookup_entry (show i < sineLookup.length by omega) (f := f.val) (by
      rw [abs_le]; constructor <;> linarith)
    push_cast
    exact this.trans (by norm_num)
  · rw [if_pos hie, tableGet_ok (show i < sineLookup.length by omega), ok, c.uadd_eq (by omega), ok,
      tableGet_ok (show i + 1 < sineLookup.length by omega), ok]
    obtain ⟨af, av⟩ := hent (show i < sineLookup.length by omega)
    obtain ⟨bf, bv⟩ := hent (show i + 1 < sineLookup.length by omega)
    have Ea := sineLookup_entry (show i < sineLookup.length by omega) (f := f.val) (by
      rw [abs_le]; constructor <;> linarith)
    have Eb := sineLookup_entry (show i + 1 < sineLookup.length by omega) (f := f.val) (by
      rw [abs_le]; push_cast; constructor <;> linarith)
    have ra := sineLookup_range (show i < sineLookup.length by omega)
    have rb := sineLookup_range (show i + 1 < sineLookup.length by omega)
    have uf := c.u2f_fin (n := i) (by omega)
    have uv := c.u2f_val (n := i) (by omega)
    have dle : |f.val - i| ≤ 1 := by rw [abs_of_nonneg d0]; exact d1
    have et : f - c.u2f i = rnd (f.neg && !(c.u2f i).neg) (f.val - i) := by rw [sub_fin ff uf, uv]
    obtain ⟨t, htd⟩ : ∃ t, t = f - c.u2f i := ⟨_, rfl⟩
    rw [← htd] at et ⊢
    have tu := rnd_unit (s := f.neg && !(c.u2f i).neg) dle
    rw [← et] at tu
    have t0 : 0 ≤ t.val := by rw [et]; exact rnd_val_nonneg d0
    have t1 : t.val ≤ 1 := (le_abs_self _).trans tu.2
    obtain ⟨r, hr, rf, hre⟩ := C49_lerp af bf t0 t1
    have hr2 := (lerp_ok af bf (Or.inr ⟨t0, t1⟩)).symm.trans hr
    injection hr2 with hr2
    refine ⟨_, f.val, rfl, Etot, lookup_divide (by rw [hr2]; exact rf) hS ?_⟩
    rw [hr2]
    have hmx : max |(F32.ofInt sineLookup[i]).val| |(F32.ofInt sineLookup[i + 1]).val| ≤ 32768 := by
      rw [av, bv]
      have h1 : |sineLookup[i]| ≤ 32768 := by rw [abs_le]; omega
      have h2 : |sineLookup[i + 1]| ≤ 32768 := by rw [abs_le]; omega
      refine max_le ?_ ?_
      · exact_mod_cast h1
      · exact_mod_cast h2
    have hre' : |r.val - ((1 - t.val) * sineLookup[i] + t.val * sineLookup[i + 1])| ≤ 1 / 100 := by
      rw [av, bv] at hre hmx
      refine hre.trans ?_
      have : (3:ℚ) / 2 ^ 24 * max |((sineLookup[i] : Int) : ℚ)| |((sineLookup[i + 1] : Int) : ℚ)| ≤ 3 / 2 ^ 24 * 32768 :=
        mul_le_mul_of_nonneg_left hmx (by norm_num)
      refine (add_le_add this le_rfl).trans ?_
      norm_num
    have hreR : |(r.val : ℝ) - ((1 - (t.val : ℝ)) * sineLookup[i] + t.val * sineLookup[i + 1])| ≤ 1 / 100 := by
      have := (Rat.cast_le (K := ℝ)).2 hre'; push_cast at this; exact this
    have T0 : (0:ℝ) ≤ t.val := by exact_mod_cast t0
    have T1 : (t.val : ℝ) ≤ 1 := by exact_mod_cast t1
    exact convex_near T0 T1 Ea Eb hreR

/-! ## C94 -/

/-- The reduced angle against `arcsin (sin x)`. -/
theorem normalizedRads_arcsin {rem : F32 → F32 → F32} (hrem : RemContract rem) {x : F32} (hx : x.isFin = true) :
    |(|((normalizedRads rem x).val : ℝ)| - 1) - 2 / Real.pi * Real.arcsin (Real.sin (x.val : ℝ))| ≤
      3 / 10 ^ 6 + |(x.val : ℝ)| * (42 / 10 ^ 8) := by
  obtain ⟨nf, nb⟩ := normalizedRads_bounds hrem hx
  obtain ⟨k, hk⟩ := normalizedRads_pi hrem hx
  generalize (normalizedRads rem x).val = n at *
  generalize x.val = X at *
  have nb' : |(n : ℝ)| ≤ 2 := by exact_mod_cast nb
  have n0 := abs_nonneg (n : ℝ)
  rw [← sin_reflect (X : ℝ) k]
  obtain ⟨m, hm⟩ : ∃ m : ℝ, m = |2 * (X : ℝ) / Real.pi - 3 - 4 * k| := ⟨_, rfl⟩
  rw [← hm]
  have m0 : 0 ≤ m := by rw [hm]; exact abs_nonneg _
  have hd : |(|(n : ℝ)|) - m| ≤ 1 / 10 ^ 6 + 14 / 10 ^ 8 * |(X : ℝ)| := by
    rw [hm]; exact (abs_abs_sub_abs_le _ _).trans hk
  have X0 := abs_nonneg (X : ℝ)
  have p0 := Real.pi_pos
  have key : ∀ u : ℝ, -1 ≤ u → u ≤ 1 → 2 / Real.pi * Real.arcsin (Real.sin (Real.pi / 2 * u)) = u := by
    intro u h1 h2
    rw [Real.arcsin_sin (by nlinarith) (by nlinarith)]
    field_simp
  rcases le_or_gt m 2 with h | h
  · rw [key (m - 1) (by linarith) (by linarith)]
    rw [sub_sub_sub_cancel_right]
    refine hd.trans ?_
    linarith
  · rcases le_or_gt m 4 with h4 | h4
    · have e : Real.sin (Real.pi / 2 * (m - 1)) = Real.sin (Real.pi / 2 * (3 - m)) := by
        rw [show Real.pi / 2 * (m - 1) = Real.pi - Real.pi / 2 * (3 - m) by ring, Real.sin_pi_sub]
      rw [e, key (3 - m) (by linarith) (by linarith)]
      rw [abs_le] at hd ⊢
      constructor <;> linarith [hd.1, hd.2]
    · have h1 := Real.neg_pi_div_two_le_arcsin (Real.sin (Real.pi / 2 * (m - 1)))
      have h2 := Real.arcsin_le_pi_div_two (Real.sin (Real.pi / 2 * (m - 1)))
      generalize Real.arcsin (Real.sin (Real.pi / 2 * (m - 1))) = θ at *
      have h3 : |2 / Real.pi * θ| ≤ 1 := by
        rw [abs_le]
        have e : 2 / Real.pi * θ = θ / (Real.pi / 2) := by field_simp
        rw [e]
        constructor
        · rw [le_div_iff₀ (by positivity)]; linarith
        · rw [div_le_iff₀ (by positivity)]; linarith
      rw [abs_le] at hd h3 ⊢
      constructor <;> linarith [hd.1, hd.2, h3.1, h3.2]

/-- C94 in full: `lookup_sin` is within 0.001 of the sine (plus the usual loss for huge arguments). -/
def LookupSinAccurate : Prop :=
  ∀ (rem : F32 → F32 → F32), RemContract rem → ∀ (c : Cfg) (x : F32), x.isFin = true →
    ∃ table r, sineTable 4096 = .ok table ∧ lookupSin c rem table x = .ok r ∧
      |(r.val : ℝ) - Real.sin (x.val : ℝ)| ≤ 1 / 10 ^ 3 + |(x.val : ℝ)| / 10 ^ 6

/-- C94, what the code computes: the table ends at phase 28658 instead of 32767, so with `θ = arcsin (sin x)` the
result is `sin (0.937·θ - 0.0985)` (to within 0.001), not `sin θ`. -/
theorem C94_actual {rem : F32 → F32 → F32} (hrem : RemContract rem) (c : Cfg) {x : F32} (hx : x.isFin = true) :
    ∃ table r, sineTable 4096 = .ok table ∧ lookupSin c rem table x = .ok r ∧
      |(r.val : ℝ) - Real.sin ((61425 * Real.arcsin (Real.sin (x.val : ℝ)) - 4109 / 2 * Real.pi) / 65536)| ≤
        1 / 10 ^ 3 + |(x.val : ℝ)| / 10 ^ 6 := by
  obtain ⟨r, f, hr, hf, hacc⟩ := lookup_position hrem c hx
  have ha := normalizedRads_arcsin hrem hx
  refine ⟨_, r, sineLookup_eq, hr, ?_⟩
  generalize (normalizedRads rem x).val = n at *
  generalize x.val = X at *
  have hf' : |(f : ℝ) - 4095 * (|(n : ℝ)| / 2)| ≤ 1 / 1000 := by
    have := (Rat.cast_le (K := ℝ)).2 hf; push_cast at this; exact this
  obtain ⟨θ, hθ⟩ : ∃ θ, θ = Real.arcsin (Real.sin (X : ℝ)) := ⟨_, rfl⟩
  rw [← hθ] at ha ⊢
  have hs := Real.abs_sin_sub_sin_le (tableAngle f) ((61425 * θ - 4109 / 2 * Real.pi) / 65536)
  have p0 := Real.pi_pos
  have p2 := Real.pi_lt_d20
  have e : tableAngle f - (61425 * θ - 4109 / 2 * Real.pi) / 65536 =
      Real.pi / 65536 * (15 * (f - 4095 * (|(n : ℝ)| / 2)) + 61425 / 2 * ((|(n : ℝ)| - 1) - 2 / Real.pi * θ)) := by
    unfold tableAngle; field_simp; ring
  have X0 := abs_nonneg (X : ℝ)
  have hb : |15 * (f - 4095 * (|(n : ℝ)| / 2)) + 61425 / 2 * ((|(n : ℝ)| - 1) - 2 / Real.pi * θ)| ≤
      2 / 10 + |(X : ℝ)| * (13 / 1000) := by
    rw [abs_le] at hf' ha ⊢
    constructor <;> linarith [hf'.1, hf'.2, ha.1, ha.2]
  rw [e, abs_mul, abs_of_pos (a := Real.pi / 65536) (by positivity)] at hs
  have hs2 := hs.trans (mul_le_mul (show Real.pi / 65536 ≤ 48 / 10 ^ 6 by norm_num at p2 ⊢; linarith) hb (abs_nonneg _) (by norm_num))
  generalize Real.sin (tableAngle f) = S1 at *
  generalize Real.sin ((61425 * θ - 4109 / 2 * Real.pi) / 65536) = S2 at *
  rw [abs_le] at hacc hs2 ⊢
  constructor <;> linarith [hacc.1, hacc.2, hs2.1, hs2.2]

/-- C94 as far as it holds: the error stays below one fifth. -/
theorem C94_partial {rem : F32 → F32 → F32} (hrem : RemContract rem) (c : Cfg) {x : F32} (hx : x.isFin = true) :
    ∃ table r, sineTable 4096 = .ok table ∧ lookupSin c rem table x = .ok r ∧
      |(r.val : ℝ) - Real.sin (x.val : ℝ)| ≤ 1 / 5 + |(x.val : ℝ)| / 10 ^ 6 := by
  obtain ⟨table, r, h1, h2, h3⟩ := C94_actual hrem c hx
  refine ⟨table, r, h1, h2, ?_⟩
  have b1 := Real.neg_pi_div_two_le_arcsin (Real.sin (x.val : ℝ))
  have b2 := Real.arcsin_le_pi_div_two (Real.sin (x.val : ℝ))
  have e := Real.sin_arcsin (Real.neg_one_le_sin (x.val : ℝ)) (Real.sin_le_one _)
  generalize Real.arcsin (Real.sin (x.val : ℝ)) = θ at *
  have hs := Real.abs_sin_sub_sin_le ((61425 * θ - 4109 / 2 * Real.pi) / 65536) θ
  rw [e] at hs
  have p0 := Real.pi_pos
  have p2 := Real.pi_lt_d20
  have hb : |(61425 * θ - 4109 / 2 * Real.pi) / 65536 - θ| ≤ 198 / 1000 := by
    rw [abs_le]; norm_num at p2 ⊢; constructor <;> linarith
  have hs2 := hs.trans hb
  rw [abs_le] at h3 hs2 ⊢
  constructor <;> linarith [h3.1, h3.2, hs2.1, hs2.2]

/-- C94 is false: `lookup_sin(0)` is about -0.098. -/
theorem C94_refuted : ¬ LookupSinAccurate := by
  intro h
  obtain ⟨table, r, h1, h2, h3⟩ := h mmRem mmRem_contract Cfg.debug64 (lit 0) lit0_fin
  rw [sineLookup_eq] at h1
  injection h1 with h1
  have e : (lookupSin Cfg.debug64 mmRem sineLookup (lit 0)).toOption.map (fun r => decide (r.val ≤ -9 / 100)) = some true := by
    decide +kernel
  rw [h1, h2] at e
  have e2 : r.val ≤ -9 / 100 := by simpa [Except.toOption] using e
  have e3 : (r.val : ℝ) ≤ -9 / 100 := by exact_mod_cast e2
  rw [lit0_val, Rat.cast_zero, Real.sin_zero, abs_zero, sub_zero] at h3
  have := (abs_le.1 h3).1
  linarith

end Verif
