import Verif.Model.Math
import Verif.F32.Extra
import Verif.Lemmas.Lerp
import Verif.Spec.External
import Verif.Props.FixedSin

/-! # C60, C61, C64: the sine in `f32`, through the fixed-point routine and through the table -/

namespace Verif
open F32 FMath FixedPoint

theorem pi_val : (lit piQ : F32).val = 13176795 / 2 ^ 22 := by decide +kernel
theorem pi_fin : (lit piQ : F32).isFin = true := by decide +kernel
theorem fracPi4_val : (lit fracPi4Q : F32).val = 13176795 / 2 ^ 24 := by decide +kernel
theorem fracPi4_fin : (lit fracPi4Q : F32).isFin = true := by decide +kernel
theorem i16MaxF_val : i16MaxF.val = 32767 := by decide +kernel
theorem i16MaxF_fin : i16MaxF.isFin = true := by decide +kernel

/-! ## C60 -/

/-- C60: whatever `rem_euclid` returns and whatever the argument is (NaN and infinities included), the result is a
number between `-32768/32767` and 1, and it is the fixed-point sine of a phase of `-32768..=32767` over 32767. -/
theorem C60_range_partial (checks : Bool) (rem : F32 → F32 → F32) (x : F32) :
    ∃ (r : F32) (z : Int), fixedPointSin checks rem x = .ok r ∧ r.isFin = true ∧ -(32768 / 32767) ≤ r.val ∧ r.val ≤ 1 ∧
      -32768 ≤ z ∧ z ≤ 32767 ∧ |r.val - (fixedSinSpec z 4 : ℚ) / 32767| ≤ 1 / 2 ^ 23 := by
  obtain ⟨z, hz⟩ : ∃ z, z = F32.toIntSat (-32768) 32767 (i16MaxF * ((normalizedRads rem x).abs - lit 1)) := ⟨_, rfl⟩
  have hm := toIntSat_mem (lo := -32768) (hi := 32767) (i16MaxF * ((normalizedRads rem x).abs - lit 1)) (by norm_num) (by norm_num)
  rw [← hz] at hm
  obtain ⟨he, h1, h2⟩ := sinUnchecked_ok (checks := checks) hm.1 hm.2 (d := 4) le_rfl
  have hab : |fixedSinSpec z 4| ≤ 2 ^ 24 := by rw [abs_le]; constructor <;> norm_num <;> linarith
  have hv := ofInt_val hab
  have hf := ofInt_fin hab
  refine ⟨F32.ofInt (fixedSinSpec z 4) / i16MaxF, z, ?_, ?_⟩
  · unfold fixedPointSin
    simp only [← hz, he, bind, Except.bind, pure, Except.pure]
  rw [div_fin hf i16MaxF_fin (by rw [i16MaxF_val]; norm_num), i16MaxF_val, hv]
  have h1q : (-32768 : ℚ) ≤ fixedSinSpec z 4 := by exact_mod_cast h1
  have h2q : (fixedSinSpec z 4 : ℚ) ≤ 32767 := by exact_mod_cast h2
  have hq1 : -(32768 / 32767) ≤ (fixedSinSpec z 4 : ℚ) / 32767 := by rw [le_div_iff₀ (by norm_num)]; linarith
  have hq2 : (fixedSinSpec z 4 : ℚ) / 32767 ≤ 1 := by rw [div_le_one (by norm_num)]; exact h2q
  have hfin : ∀ s, (rnd s ((fixedSinSpec z 4 : ℚ) / 32767)).isFin = true := fun s => by
    refine rnd_fin lit2_fin ?_
    rw [lit2_val, abs_le]; constructor <;> norm_num <;> linarith
  refine ⟨hfin _, ?_, ?_, hm.1, hm.2, ?_⟩
  · have h := rnd_mono (s := false) (t := ((F32.ofInt (fixedSinSpec z 4)).neg != i16MaxF.neg)) hq1
    have e : (rnd false (-(32768 / 32767))).val = -(32769 / 32768) := by decide +kernel
    rw [e] at h
    refine le_trans ?_ h
    norm_num
  · have h := rnd_le (s := ((F32.ofInt (fixedSinSpec z 4)).neg != i16MaxF.neg)) (y := lit 1) (q := (fixedSinSpec z 4 : ℚ) / 32767)
      (isFin.not_nan lit1_fin) (by rw [lit1_val]; exact hq2)
    rwa [lit1_val] at h
  · refine (rnd_error (hfin _)).trans (max_le (by norm_num) ?_)
    rw [div_le_div_iff₀ (by norm_num) (by norm_num)]
    have : |(fixedSinSpec z 4 : ℚ) / 32767| ≤ 2 := by rw [abs_le]; constructor <;> linarith
    norm_num; linarith

/-- C60 in full, for a given `rem_euclid`. -/
def FixedSinInUnit (rem : F32 → F32 → F32) : Prop :=
  ∀ (checks : Bool) (x : F32), x.isFin = true → ∃ r, fixedPointSin checks rem x = .ok r ∧ |r.val| ≤ 1

/-- C60 is false: at `-π/2` the result is `-32768/32767`, below `-1`. -/
theorem C60_unit_refuted : ¬ FixedSinInUnit mmRem := by
  intro h
  obtain ⟨r, hr, hb⟩ := h true (-lit fracPi2Q) (by decide +kernel)
  have e : fixedPointSin true mmRem (-lit fracPi2Q) = .ok (lit (-(32769 / 32768))) := by decide +kernel
  rw [e] at hr
  injection hr with hr
  rw [← hr] at hb
  exact absurd hb (by decide +kernel)

/-- C60 for the cosine: the same range, for every argument. -/
theorem C60_cos_partial (checks : Bool) (rem : F32 → F32 → F32) (x : F32) :
    ∃ r : F32, fixedPointCos checks rem x = .ok r ∧ r.isFin = true ∧ -(32768 / 32767) ≤ r.val ∧ r.val ≤ 1 := by
  obtain ⟨r, _, h1, h2, h3, h4, _⟩ := C60_range_partial checks rem (lit fracPi2Q - x)
  exact ⟨r, h1, h2, h3, h4⟩

theorem C60_cos_refuted : ¬ ∀ (checks : Bool) (x : F32), x.isFin = true →
    ∃ r, fixedPointCos checks mmRem x = .ok r ∧ |r.val| ≤ 1 := by
  intro h
  obtain ⟨r, hr, hb⟩ := h true (lit piQ) (by decide +kernel)
  have e : fixedPointCos true mmRem (lit piQ) = .ok (lit (-(32769 / 32768))) := by decide +kernel
  rw [e] at hr
  injection hr with hr
  rw [← hr] at hb
  exact absurd hb (by decide +kernel)

/-! ## C64 -/

/-- C64: for every table size up to `u16::MAX` the table builds at compile time (all overflow checks on) and entry `i`
is the fixed-point sine of `i * (65535 / N) - 32767`, a phase of `i16`. -/
theorem C64_table {n : Nat} (h1 : 1 ≤ n) (h2 : n ≤ 65535) :
    sineTable n = .ok ((List.range n).map fun i : Nat => fixedSinSpec ((i : Int) * (65535 / n : Nat) - 32767) 4) ∧
      ∀ i < n, -32768 ≤ (i : Int) * (65535 / n : Nat) - 32767 ∧ (i : Int) * (65535 / n : Nat) - 32767 ≤ 32767 := by
  have hmod : n % 2 ^ 16 = n := Nat.mod_eq_of_lt (by omega)
  have hb : ∀ i < n, (i : Int) * (65535 / n : Nat) ≤ 65534 := by
    intro i hi
    have hs : 1 ≤ 65535 / n := (Nat.one_le_div_iff (by omega)).2 h2
    have h3 : (65535 / n) * n ≤ 65535 := Nat.div_mul_le_self _ _
    have h4 : (i + 1) * (65535 / n) ≤ n * (65535 / n) := Nat.mul_le_mul_right _ hi
    have h5 : i * (65535 / n) + 1 ≤ 65535 := by
      rw [Nat.add_mul, one_mul, Nat.mul_comm n] at h4; omega
    exact_mod_cast (by omega : i * (65535 / n) ≤ 65534)
  have hb0 : ∀ i : Nat, (0:Int) ≤ (i : Int) * (65535 / n : Nat) := fun i => by positivity
  refine ⟨?_, fun i hi => ⟨by linarith [hb0 i], by linarith [hb i hi]⟩⟩
  have hentry : ∀ i < n, tableEntry (65535 / n) i = .ok (fixedSinSpec ((i : Int) * (65535 / n : Nat) - 32767) 4) := by
    intro i hi
    have b0 := hb0 i
    have b1 := hb i hi
    have e : ((i * (65535 / n) : Nat) : Int) = (i : Int) * (65535 / n : Nat) := by push_cast; rfl
    unfold tableEntry
    generalize (i : Int) * (65535 / n : Nat) = v at *
    have c1 : i32 true v = .ok v := i32_ok (by rw [abs_le]; constructor <;> norm_num <;> linarith)
    have c2 : i32 true (v - 32767) = .ok (v - 32767) := i32_ok (by rw [abs_le]; constructor <;> norm_num <;> linarith)
    have c3 : asI16 (v - 32767) = v - 32767 := by unfold asI16; omega
    simp only [c1, c2, c3, bind, Except.bind]
    exact (sinUnchecked_ok (by linarith) (by linarith) le_rfl).1
  unfold sineTable minStep
  rw [hmod, if_neg (by omega)]
  show (List.range n).mapM (tableEntry (65535 / n)) = _
  have key : ∀ l : List Nat, (∀ i ∈ l, i < n) → l.mapM (tableEntry (65535 / n)) =
      .ok (l.map fun i : Nat => fixedSinSpec ((i : Int) * (65535 / n : Nat) - 32767) 4) := by
    intro l
    induction l with
    | nil => intro _; rfl
    | cons a l ih =>
      intro hl
      rw [List.mapM_cons, hentry a (hl a (by simp)), ih fun i hi => hl i (by simp [hi])]
      rfl
  exact key _ fun i hi => List.mem_range.1 hi

/-- C64, the edge: a multiple of 65536 divides by zero, which fails compilation. -/
theorem C64_zero_step (n : Nat) (h : n % 65536 = 0) : sineTable n = .error .panic := by
  unfold sineTable minStep
  rw [if_pos (by norm_num; exact h)]; rfl

example : sineTable 4 = .ok [-32768, -23171, -2, 23168] := by decide +kernel

/-! ## C61 -/

/-- The normalised angle, for a finite argument: a finite number of `[-2, 2]`. -/
theorem normalizedRads_bounds {rem : F32 → F32 → F32} (hrem : RemContract rem) {x : F32} (hx : x.isFin = true) :
    (normalizedRads rem x).isFin = true ∧ |(normalizedRads rem x).val| ≤ 2 := by
  have h2 : (lit 2 : F32).val ≠ 0 := by rw [lit2_val]; norm_num
  have e1 := div_fin hx lit2_fin h2
  rw [lit2_val] at e1
  have hle : |x.val / 2| ≤ |x.val| := by rw [abs_div]; exact div_le_self (abs_nonneg _) (by norm_num)
  have f1 : (x / lit 2).isFin = true := by rw [e1]; exact rnd_fin hx hle
  have f2 : (x / lit 2 - lit fracPi4Q).isFin = true := by
    rw [sub_fin f1 fracPi4_fin, fracPi4_val]
    refine rnd_fin_of_lt (lt_of_le_of_lt (abs_sub _ _) ?_)
    have := fin_le_max f1
    have h3 : |(13176795 / 2 ^ 24 : ℚ)| ≤ 1 := by rw [abs_of_pos (by norm_num)]; norm_num
    have h4 : ((2:ℚ) ^ 24 - 1) * 2 ^ 104 + 1 < 2 ^ 128 - 2 ^ 103 := by norm_num
    linarith
  obtain ⟨rf, r0, r1, _⟩ := (hrem (x / lit 2 - lit fracPi4Q) (lit piQ) pi_fin (by rw [pi_val]; norm_num)).2 f2
  unfold normalizedRads
  generalize rem (x / lit 2 - lit fracPi4Q) (lit piQ) = r at *
  rw [pi_val] at r1
  have hq0 : 0 ≤ r.val / (13176795 / 2 ^ 24) := by positivity
  have hq4 : r.val / (13176795 / 2 ^ 24) ≤ 4 := by rw [div_le_iff₀ (by norm_num)]; norm_num at r1 ⊢; linarith
  have l4f : (lit 4 : F32).isFin = true := by decide +kernel
  have l4v : (lit 4 : F32).val = 4 := by decide +kernel
  have e2 := div_fin rf fracPi4_fin (by rw [fracPi4_val]; norm_num)
  rw [fracPi4_val] at e2
  have g1 : (r / lit fracPi4Q).isFin = true := by
    rw [e2]; exact rnd_fin l4f (by rw [l4v, abs_of_nonneg hq0, abs_of_pos (by norm_num)]; exact hq4)
  have g2 : 0 ≤ (r / lit fracPi4Q).val := by rw [e2]; exact rnd_val_nonneg hq0
  have g3 : (r / lit fracPi4Q).val ≤ 4 := by
    rw [e2]
    have := rnd_le (s := r.neg != (lit fracPi4Q : F32).neg) (isFin.not_nan l4f) (q := r.val / (13176795 / 2 ^ 24)) (by rw [l4v]; exact hq4)
    rwa [l4v] at this
  rw [sub_fin g1 lit2_fin, lit2_val]
  have hb : |(r / lit fracPi4Q).val - 2| ≤ |(lit 2 : F32).val| := by
    rw [lit2_val, abs_of_pos (a := (2:ℚ)) (by norm_num), abs_le]; constructor <;> linarith
  refine ⟨rnd_fin lit2_fin hb, ?_⟩
  have := rnd_abs_le (s := (r / lit fracPi4Q).neg && !(lit 2 : F32).neg) hb
  rwa [lit2_val, abs_of_pos (a := (2:ℚ)) (by norm_num)] at this

/-- For an argument that is not finite the normalised angle is NaN. -/
theorem normalizedRads_nan {rem : F32 → F32 → F32} (hrem : RemContract rem) {x : F32} (hx : x.isFin = false) :
    (normalizedRads rem x).isNaN = true := by
  have hbad : (x / lit 2 - lit fracPi4Q).isFin = false := by
    rcases hn : x.isNaN with _ | _
    · have hm : x.mag = infMag := by
        have h1 : ¬ x.mag < infMag := by simpa [isFin] using hx
        have h2 : ¬ infMag < x.mag := by simpa [isNaN] using hn
        omega
      rcases hs : x.neg with _ | _
      · rw [show x = inf from ext_neg_mag (hs.trans (by decide)) (hm.trans (by decide))]; decide +kernel
      · rw [show x = -inf from ext_neg_mag (hs.trans (by decide)) (hm.trans (by decide))]; decide +kernel
    · rw [div_nan_left hn, sub_nan_left (by decide)]; decide
  have h := (hrem (x / lit 2 - lit fracPi4Q) (lit piQ) pi_fin (by rw [pi_val]; norm_num)).1 hbad
  unfold normalizedRads
  rw [div_nan_left h, sub_nan_left (by decide)]; decide

theorem tableGet_ok {t : List Int} {i : Nat} (h : i < t.length) : tableGet t i = .ok t[i] := by
  unfold tableGet; rw [List.getElem?_eq_getElem h]

/-- C61 for any table of `2..=2^15` entries of `i16`: no argument panics; a finite argument gives a finite number of
absolute value at most `32768/32767`, any other argument gives NaN. -/
theorem C61_lookup {rem : F32 → F32 → F32} (hrem : RemContract rem) (c : Cfg) {table : List Int}
    (hl : 2 ≤ table.length) (hl2 : table.length ≤ 2 ^ 15) (ht : ∀ v ∈ table, -32768 ≤ v ∧ v ≤ 32767) (x : F32) :
    ∃ r, lookupSin c rem table x = .ok r ∧ (x.isFin = false → r.isNaN = true) ∧
      (x.isFin = true → r.isFin = true ∧ |r.val| ≤ 32768 / 32767) := by
  have hw : (2:Nat) ^ 16 ≤ 2 ^ c.w := Nat.pow_le_pow_right (by norm_num) c.w_ge
  have hmax : (2:Nat) ^ 16 - 1 ≤ c.usizeMax := by unfold Cfg.usizeMax; omega
  obtain ⟨n, hn⟩ : ∃ n, table.length = n + 1 := ⟨table.length - 1, by omega⟩
  have hsub : c.usub table.length 1 = .ok n := by rw [c.usub_eq (by omega), hn]; rfl
  have hn1 : 1 ≤ n := by omega
  have hn2 : n < 2 ^ 15 := by omega
  have hent : ∀ {i : Nat} (h : i < table.length), (F32.ofInt table[i]).isFin = true ∧ |(F32.ofInt table[i]).val| ≤ 2 ^ 15 := by
    intro i h
    have hb := ht _ (List.getElem_mem h)
    have ha : |table[i]| ≤ 2 ^ 24 := by rw [abs_le]; constructor <;> norm_num <;> omega
    refine ⟨ofInt_fin ha, ?_⟩
    rw [ofInt_val ha]
    have : |table[i]| ≤ 2 ^ 15 := by rw [abs_le]; constructor <;> norm_num <;> omega
    exact_mod_cast this
  have hdiv : ∀ v : F32, v.isFin = true → |v.val| ≤ 2 ^ 15 → (v / i16MaxF).isFin = true ∧ |(v / i16MaxF).val| ≤ 32768 / 32767 := by
    intro v vf hv
    rw [div_fin vf i16MaxF_fin (by rw [i16MaxF_val]; norm_num), i16MaxF_val]
    have hq : |v.val / 32767| ≤ 32768 / 32767 := by
      rw [abs_div, abs_of_pos (a := (32767:ℚ)) (by norm_num)]
      exact div_le_div_of_nonneg_right (by norm_num at hv ⊢; exact hv) (by norm_num)
    have h := rnd_abs_mono (s := v.neg != i16MaxF.neg) (t := false) hq
    have e : (rnd false (32768 / 32767)).val = 32769 / 32768 := by decide +kernel
    rw [e] at h
    refine ⟨rnd_fin lit2_fin (hq.trans (by rw [lit2_val]; norm_num)), h.trans (by norm_num)⟩
  have ok : ∀ {α β : Type} (v : α) (f : α → M β), (Except.ok v >>= f) = f v := fun _ _ => rfl
  unfold lookupSin
  rw [hsub, ok]
  have hnf := c.u2f_fin (n := n) (by omega)
  have hnv := c.u2f_val (n := n) (by omega)
  cases hx : x.isFin with
  | false =>
    have hnan := normalizedRads_nan hrem hx
    have q1 : (normalizedRads rem x).abs / lit 2 = nan := div_nan_left (by rw [isNaN_abs]; exact hnan) _
    have q2 : c.u2f n * (nan : F32) = nan := mul_nan_right (by decide) _
    simp only [q1, q2, c.f2u_nan (show nan.isNaN = true by decide)]
    rw [if_pos (by omega)]
    rw [tableGet_ok (show 0 < table.length by omega), ok, c.uadd_eq (by omega), ok, tableGet_ok (show 0 + 1 < table.length by omega), ok]
    refine ⟨_, rfl, fun _ => ?_, fun h => absurd h (by simp)⟩
    unfold Interpolation.lerpUnchecked
    have e1 : (nan - c.u2f 0 : F32) = nan := sub_nan_left (by decide) _
    rw [e1, mul_nan_right (x := F32.ofInt table[0 + 1]) (by decide), add_nan_right (by decide), div_nan_left (by decide)]
    decide
  | true =>
    obtain ⟨nf, nb⟩ := normalizedRads_bounds hrem hx
    obtain ⟨q, hq⟩ : ∃ q, q = (normalizedRads rem x).abs / lit 2 := ⟨_, rfl⟩
    have q0 : 0 ≤ |(normalizedRads rem x).val| / 2 := by positivity
    have qle : |(|(normalizedRads rem x).val|) / 2| ≤ |(lit 1 : F32).val| := by
      rw [abs_of_nonneg q0, lit1_val, abs_one]; linarith
    have eq1 : q = rnd ((normalizedRads rem x).abs.neg != (lit 2 : F32).neg) (|(normalizedRads rem x).val| / 2) := by
      rw [hq, div_fin (by rw [isFin_abs]; exact nf) lit2_fin (by rw [lit2_val]; norm_num), val_abs, lit2_val]
    have qf : q.isFin = true := by rw [eq1]; exact rnd_fin lit1_fin qle
    have qv0 : 0 ≤ q.val := by rw [eq1]; exact rnd_val_nonneg q0
    have qv1 : q.val ≤ 1 := by
      rw [eq1]
      have := rnd_abs_le (s := (normalizedRads rem x).abs.neg != (lit 2 : F32).neg) qle
      rw [lit1_val, abs_one] at this
      exact (le_abs_self _).trans this
    rw [← hq]
    obtain ⟨f, hf⟩ : ∃ f, f = c.u2f n * q := ⟨_, rfl⟩
    have ef : f = rnd ((c.u2f n).neg != q.neg) (n * q.val) := by rw [hf, mul_fin hnf qf, hnv]
    have fle : |(n : ℚ) * q.val| ≤ |(c.u2f n).val| := by
      rw [hnv, abs_of_nonneg (by positivity), abs_of_nonneg (by positivity)]
      exact mul_le_of_le_one_right (by positivity) qv1
    have ff : f.isFin = true := by rw [ef]; exact rnd_fin hnf fle
    have f0 : 0 ≤ f.val := by rw [ef]; exact rnd_val_nonneg (by positivity)
    have f1 : f.val ≤ n := by
      rw [ef]
      have := rnd_abs_le (s := (c.u2f n).neg != q.neg) fle
      rw [hnv, abs_of_nonneg (a := (n:ℚ)) (by positivity)] at this
      exact (le_abs_self _).trans this
    simp only [← hf]
    obtain ⟨i, hi⟩ : ∃ i, i = c.f2u f := ⟨_, rfl⟩
    have hfl0 : 0 ≤ ⌊f.val⌋ := Int.floor_nonneg.2 f0
    have hfln : ⌊f.val⌋ ≤ n := by
      have : (⌊f.val⌋ : ℚ) ≤ n := (Int.floor_le _).trans f1
      exact_mod_cast this
    have hifl : (i : Int) = ⌊f.val⌋ := by
      rw [hi, c.f2u_nonneg (isFin.not_nan ff) f0]
      omega
    have hin : i ≤ n := by omega
    rw [← hi]
    have hir : (i : ℚ) = ⌊f.val⌋ := by rw [← hifl]; simp
    by_cases hie : i = n
    · rw [if_neg (by simpa using hie), tableGet_ok (show i < table.length by omega), ok]
      obtain ⟨vf, vb⟩ := hent (show i < table.length by omega)
      exact ⟨_, rfl, fun h => absurd h (by simp), fun _ => hdiv _ vf vb⟩
    · rw [if_pos hie, tableGet_ok (show i < table.length by omega), ok, c.uadd_eq (by omega), ok,
        tableGet_ok (show i + 1 < table.length by omega), ok]
      refine ⟨_, rfl, fun h => absurd h (by simp), fun _ => ?_⟩
      obtain ⟨af, ab⟩ := hent (show i < table.length by omega)
      obtain ⟨bf, bb⟩ := hent (show i + 1 < table.length by omega)
      have uf := c.u2f_fin (n := i) (by omega)
      have uv := c.u2f_val (n := i) (by omega)
      have et : f - c.u2f i = rnd (f.neg && !(c.u2f i).neg) (f.val - i) := by rw [sub_fin ff uf, uv]
      have d0 : 0 ≤ f.val - i := by rw [hir]; linarith [Int.floor_le f.val]
      have d1 : f.val - i ≤ 1 := by rw [hir]; linarith [Int.lt_floor_add_one f.val]
      have dle : |f.val - i| ≤ |(lit 1 : F32).val| := by rw [lit1_val, abs_one, abs_of_nonneg d0]; exact d1
      obtain ⟨t, htd⟩ : ∃ t, t = f - c.u2f i := ⟨_, rfl⟩
      rw [← htd] at et ⊢
      have tf : t.isFin = true := by rw [et]; exact rnd_fin lit1_fin dle
      have t0 : 0 ≤ t.val := by rw [et]; exact rnd_val_nonneg d0
      have t1 : t.val ≤ 1 := by
        have := rnd_abs_le (s := f.neg && !(c.u2f i).neg) dle
        rw [lit1_val, abs_one, ← et] at this
        exact (le_abs_self _).trans this
      have es : (lit 1 - t : F32) = rnd ((lit 1 : F32).neg && !t.neg) (1 - t.val) := by rw [sub_fin lit1_fin tf, lit1_val]
      have sle : |1 - t.val| ≤ 1 := by rw [abs_of_nonneg (by linarith)]; linarith
      have sf : (lit 1 - t : F32).isFin = true := by
        rw [es]; exact rnd_fin lit1_fin (by rw [lit1_val, abs_one]; exact sle)
      have s0 : 0 ≤ (lit 1 - t : F32).val := by rw [es]; exact rnd_val_nonneg (by linarith)
      have serr := rnd_error_unit (s := (lit 1 : F32).neg && !t.neg) sle
      rw [← es] at serr
      obtain ⟨-, -, rf, rb⟩ := blend_pow2 (k := 15) (by norm_num) af bf ab bb sf tf s0 t0 (by linarith [(abs_le.1 serr).2])
      exact hdiv _ rf rb

/-- C61 for the crate's table. -/
theorem C61_lookup_sin {rem : F32 → F32 → F32} (hrem : RemContract rem) (c : Cfg) (x : F32) :
    ∃ table r, sineTable 4096 = .ok table ∧ lookupSin c rem table x = .ok r ∧ (x.isFin = false → r.isNaN = true) ∧
      (x.isFin = true → r.isFin = true ∧ |r.val| ≤ 32768 / 32767) := by
  obtain ⟨ht, hp⟩ := C64_table (n := 4096) (by norm_num) (by norm_num)
  obtain ⟨r, hr⟩ := C61_lookup hrem c (table := (List.range 4096).map fun i : Nat =>
    fixedSinSpec ((i : Int) * (65535 / 4096 : Nat) - 32767) 4) (by simp) (by simp) (by
      intro v hv
      obtain ⟨i, hi, rfl⟩ := List.mem_map.1 hv
      have := hp i (List.mem_range.1 hi)
      exact (sinUnchecked_ok (checks := true) this.1 this.2 (d := 4) le_rfl).2) x
  exact ⟨_, r, ht, hr⟩

example : RemContract mmRem := mmRem_contract

end Verif
