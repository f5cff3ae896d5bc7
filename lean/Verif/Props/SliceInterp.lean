import Verif.Lemmas.Lerp
import Verif.Spec.External
import Verif.Props.Slice
import Verif.Lemmas.Blend

/-! # C07-C10: linearly interpolated access to slices -/

namespace Verif
open F32 Interpolation

variable {c : Cfg} {mem : Mem F32} {s : MemorySlice} {xs : List F32}

/-- `10.0 * f32::EPSILON` is exact. -/
theorem tenEps_val : (lit 10 * MemorySlice.epsilon : F32).val = 10 / 2 ^ 23 := by decide +kernel
theorem tenEps_fin : (lit 10 * MemorySlice.epsilon : F32).isFin = true := by decide +kernel

/-- The guard bound of `lerp` never exceeds the (rounded) length. -/
theorem lerp_guard_le (c : Cfg) {n : Nat} (hn : n < 2 ^ 64) :
    (c.u2f n - lit 1 + lit 10 * MemorySlice.epsilon : F32).isFin = true ∧
    (c.u2f n - lit 1 + lit 10 * MemorySlice.epsilon : F32).val ≤ (c.u2f n).val := by
  have hnq : (n : ℚ) < 2 ^ 64 := by exact_mod_cast hn
  have hLf : (c.u2f n).isFin = true := by
    unfold Cfg.u2f ofInt ofRat
    apply rnd_fin_of_le_max
    rw [abs_of_nonneg (by positivity)]; push_cast
    linarith [show (2:ℚ) ^ 64 ≤ (2 ^ 24 - 1) * 2 ^ 104 by norm_num]
  set L := c.u2f n with hL
  have hLv : L.val = (rnd false ((n : Int) : ℚ)).val := rfl
  have hL64 : L.val ≤ 2 ^ 64 := by
    have h64 : (2:ℚ) ^ 64 = (rnd false (2 ^ 64)).val := by
      rw [(rep_of_zpow (m := 1) (e := 64) (by norm_num) (by norm_num) (by norm_num) (by norm_num)).rnd_val]
    rw [hLv, h64]; exact rnd_mono (by push_cast; exact hnq.le)
  have hL0 : 0 ≤ L.val := by rw [hLv]; exact rnd_val_nonneg (by positivity)
  have hYf : (L - lit 1).isFin = true := by
    rw [sub_fin hLf lit1_fin, lit1_val]
    apply rnd_fin_of_le_max
    rw [abs_le]; constructor <;> norm_num at * <;> linarith
  have hYv : (L - lit 1).val = (rnd (L.neg && !(lit 1 : F32).neg) (L.val - 1)).val := by
    rw [sub_fin hLf lit1_fin, lit1_val]
  have hYle : (L - lit 1).val ≤ L.val := by
    rw [hYv]; exact rnd_le (isFin.not_nan hLf) (by linarith)
  have hYge : -1 ≤ (L - lit 1).val := by
    rw [hYv, ← litm1_val]
    exact le_rnd (isFin.not_nan litm1_fin) (by rw [litm1_val]; linarith)
  have hUf : (L - lit 1 + lit 10 * MemorySlice.epsilon).isFin = true := by
    rw [add_fin hYf tenEps_fin, tenEps_val]
    apply rnd_fin_of_le_max
    rw [abs_le]; constructor <;> norm_num at * <;> linarith
  refine ⟨hUf, ?_⟩
  rw [add_fin hYf tenEps_fin, tenEps_val] at hUf ⊢
  rcases le_or_gt n (2 ^ 24) with hs | hs
  · have hLn : L.val = n := c.u2f_val hs
    have hY : (L - lit 1).val = n - 1 := by
      rw [hYv, hLn]
      have : Rep ((((n : Int) - 1 : Int)) : ℚ) := rep_int (by rw [abs_le]; constructor <;> omega)
      push_cast at this
      exact this.rnd_val _
    apply rnd_le (isFin.not_nan hLf)
    rw [hY, hLn]; linarith [show (10:ℚ) / 2 ^ 23 ≤ 1 by norm_num]
  · have h24 : (16777216:ℚ) ≤ n := by norm_num at hs; exact_mod_cast hs.le
    have hL24 : (2:ℚ) ^ 24 ≤ L.val := by
      have h := (rep_int (n := 16777216) (by norm_num)).rnd_val false
      rw [show (2:ℚ) ^ 24 = ((16777216 : Int) : ℚ) by norm_num, ← h, hLv]
      exact rnd_mono (by push_cast; exact h24)
    obtain ⟨l, hl⟩ := int_of_ge hLf (by rw [abs_of_nonneg hL0]; linarith)
    have hY24 : (2:ℚ) ^ 24 - 1 ≤ (L - lit 1).val := by
      have h := (rep_int (n := 16777215) (by norm_num)).rnd_val (L.neg && !(lit 1 : F32).neg)
      rw [hYv, show (2:ℚ) ^ 24 - 1 = ((16777215 : Int) : ℚ) by norm_num, ← h]
      exact rnd_mono (by push_cast; norm_num at hL24; linarith)
    obtain ⟨y, hy⟩ := int_of_ge hYf (by rw [abs_of_nonneg (by linarith)]; linarith)
    rcases lt_or_eq_of_le hYle with hlt | heq
    · apply rnd_le (isFin.not_nan hLf)
      have : y + 1 ≤ l := by
        rw [hy, hl] at hlt
        have : y < l := by exact_mod_cast hlt
        omega
      have : (y : ℚ) + 1 ≤ l := by exact_mod_cast this
      rw [hy, hl]; norm_num; linarith
    · have hnear := rnd_nearest (y := L) hUf
      rw [heq] at hnear hUf ⊢
      rw [show L.val - (L.val + 10 / 2 ^ 23) = -(10 / 2 ^ 23) by ring, abs_neg,
        abs_of_pos (by norm_num : (0:ℚ) < 10 / 2 ^ 23)] at hnear
      have hge : L.val ≤ (rnd ((L - lit 1).neg && (lit 10 * MemorySlice.epsilon).neg)
          (L.val + 10 / 2 ^ 23)).val := le_rnd (isFin.not_nan hLf) (by norm_num)
      obtain ⟨u, hu⟩ := int_of_ge hUf (by rw [abs_of_nonneg (by linarith)]; linarith)
      have h1 := (abs_le.1 hnear).2
      rw [hu, hl] at h1
      rw [hu, hl]
      have : (u : ℚ) < l + 1 := by linarith [show (20:ℚ) / 2 ^ 23 < 1 by norm_num]
      have : u < l + 1 := by exact_mod_cast this
      have : u ≤ l := by omega
      exact_mod_cast this

theorem lerp_guard {c : Cfg} {n : Nat} {x : F32} (hn : n < 2 ^ 64) (h0 : F32.lt x (lit 0) = false)
    (h1 : F32.lt x (c.u2f n - lit 1 + lit 10 * MemorySlice.epsilon) = true) :
    0 ≤ x.val ∧ x.val < n ∧ c.f2u x < n := by
  obtain ⟨hx, hu, hlt⟩ := F32.lt_iff.1 h1
  have hx0 : 0 ≤ x.val := by
    by_contra hcon
    have : F32.lt x (lit 0) = true := by
      rw [F32.lt_iff]; exact ⟨hx, lit_not_nan _, by simpa using hcon⟩
    rw [this] at h0; exact absurd h0 (by simp)
  have hL := (lerp_guard_le c hn).2
  have hxn : x.val < n := by
    by_contra hcon
    have hle : (c.u2f n).val ≤ x.val := rnd_le hx (by push_cast; exact not_lt.1 hcon)
    linarith
  refine ⟨hx0, hxn, ?_⟩
  rw [c.f2u_nonneg hx hx0]
  have : ⌊x.val⌋ < (n : Int) := Int.floor_lt.2 (by exact_mod_cast hxn)
  have := Int.floor_nonneg.2 hx0
  omega

theorem pow_w_le (c : Cfg) : 2 ^ c.w ≤ 2 ^ 64 := Nat.pow_le_pow_right (by norm_num) c.w_le


/-! ### The three branches of `lerp` -/

theorem lerp_neg {x : F32} (h0 : F32.lt x (lit 0) = true) :
    s.lerp c mem x = .ok (.error .indexOutOfBound) := by
  unfold MemorySlice.lerp; rw [if_pos h0]; rfl

theorem lerp_at_end (h : Views c mem s xs) {x : F32} (h0 : F32.lt x (lit 0) = false)
    (hne : 1 ≤ xs.length)
    (hg : (x.feq (c.u2f (xs.length - 1)) &&
      x.lt (c.u2f xs.length - lit 1 + lit 10 * MemorySlice.epsilon)) = true) :
    ∃ hk : c.f2u x < xs.length, s.lerp c mem x = .ok (.ok xs[c.f2u x]) := by
  have hn64 : xs.length < 2 ^ 64 := lt_of_lt_of_le h.len_lt (pow_w_le c)
  have hk := (lerp_guard hn64 h0 (Bool.and_eq_true_iff.1 hg).2).2.2
  refine ⟨hk, ?_⟩
  unfold MemorySlice.lerp
  simp only [bind, Except.bind, pure, Except.pure, h0, h.length_eq, c.usub_eq hne]
  rw [if_neg (by simp), if_pos hg, h.getUnchecked hk]

theorem lerp_between (h : Views c mem s xs) {x : F32} (h0 : F32.lt x (lit 0) = false)
    (hne : 1 ≤ xs.length)
    (hg : (x.feq (c.u2f (xs.length - 1)) &&
      x.lt (c.u2f xs.length - lit 1 + lit 10 * MemorySlice.epsilon)) = false) :
    s.lerp c mem x = .ok (
      if hk : c.f2u x + 1 < xs.length then
        .ok (lerpUnchecked xs[c.f2u x] xs[c.f2u x + 1] (x - c.u2f (c.f2u x)))
      else .error .indexOutOfBound) := by
  unfold MemorySlice.lerp
  simp only [bind, Except.bind, pure, Except.pure, h0, h.length_eq, c.usub_eq hne]
  rw [if_neg (by simp), if_neg (by simp [hg]), C01_get h]
  by_cases hi : c.f2u x < xs.length
  · have hlt := h.len_lt
    rw [dif_pos hi, c.uadd_eq (by omega)]
    simp only
    rw [C01_get h]
    by_cases hi' : c.f2u x + 1 < xs.length
    · rw [dif_pos hi', dif_pos hi']
    · rw [dif_neg hi', dif_neg hi']
  · rw [dif_neg hi, dif_neg (by omega)]

/-! ## C07 -/

/-- C07: `lerp` on a live slice never touches memory outside it, whatever the position is (NaN,
infinities, subnormals included), and on a non-empty slice it never panics either. -/
theorem C07_lerp_safe (h : Views c mem s xs) (x : F32) :
    s.lerp c mem x ≠ .error .ub ∧ (xs ≠ [] → ∃ r, s.lerp c mem x = .ok r) := by
  cases h0 : F32.lt x (lit 0) with
  | true => rw [lerp_neg h0]; simp
  | false =>
    by_cases hne : 1 ≤ xs.length
    · cases hg : (x.feq (c.u2f (xs.length - 1)) &&
        x.lt (c.u2f xs.length - lit 1 + lit 10 * MemorySlice.epsilon)) with
      | true => obtain ⟨_, e⟩ := lerp_at_end h h0 hne hg; rw [e]; simp
      | false => rw [lerp_between h h0 hne hg]; simp
    · have hnil : xs = [] := List.eq_nil_of_length_eq_zero (by omega)
      refine ⟨?_, fun hx => absurd hnil hx⟩
      subst hnil
      unfold MemorySlice.lerp
      simp only [bind, Except.bind, pure, Except.pure, h0, h.length_eq, List.length_nil]
      rw [if_neg (by simp)]
      cases hu : c.usub 0 1 with
      | error e =>
        unfold Cfg.usub at hu
        rw [if_neg (by omega)] at hu
        split at hu
        · injection hu with hu; subst hu; simp
        · simp at hu
      | ok n1 =>
        simp only
        split
        · rename_i hg
          have := (lerp_guard (n := 0) (by norm_num) h0 (Bool.and_eq_true_iff.1 hg).2).2.2
          omega
        · rw [C01_get h]; simp

/-- A four-sample buffer with finite contents, the middle of a block of six; the concrete instance in the examples. -/
def demoMemF : Mem F32 := fun b => if b = 0 then some [lit 9, lit 0, lit 10, lit 20, lit 30, lit 9] else none
def demoSliceF : MemorySlice := MemorySlice.fromSlice 0 1 4
def demoSamples : List F32 := [lit 0, lit 10, lit 20, lit 30]

theorem demo_viewsF (c : Cfg) (h : c = Cfg.debug64 ∨ c = Cfg.release64 ∨ c = Cfg.release32) :
    Views c demoMemF demoSliceF demoSamples := by
  rcases h with rfl | rfl | rfl <;> exact ⟨0, [lit 9], [lit 9], rfl, rfl, rfl, by decide⟩

theorem demoSamples_fin : ∀ y ∈ demoSamples, y.isFin = true := by
  intro y hy; simp [demoSamples] at hy
  rcases hy with rfl | rfl | rfl | rfl <;> decide +kernel

-- a read between samples, one past the end, NaN
example : Views Cfg.debug64 demoMemF demoSliceF demoSamples ∧ demoSamples ≠ [] ∧
    demoSliceF.lerp Cfg.debug64 demoMemF (lit (3 / 2)) = .ok (.ok (lit 15)) ∧
    demoSliceF.lerp Cfg.debug64 demoMemF F32.inf = .ok (.error .indexOutOfBound) ∧
    demoSliceF.lerp Cfg.debug64 demoMemF F32.nan = .ok (.ok F32.nan) :=
  ⟨demo_viewsF _ (by simp), by simp [demoSamples], by decide +kernel, by decide +kernel, by decide +kernel⟩

/-! ## C09 -/

theorem guard_false_of_ne {n : Nat} {x : F32} (hn : n ≤ 2 ^ 24) (h : x.val ≠ (n : ℚ) - 1) (h1 : 1 ≤ n) (y : F32) :
    (x.feq (c.u2f (n - 1)) && x.lt y) = false := by
  cases hf : x.feq (c.u2f (n - 1)) with
  | false => rfl
  | true =>
    have := (feq_iff.1 hf).2.2
    rw [c.u2f_val (by omega), Nat.cast_sub h1] at this
    exact absurd this (by simpa using h)

/-- C09: negative positions are rejected, -/
theorem C09_negative {x : F32} (hx : x.isNaN = false) (hneg : x.val < 0) :
    s.lerp c mem x = .ok (.error .indexOutOfBound) :=
  lerp_neg (lt_iff.2 ⟨hx, lit_not_nan _, by simpa using hneg⟩)

/-- ... so are positions past the last sample (infinity, whose `val` is `2^128`, included), -/
theorem C09_beyond (h : Views c mem s xs) (hne : xs ≠ []) (hlen : xs.length ≤ 2 ^ 24) {x : F32}
    (hx : x.isNaN = false) (hgt : (xs.length : ℚ) - 1 < x.val) :
    s.lerp c mem x = .ok (.error .indexOutOfBound) := by
  have h1 : 1 ≤ xs.length := List.length_pos_iff.2 hne
  have h1q : (1:ℚ) ≤ xs.length := by exact_mod_cast h1
  have h0 : F32.lt x (lit 0) = false := by
    cases hh : F32.lt x (lit 0) with
    | false => rfl
    | true => have := (lt_iff.1 hh).2.2; rw [lit0_val] at this; linarith
  rw [lerp_between h h0 h1 (guard_false_of_ne hlen hgt.ne' h1 _), dif_neg]
  have hu := h.len_lt
  rw [c.f2u_nonneg hx (by linarith)]
  have : (xs.length : Int) - 1 ≤ ⌊x.val⌋ := Int.le_floor.2 (by push_cast; exact hgt.le)
  unfold Cfg.usizeMax
  omega

theorem lerp_inside (h : Views c mem s xs) (hlen : xs.length ≤ 2 ^ 24) {x : F32}
    (hx : x.isNaN = false) (h0 : 0 ≤ x.val) (hlt : x.val < (xs.length : ℚ) - 1) :
    ∃ (k : Nat) (hk : k + 1 < xs.length) (t : F32), (k : Int) = ⌊x.val⌋ ∧ t.isFin = true ∧ t.val = Int.fract x.val ∧
      s.lerp c mem x = .ok (.ok (lerpUnchecked xs[k] xs[k + 1] t)) := by
  have h1 : 1 ≤ xs.length := by
    by_contra hcon
    have : xs.length = 0 := by omega
    rw [this] at hlt; norm_num at hlt; linarith
  have hq : (xs.length : ℚ) ≤ 2 ^ 24 := by exact_mod_cast hlen
  have hfin : x.isFin = true := by
    rcases class_cases x with hc | hc | hc
    · rw [hc] at hx; exact absurd hx (by simp)
    · have := abs_val_inf hc; rw [magVal_infMag, abs_of_nonneg h0] at this
      rw [this] at hlt
      linarith [show (2:ℚ) ^ 24 ≤ 2 ^ 128 by norm_num]
    · exact hc
  have h0' : F32.lt x (lit 0) = false := by
    cases hh : F32.lt x (lit 0) with
    | false => rfl
    | true => have := (lt_iff.1 hh).2.2; rw [lit0_val] at this; linarith
  have hfl0 := Int.floor_nonneg.2 h0
  have hfl : ⌊x.val⌋ < (xs.length : Int) - 1 := Int.floor_lt.2 (by push_cast; exact hlt)
  have hu := h.len_lt
  have hk : (c.f2u x : Int) = ⌊x.val⌋ := by
    rw [c.f2u_nonneg hx h0]; unfold Cfg.usizeMax; omega
  have hkq : ((c.f2u x : Nat) : ℚ) = (⌊x.val⌋ : ℚ) := by exact_mod_cast congrArg (Int.cast : Int → ℚ) hk
  have hkl : c.f2u x ≤ 2 ^ 24 := by omega
  have hs := sub_exact hfin (c.u2f_fin hkl) (by
    rw [c.u2f_val hkl, hkq]; exact rep_fract hfin h0)
  rw [c.u2f_val hkl, hkq] at hs
  refine ⟨c.f2u x, by omega, x - c.u2f (c.f2u x), hk, hs.1, hs.2, ?_⟩
  rw [lerp_between h h0' h1 (guard_false_of_ne hlen hlt.ne h1 _), dif_pos (by omega)]

/-- ... and every position from 0 up to (excluding) the last sample is accepted and blends the two neighbours with the
exact fractional part of the position. -/
theorem C09_inside (h : Views c mem s xs) (hlen : xs.length ≤ 2 ^ 24) {x : F32}
    (hx : x.isNaN = false) (h0 : 0 ≤ x.val) (hlt : x.val < (xs.length : ℚ) - 1) :
    ∃ (k : Nat) (hk : k + 1 < xs.length) (r : F32), (k : Int) = ⌊x.val⌋ ∧ s.lerp c mem x = .ok (.ok r) ∧
      ((xs[k]).isFin = true → (xs[k + 1]).isFin = true → IsBlend xs[k] xs[k + 1] (Int.fract x.val) r) := by
  obtain ⟨k, hk, t, hki, -, htv, he⟩ := lerp_inside h hlen hx h0 hlt
  refine ⟨k, hk, _, hki, he, fun ha hb => ?_⟩
  rw [← htv]
  exact lerpUnchecked_blend ha hb (by rw [htv]; exact Int.fract_nonneg _) (by rw [htv]; exact (Int.fract_lt_one _).le)

example : Views Cfg.release32 demoMemF demoSliceF demoSamples ∧ demoSamples.length ≤ 2 ^ 24 ∧
    F32.isNaN (lit (-1 / 2)) = false ∧ (lit (-1 / 2) : F32).val < 0 ∧
    F32.isNaN (lit (13 / 4)) = false ∧ ((demoSamples.length : ℚ) - 1 < (lit (13 / 4) : F32).val) ∧
    ((demoSamples.length : ℚ) - 1 < F32.inf.val) ∧
    0 ≤ (lit (5 / 2) : F32).val ∧ (lit (5 / 2) : F32).val < (demoSamples.length : ℚ) - 1 ∧
    demoSliceF.lerp Cfg.release32 demoMemF (lit (5 / 2)) = .ok (.ok (lit 25)) := by
  refine ⟨demo_viewsF _ (by simp), by decide, ?_⟩
  decide +kernel

/-! ## C08 -/

/-- The full claim: the read at a whole valid index yields (the value of) the stored sample. -/
def LerpWholeIndex (c : Cfg) (mem : Mem F32) (s : MemorySlice) (xs : List F32) : Prop :=
  ∀ (i : Nat) (hi : i < xs.length), ∃ r, s.lerp c mem (c.u2f i) = .ok (.ok r) ∧ r.isFin = true ∧ r.val = (xs[i]).val

/-- C08 without the last index: true for every length up to `2^24`. -/
theorem C08_whole_index_partial (h : Views c mem s xs) (hlen : xs.length ≤ 2 ^ 24)
    (hfin : ∀ y ∈ xs, y.isFin = true) {i : Nat} (hi : i + 1 < xs.length) :
    ∃ r, s.lerp c mem (c.u2f i) = .ok (.ok r) ∧ r.isFin = true ∧ r.val = (xs[i]).val := by
  have hv : (c.u2f i).val = i := c.u2f_val (by omega)
  have hiq : (i : ℚ) + 1 < xs.length := by exact_mod_cast hi
  obtain ⟨k, hk, t, hki, htf, htv, he⟩ := lerp_inside h hlen (c.u2f_not_nan i) (by rw [hv]; positivity)
    (by rw [hv]; linarith)
  rw [hv] at hki htv
  have : k = i := by simp at hki; exact_mod_cast hki
  subst this
  simp at htv
  exact ⟨_, he, lerpUnchecked_zero (hfin _ (List.getElem_mem _)) (hfin _ (List.getElem_mem _)) htf htv⟩

/-- C08 with the last index: true (and bit exact there) up to 32 samples. -/
theorem C08_last_index_partial (h : Views c mem s xs) (hne : xs ≠ []) (hlen : xs.length ≤ 32) :
    s.lerp c mem (c.u2f (xs.length - 1)) = .ok (.ok (xs.getLast hne)) := by
  have h1 : 1 ≤ xs.length := List.length_pos_iff.2 hne
  have hv : (c.u2f (xs.length - 1)).val = ((xs.length - 1 : Nat) : ℚ) := c.u2f_val (by omega)
  have h0 : F32.lt (c.u2f (xs.length - 1)) (lit 0) = false := by
    cases hh : F32.lt (c.u2f (xs.length - 1)) (lit 0) with
    | false => rfl
    | true =>
      have := (lt_iff.1 hh).2.2; rw [lit0_val, hv] at this
      have h2 : (0:ℚ) ≤ ((xs.length - 1 : Nat) : ℚ) := by positivity
      linarith
  have hg : ((c.u2f (xs.length - 1)).feq (c.u2f (xs.length - 1)) &&
      (c.u2f (xs.length - 1)).lt (c.u2f xs.length - lit 1 + lit 10 * MemorySlice.epsilon)) = true := by
    have key : ∀ n : Fin 32, ((F32.ofInt n).feq (F32.ofInt n) &&
      (F32.ofInt n).lt (F32.ofInt (n.val + 1 : Nat) - lit 1 + lit 10 * MemorySlice.epsilon)) = true := by
      decide +kernel
    have := key ⟨xs.length - 1, by omega⟩
    simp only [Nat.sub_add_cancel h1] at this
    exact this
  obtain ⟨hk, e⟩ := lerp_at_end h h0 h1 hg
  have hu := h.len_lt
  have hke : c.f2u (c.u2f (xs.length - 1)) = xs.length - 1 :=
    c.f2u_nat (c.u2f_not_nan _) hv (by unfold Cfg.usizeMax; omega)
  rw [e, List.getLast_eq_getElem]
  simp only [hke]

/-- C08 is false: for EVERY buffer of 33 up to `2^24` samples the last whole index is rejected. -/
theorem C08_whole_index_refuted (h : Views c mem s xs) (h33 : 33 ≤ xs.length) (hlen : xs.length ≤ 2 ^ 24) :
    s.lerp c mem (c.u2f (xs.length - 1)) = .ok (.error .indexOutOfBound) ∧ ¬ LerpWholeIndex c mem s xs := by
  have h1 : 1 ≤ xs.length := by omega
  have hv : (c.u2f (xs.length - 1)).val = (xs.length : ℚ) - 1 := by
    rw [c.u2f_val (by omega), Nat.cast_sub h1]; simp
  have h33q : (33:ℚ) ≤ xs.length := by exact_mod_cast h33
  have hlq : (xs.length:ℚ) ≤ 2 ^ 24 := by exact_mod_cast hlen
  have h0 : F32.lt (c.u2f (xs.length - 1)) (lit 0) = false := by
    cases hh : F32.lt (c.u2f (xs.length - 1)) (lit 0) with
    | false => rfl
    | true => have := (lt_iff.1 hh).2.2; rw [lit0_val, hv] at this; linarith
  have hg : (c.u2f (xs.length - 1)).lt (c.u2f xs.length - lit 1 + lit 10 * MemorySlice.epsilon) = false := by
    have hn64 : xs.length < 2 ^ 64 := lt_of_lt_of_le h.len_lt (pow_w_le c)
    have hUf := (lerp_guard_le c hn64).1
    obtain ⟨hYf, hYv⟩ := sub_exact (c.u2f_fin hlen) lit1_fin (by
      rw [c.u2f_val hlen, lit1_val, ← hv]; exact rep_val (c.u2f_fin (by omega)))
    rw [c.u2f_val hlen, lit1_val] at hYv
    rw [add_fin hYf tenEps_fin, tenEps_val, hYv] at hUf ⊢
    set b := ((c.u2f xs.length - lit 1).neg && (lit 10 * MemorySlice.epsilon : F32).neg)
    have hnear := rnd_nearest (y := c.u2f (xs.length - 1)) hUf
    rw [hv, show (xs.length:ℚ) - 1 - (xs.length - 1 + 10 / 2 ^ 23) = -(10 / 2 ^ 23) by ring, abs_neg,
      abs_of_pos (by norm_num : (0:ℚ) < 10 / 2 ^ 23)] at hnear
    have hge : (xs.length:ℚ) - 1 ≤ (rnd b ((xs.length:ℚ) - 1 + 10 / 2 ^ 23)).val := by
      rw [← hv]; exact le_rnd (c.u2f_not_nan _) (by norm_num)
    obtain ⟨m, hm⟩ := grid_of_ge hUf (j := -18) (by norm_num) (by
      rw [abs_of_nonneg (by linarith)]; norm_num; linarith)
    cases hlt : (c.u2f (xs.length - 1)).lt (rnd b ((xs.length:ℚ) - 1 + 10 / 2 ^ 23)) with
    | false => rfl
    | true =>
      exfalso
      have h2 := (lt_iff.1 hlt).2.2
      have h3 := (abs_le.1 hnear).2
      rw [hm] at h2 h3
      rw [hv] at h2
      have hz : (2:ℚ) ^ (-18 : Int) = 1 / 2 ^ 18 := by norm_num
      rw [hz] at h2 h3
      have h4 : ((xs.length : Int) - 1) * 2 ^ 18 < m := by
        have : ((xs.length : ℚ) - 1) * 2 ^ 18 < m := by
          have := mul_lt_mul_of_pos_right h2 (by positivity : (0:ℚ) < 2 ^ 18)
          rwa [mul_assoc, one_div_mul_cancel (by positivity), mul_one] at this
        exact_mod_cast this
      have h5 : (((xs.length : Int) - 1) * 2 ^ 18 + 1 : ℚ) ≤ m := by exact_mod_cast h4
      push_cast at h5
      have h6 := mul_le_mul_of_nonneg_right h5 (by positivity : (0:ℚ) ≤ 1 / 2 ^ 18)
      norm_num at h3 h6
      linarith
  have herr : s.lerp c mem (c.u2f (xs.length - 1)) = .ok (.error .indexOutOfBound) := by
    rw [lerp_between h h0 h1 (by rw [hg, Bool.and_false]), dif_neg]
    have hu := h.len_lt
    rw [c.f2u_nat (n := xs.length - 1) (c.u2f_not_nan _) (by rw [hv, Nat.cast_sub h1]; simp)
      (by unfold Cfg.usizeMax; omega)]
    omega
  refine ⟨herr, fun hall => ?_⟩
  obtain ⟨r, hr, -⟩ := hall (xs.length - 1) (by omega)
  rw [herr] at hr
  simp at hr

/-- A buffer of 33 samples. -/
def demoMem33 : Mem F32 := fun b => if b = 0 then some (List.replicate 33 (lit 1)) else none

example : Views Cfg.release64 demoMem33 (MemorySlice.fromSlice 0 0 33) (List.replicate 33 (lit 1)) ∧
    33 ≤ (List.replicate 33 (lit 1 : F32)).length ∧ (List.replicate 33 (lit 1 : F32)).length ≤ 2 ^ 24 :=
  ⟨⟨0, [], [], rfl, rfl, by simp [demoMem33], by decide⟩, by decide, by decide⟩

example : Views Cfg.debug64 demoMemF demoSliceF demoSamples ∧ (∀ y ∈ demoSamples, y.isFin = true) ∧
    2 + 1 < demoSamples.length ∧ demoSamples.length ≤ 32 ∧
    demoSliceF.lerp Cfg.debug64 demoMemF (Cfg.debug64.u2f 2) = .ok (.ok (lit 20)) ∧
    demoSliceF.lerp Cfg.debug64 demoMemF (Cfg.debug64.u2f 3) = .ok (.ok (lit 30)) :=
  ⟨demo_viewsF _ (by simp), demoSamples_fin, by decide, by decide, by decide +kernel, by decide +kernel⟩

end Verif
