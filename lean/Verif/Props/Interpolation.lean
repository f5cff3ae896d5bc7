import Verif.Lemmas.Lagrange
import Verif.Model.Math
import Verif.F32.Extra
import Verif.Lemmas.Blend
import Mathlib.LinearAlgebra.Lagrange

/-! # C46 – C53: interpolation and time conversion -/

namespace Verif
open F32 Interpolation FMath

/-! ## C46, C47 -/

/-- C46: the error of `lerp` is decided by its arguments, in this order, and otherwise it succeeds. -/
theorem C46_errors (a b t : F32) :
    (lerp a b t = .error .inputNaN ↔ a.isNaN = true ∨ b.isNaN = true) ∧
    (lerp a b t = .error .inputInfinite ↔
      ¬ (a.isNaN = true ∨ b.isNaN = true) ∧ (a.isInf = true ∨ b.isInf = true)) ∧
    (lerp a b t = .error .interpolationRange ↔
      a.isFin = true ∧ b.isFin = true ∧ t.isNaN = false ∧ (t.val < 0 ∨ 1 < t.val)) ∧
    ((∃ r, lerp a b t = .ok r) ↔ a.isFin = true ∧ b.isFin = true ∧ (t.isNaN = true ∨ 0 ≤ t.val ∧ t.val ≤ 1)) := by
  have fin : ∀ x : F32, x.isFin = true ↔ x.isNaN = false ∧ x.isInf = false :=
    fun x => ⟨fun h => ⟨isFin.not_nan h, isFin.not_inf h⟩, fun h => isFin_of_not h.1 h.2⟩
  have hr : (F32.lt t (lit 0) || F32.lt (lit 1) t) = true ↔ t.isNaN = false ∧ (t.val < 0 ∨ 1 < t.val) := by
    rw [Bool.or_eq_true, lt_iff, lt_iff, lit0_val, lit1_val]
    have := lit_not_nan 0; have := lit_not_nan 1; tauto
  simp only [fin]
  unfold lerp
  by_cases h1 : (a.isNaN || b.isNaN) = true
  · rw [if_pos h1]; rw [Bool.or_eq_true] at h1
    rcases h1 with h1 | h1 <;> simp [h1]
  rw [if_neg h1]
  rw [Bool.or_eq_true, not_or, Bool.not_eq_true, Bool.not_eq_true] at h1
  by_cases h2 : (a.isInf || b.isInf) = true
  · rw [if_pos h2]; rw [Bool.or_eq_true] at h2
    rcases h2 with h2 | h2 <;> simp [h1, h2]
  rw [if_neg h2]
  rw [Bool.or_eq_true, not_or, Bool.not_eq_true, Bool.not_eq_true] at h2
  by_cases h3 : (F32.lt t (lit 0) || F32.lt (lit 1) t) = true
  · rw [if_pos h3]; rw [hr] at h3
    refine ⟨by simp [h1], by simp [h2], by simpa [h1, h2] using h3, ?_⟩
    simp only [h1, h2, reduceCtorEq, exists_false, and_self, true_and, false_iff]
    rintro (h | h)
    · rw [h3.1] at h; simp at h
    · rcases h3.2 with h' | h' <;> linarith
  · rw [if_neg h3]; rw [hr] at h3
    refine ⟨by simp [h1], by simp [h2], by simpa [h1, h2] using h3, ?_⟩
    simp only [h1, h2, Except.ok.injEq, exists_eq', and_self, true_and, true_iff]
    by_cases hn : t.isNaN = true
    · exact Or.inl hn
    · have hn' : t.isNaN = false := by simpa using hn
      right
      have h4 : ¬ (t.val < 0 ∨ 1 < t.val) := fun h => h3 ⟨hn', h⟩
      rw [not_or, not_lt, not_lt] at h4
      exact h4

example : lerp nan (lit 1) (lit (1/2)) = .error .inputNaN ∧
    lerp (lit 1) inf (lit (1/2)) = .error .inputInfinite ∧
    lerp (lit 1) (lit 1) (lit 2) = .error .interpolationRange := by decide +kernel

/-! ## C48, C49 -/

theorem lerp_ok {a b t : F32} (ha : a.isFin = true) (hb : b.isFin = true)
    (ht : t.isNaN = true ∨ 0 ≤ t.val ∧ t.val ≤ 1) : lerp a b t = .ok (lerpUnchecked a b t) := by
  have h : ∃ r, lerp a b t = .ok r := (C46_errors a b t).2.2.2.2 ⟨ha, hb, ht⟩
  unfold lerp at h ⊢
  split at h
  · simp at h
  · rename_i h1; rw [if_neg h1]
    split at h
    · simp at h
    · rename_i h2; rw [if_neg h2]
      split at h
      · simp at h
      · rename_i h3; rw [if_neg h3]

/-- C48: the endpoints are hit exactly. -/
theorem C48_endpoints {a b t : F32} (ha : a.isFin = true) (hb : b.isFin = true) :
    (t.val = 0 → ∃ r, lerp a b t = .ok r ∧ r.isFin = true ∧ r.val = a.val) ∧
    (t.val = 1 → ∃ r, lerp a b t = .ok r ∧ r.isFin = true ∧ r.val = b.val) := by
  constructor
  · intro h
    have ht : t.isFin = true := fin_of_val (by rw [h]; norm_num)
    exact ⟨_, lerp_ok ha hb (Or.inr (by rw [h]; norm_num)), lerpUnchecked_zero ha hb ht h⟩
  · intro h
    have ht : t.isFin = true := fin_of_val (by rw [h]; norm_num)
    exact ⟨_, lerp_ok ha hb (Or.inr (by rw [h]; norm_num)), lerpUnchecked_one ha hb ht h⟩

example : lerp (lit (3/10)) (lit (7/10)) (lit 0) = .ok (lit (3/10)) ∧
    lerp (lit (3/10)) (lit (7/10)) (lit 1) = .ok (lit (7/10)) := by decide +kernel

/-- C49: finite for all finite arguments, and close to the exact value. -/
theorem C49_lerp {a b t : F32} (ha : a.isFin = true) (hb : b.isFin = true) (h0 : 0 ≤ t.val) (h1 : t.val ≤ 1) :
    ∃ r, lerp a b t = .ok r ∧ r.isFin = true ∧
      |r.val - ((1 - t.val) * a.val + t.val * b.val)| ≤ 3 / 2 ^ 24 * max |a.val| |b.val| + 1 / 2 ^ 148 :=
  ⟨_, lerp_ok ha hb (Or.inr ⟨h0, h1⟩), lerpUnchecked_blend ha hb h0 h1⟩

/-- C49: in exact arithmetic the result lies between the endpoints. -/
theorem C49_between {α : Type} [Field α] [LinearOrder α] [IsStrictOrderedRing α] {a b t : α} (h0 : 0 ≤ t) (h1 : t ≤ 1) :
    min a b ≤ lerpUnchecked a b t ∧ lerpUnchecked a b t ≤ max a b := by
  have e : lerpUnchecked a b t = a * (1 - t) + b * t := by simp [lerpUnchecked, Lit.lit]
  rw [e]
  have := min_le_left a b; have := min_le_right a b; have := le_max_left a b; have := le_max_right a b
  constructor <;> nlinarith

example : (0:ℚ) ≤ 1/3 ∧ (lerpUnchecked (1:ℚ) 4 (1/3)) = 2 := by simp [lerpUnchecked, Lit.lit]; norm_num

/-- C49 where it is tight: the largest float against itself stays finite. -/
example : maxFin.isFin = true ∧ (lit (1/3) : F32).isFin = true ∧
    lerp maxFin maxFin (lit (1/3)) = .ok ⟨0x7f7ffffe#32⟩ := by decide +kernel

/-- C47 in full. -/
def LerpOkIsNumber : Prop := ∀ a b t r : F32, lerp a b t = .ok r → r.isNaN = false

/-- C47 fails: a NaN position passes both range comparisons. -/
theorem C47_nan_refuted : ¬ LerpOkIsNumber := by
  intro h
  have := h (lit 0) (lit 1) nan (lerpUnchecked (lit 0) (lit 1) nan) (lerp_ok lit0_fin lit1_fin (Or.inl isNaN_nan))
  exact absurd this (by decide +kernel)

/-- C47 for every position that is itself a number: the result is even finite. -/
theorem C47_number_partial {a b t r : F32} (ht : t.isNaN = false) (h : lerp a b t = .ok r) : r.isFin = true := by
  obtain ⟨ha, hb, ht'⟩ := (C46_errors a b t).2.2.2.1 ⟨r, h⟩
  rcases ht' with ht' | ⟨h0, h1⟩
  · rw [ht] at ht'; simp at ht'
  · obtain ⟨r', h', hf, -⟩ := C49_lerp ha hb h0 h1
    rw [h] at h'; cases h'; exact hf

/-- C47: exactly the NaN positions give NaN. -/
theorem C47_nan_actual {a b t : F32} (ha : a.isFin = true) (hb : b.isFin = true) (ht : t.isNaN = true) :
    ∃ r, lerp a b t = .ok r ∧ r.isNaN = true := by
  refine ⟨_, lerp_ok ha hb (Or.inl ht), ?_⟩
  unfold lerpUnchecked
  rw [mul_nan_right ht, add_nan_right isNaN_nan]; exact isNaN_nan

/-! ## C50 – C52 -/

section
variable {α : Type} [Field α]

theorem lagrangeTerm_prod (n i : Nat) (y x : α) :
    lagrangeTerm n i y x = y * ∏ j ∈ (Finset.range n).erase i, (((i : α) - j)⁻¹ * (x - j)) := by
  unfold lagrangeTerm
  induction n with
  | zero => simp
  | succ n ih =>
    rw [List.range_succ, List.foldl_append, ih]
    simp only [List.foldl_cons, List.foldl_nil, Lit.lit]
    push_cast
    by_cases h : i = n
    · rw [if_neg (by simpa using h)]
      subst h
      rw [Finset.range_add_one, Finset.erase_insert_eq_erase]
    · rw [if_pos h, Finset.range_add_one, Finset.erase_insert_of_ne (fun e => h e.symm), Finset.prod_insert (by simp)]
      rw [div_eq_mul_inv]; ring

theorem lagrangeSum_sum (ys : List α) (x : α) :
    lagrangeSum ys x = ∑ i ∈ Finset.range ys.length, lagrangeTerm ys.length i (ys.getD i 0) x := by
  have h : ∀ m, (List.range m).foldl (fun acc i => acc + lagrangeTerm ys.length i (ys.getD i (lit 0)) x) (lit 0) =
      ∑ i ∈ Finset.range m, lagrangeTerm ys.length i (ys.getD i 0) x := by
    intro m
    induction m with
    | zero => simp [Lit.lit]
    | succ m ih => rw [List.range_succ, List.foldl_append, ih, Finset.sum_range_succ]; simp [Lit.lit]
  exact h ys.length

/-- C50: the kernel reproduces every polynomial of degree below the number of samples. -/
theorem C50_polynomial [CharZero α] (p : Polynomial α) (n : Nat) (hp : p.degree < n) (x : α) :
    lagrangeSum ((List.range n).map (fun i : Nat => p.eval (i : α))) x = p.eval x := by
  have hinj : Set.InjOn (fun i : Nat => (i : α)) (Finset.range n : Finset Nat) :=
    fun a _ b _ h => Nat.cast_injective h
  rw [Lagrange.eq_interpolate (s := Finset.range n) (v := fun i : Nat => (i : α)) (f := p) hinj (by simpa using hp)]
  conv_lhs => rw [← Lagrange.eq_interpolate (s := Finset.range n) (v := fun i : Nat => (i : α)) (f := p) hinj (by simpa using hp)]
  rw [lagrangeSum_sum, Lagrange.interpolate_apply, Polynomial.eval_finsetSum]
  simp only [List.length_map, List.length_range]
  refine Finset.sum_congr rfl fun i hi => ?_
  have hi := Finset.mem_range.1 hi
  rw [lagrangeTerm_prod, Polynomial.eval_mul, Polynomial.eval_C, Lagrange.basis, Polynomial.eval_prod]
  congr 1
  · simp [List.getD_eq_getElem?_getD, hi]
  · refine Finset.prod_congr rfl fun j _ => ?_
    simp [Lagrange.basisDivisor]

/-- C50: at a node the kernel returns the sample. -/
theorem C50_nodes [CharZero α] (ys : List α) (k : Nat) (hk : k < ys.length) : lagrangeSum ys (k : α) = ys[k] := by
  rw [lagrangeSum_sum, Finset.sum_eq_single k]
  · rw [lagrangeTerm_prod, Finset.prod_eq_one, mul_one]
    · simp [List.getD_eq_getElem?_getD, hk]
    · intro j hj
      have : (k : α) - j ≠ 0 := sub_ne_zero.2 (by
        intro h; exact (Finset.mem_erase.1 hj).1 (Nat.cast_injective h).symm)
      field_simp
  · intro i _ hik
    rw [lagrangeTerm_prod, Finset.prod_eq_zero (i := k) (Finset.mem_erase.2 ⟨hik.symm, Finset.mem_range.2 hk⟩) (by simp),
      mul_zero]
  · intro h; exact absurd (Finset.mem_range.2 hk) h
end

example : (Polynomial.X ^ 2 : Polynomial ℚ).degree < 3 ∧ lagrangeSum [(0:ℚ), 1, 4] (5/2) = 25/4 := by
  constructor
  · rw [Polynomial.degree_X_pow]; norm_num
  · decide +kernel

/-- C51: on a non-empty slice the assertion is the only panic. -/
theorem C51_panics (c : Cfg) {ys : List F32} (hne : 0 < ys.length) (x : F32) :
    (lagrange c ys x = .error .panic ↔ x.isNaN = true ∨ (F32.ofInt ((ys.length - 1 : Nat) : Int)).val < x.val) ∧
    (lagrange c ys x ≠ .error .panic → ∃ r, lagrange c ys x = .ok r) := by
  have hs : c.usub ys.length 1 = .ok (ys.length - 1) := by unfold Cfg.usub; rw [if_pos (by omega)]
  unfold lagrange
  rw [hs]
  simp only [bind, Except.bind]
  have hle : F32.le x (c.u2f (ys.length - 1)) = true ↔
      ¬ (x.isNaN = true ∨ (F32.ofInt ((ys.length - 1 : Nat) : Int)).val < x.val) := by
    rw [le_iff, not_or, not_lt, Bool.not_eq_true]
    unfold Cfg.u2f
    have := ofInt_not_nan ((ys.length - 1 : Nat) : Int)
    tauto
  by_cases h : F32.le x (c.u2f (ys.length - 1)) = true
  · rw [if_pos h]; exact ⟨⟨by simp, fun h' => absurd h' (hle.1 h)⟩, fun _ => ⟨_, rfl⟩⟩
  · rw [if_neg h]; rw [hle, not_not] at h; exact ⟨by simpa using h, fun h' => absurd rfl h'⟩

/-- C51 with the limit spelled out, as long as the length is exact in binary32. -/
theorem C51_panics_small (c : Cfg) {ys : List F32} (hne : 0 < ys.length) (hn : ys.length ≤ 2 ^ 24) (x : F32) :
    lagrange c ys x = .error .panic ↔ x.isNaN = true ∨ (ys.length : ℚ) - 1 < x.val := by
  rw [(C51_panics c hne x).1, ofInt_val (by rw [abs_of_nonneg (by omega)]; omega)]
  rw [Int.cast_natCast, Nat.cast_sub (by omega), Nat.cast_one]

example : lagrange Cfg.debug64 [lit 1, lit 2] (lit (5/4)) = .error .panic ∧
    lagrange Cfg.debug64 [lit 1, lit 2] (lit (1/2)) = .ok (lit (3/2)) := by decide +kernel

/-- C52: the unrolled kernel is the general one, bit for bit, wherever the general one does not panic. -/
theorem C52_four (c : Cfg) (a b d e x : F32) (hx : x.isNaN = false) (h3 : x.val ≤ 3) :
    lagrange c [a, b, d, e] x = .ok (lagrange4 a b d e x) := by
  have hs : c.usub 4 1 = .ok 3 := by unfold Cfg.usub; rw [if_pos (by omega)]
  unfold lagrange
  simp only [List.length_cons, List.length_nil, Nat.zero_add, Nat.reduceAdd]
  rw [hs]
  simp only [bind, Except.bind]
  rw [if_pos, lagrange4_eq]
  rw [le_iff, c.u2f_val (by norm_num)]
  exact ⟨hx, c.u2f_not_nan _, by exact_mod_cast h3⟩

example : (lit (3/2) : F32).isNaN = false ∧ (lit (3/2) : F32).val ≤ 3 ∧
    lagrange4 (lit 0) (lit 1) (lit 4) (lit 9) (lit (3/2)) = (lit (9/4) : F32) := by decide +kernel

/-! ## C53 -/

section
variable {α : Type} [Field α] [CharZero α]

/-- C53 in exact arithmetic. -/
theorem C53_exact (x sr : α) (h : sr ≠ 0) :
    samplesToSeconds (secondsToSamples x sr) sr = x ∧ secondsToSamples (samplesToSeconds x sr) sr = x ∧
    samplesToMillis (millisToSamples x sr) sr = x ∧ millisToSamples (samplesToMillis x sr) sr = x := by
  have : (1000 : α) ≠ 0 := by norm_num
  unfold samplesToSeconds secondsToSamples samplesToMillis millisToSamples
  simp only [Lit.lit]
  push_cast
  refine ⟨?_, ?_, ?_, ?_⟩ <;> field_simp
end

/-- One rounded operation on a normal result. -/
theorem rnd_rel {s : Bool} {q : ℚ} (h0 : 1 / 2 ^ 126 ≤ |q|) (h1 : |q| ≤ 2 ^ 127) :
    (rnd s q).isFin = true ∧ ∃ δ : ℚ, |δ| ≤ 1 / 2 ^ 24 ∧ (rnd s q).val = q * (1 + δ) := by
  have hf : (rnd s q).isFin = true := rnd_fin_of_lt (lt_of_le_of_lt h1 (by norm_num))
  have hq : q ≠ 0 := by rintro rfl; norm_num at h0
  refine ⟨hf, ((rnd s q).val - q) / q, ?_, by field_simp; ring⟩
  rw [abs_div, div_le_iff₀ (abs_pos.2 hq)]
  exact (rnd_rel_error hf h0).trans (le_of_eq (by ring))

theorem rel_bounds {q δ : ℚ} (hδ : |δ| ≤ 1 / 2 ^ 24) : |q| / 2 ≤ |q * (1 + δ)| ∧ |q * (1 + δ)| ≤ 2 * |q| := by
  have h := abs_le.1 hδ
  rw [abs_mul, abs_of_pos (a := 1 + δ) (by linarith)]
  have := abs_nonneg q
  constructor <;> nlinarith

theorem one_add_mul {a b ε δ : ℚ} (ha : |a| ≤ ε) (hb : |b| ≤ δ) : |(1 + a) * (1 + b) - 1| ≤ ε + δ + ε * δ := by
  rw [show (1 + a) * (1 + b) - 1 = a + b + a * b by ring]
  refine (abs_add_le _ _).trans (add_le_add ((abs_add_le _ _).trans (add_le_add ha hb)) ?_)
  rw [abs_mul]; exact mul_le_mul ha hb (abs_nonneg _) ((abs_nonneg _).trans ha)

/-- C53: seconds to samples and back, rounded, when nothing leaves the normal range. -/
theorem C53_seconds {x sr : F32} (hx : x.isFin = true) (hsr : sr.isFin = true) (hx0 : 1 / 2 ^ 125 ≤ |x.val|)
    (hx1 : |x.val| ≤ 2 ^ 126) (hp0 : 1 / 2 ^ 126 ≤ |x.val * sr.val|) (hp1 : |x.val * sr.val| ≤ 2 ^ 127) :
    |(samplesToSeconds (secondsToSamples x sr) sr).val - x.val| ≤ |x.val| / 2 ^ 22 := by
  unfold samplesToSeconds secondsToSamples
  have hs : sr.val ≠ 0 := by intro h; rw [h] at hp0; norm_num at hp0
  rw [mul_fin hx hsr]
  obtain ⟨f1, δ, hδ, e1⟩ := rnd_rel (s := x.neg != sr.neg) hp0 hp1
  rw [div_fin f1 hsr hs, e1]
  have e2 : x.val * sr.val * (1 + δ) / sr.val = x.val * (1 + δ) := by field_simp
  rw [e2]
  obtain ⟨b1, b2⟩ := rel_bounds (q := x.val) hδ
  obtain ⟨-, γ, hγ, e3⟩ := rnd_rel (q := x.val * (1 + δ)) (s := (rnd (x.neg != sr.neg) (x.val * sr.val)).neg != sr.neg)
    (by refine le_trans ?_ b1; linarith) (by linarith)
  rw [e3, show x.val * (1 + δ) * (1 + γ) - x.val = x.val * (δ + γ + δ * γ) by ring, abs_mul, div_eq_mul_inv]
  refine mul_le_mul_of_nonneg_left ?_ (abs_nonneg _)
  have h1 := abs_le.1 hδ; have h2 := abs_le.1 hγ
  rw [abs_le]; constructor <;> nlinarith

/-- C53: milliseconds to samples and back. -/
theorem C53_millis {x sr : F32} (hx : x.isFin = true) (hsr : sr.isFin = true) (hx0 : 1000 / 2 ^ 124 ≤ |x.val|)
    (hx1 : |x.val| ≤ 2 ^ 124) (hp0 : 1000 / 2 ^ 125 ≤ |x.val * sr.val|) (hp1 : |x.val * sr.val| ≤ 2 ^ 126) :
    |(samplesToMillis (millisToSamples x sr) sr).val - x.val| ≤ |x.val| / 2 ^ 21 := by
  unfold samplesToMillis millisToSamples
  have hs : sr.val ≠ 0 := by intro h; rw [h] at hp0; norm_num at hp0
  have kv : (lit 1000 : F32).val = 1000 := lit_val (by simpa using rep_nat (n := 1000) (by norm_num))
  have kf : (lit 1000 : F32).isFin = true := lit_fin (by simpa using rep_nat (n := 1000) (by norm_num))
  rw [mul_fin hx hsr]
  obtain ⟨f1, a, ha, e1⟩ := rnd_rel (q := x.val * sr.val) (s := x.neg != sr.neg) (by linarith) (by linarith)
  obtain ⟨b1, b2⟩ := rel_bounds (q := x.val * sr.val) ha
  generalize rnd (x.neg != sr.neg) (x.val * sr.val) = y at f1 e1 ⊢
  rw [div_fin f1 kf (by rw [kv]; norm_num), kv, e1]
  have g : |x.val * sr.val * (1 + a) / 1000| = |x.val * sr.val * (1 + a)| / 1000 := by rw [abs_div]; norm_num
  obtain ⟨f2, b, hb, e2⟩ := rnd_rel (q := x.val * sr.val * (1 + a) / 1000) (s := y.neg != (lit 1000 : F32).neg)
    (by rw [g]; linarith) (by rw [g]; linarith)
  generalize rnd (y.neg != (lit 1000 : F32).neg) (x.val * sr.val * (1 + a) / 1000) = z at f2 e2 ⊢
  rw [div_fin f2 hsr hs, e2]
  have e3 : x.val * sr.val * (1 + a) / 1000 * (1 + b) / sr.val = x.val * (1 + a) * (1 + b) / 1000 := by field_simp
  rw [e3]
  obtain ⟨c1, c2⟩ := rel_bounds (q := x.val) ha
  obtain ⟨d1, d2⟩ := rel_bounds (q := x.val * (1 + a)) hb
  have g2 : |x.val * (1 + a) * (1 + b) / 1000| = |x.val * (1 + a) * (1 + b)| / 1000 := by rw [abs_div]; norm_num
  obtain ⟨f3, c, hc, e4⟩ := rnd_rel (q := x.val * (1 + a) * (1 + b) / 1000) (s := z.neg != sr.neg)
    (by rw [g2]; linarith) (by rw [g2]; linarith)
  generalize rnd (z.neg != sr.neg) (x.val * (1 + a) * (1 + b) / 1000) = w at f3 e4 ⊢
  rw [mul_fin f3 kf, kv, e4]
  have e5 : x.val * (1 + a) * (1 + b) / 1000 * (1 + c) * 1000 = x.val * (1 + a) * (1 + b) * (1 + c) := by ring
  rw [e5]
  obtain ⟨i1, i2⟩ := rel_bounds (q := x.val * (1 + a) * (1 + b)) hc
  obtain ⟨-, d, hd, e6⟩ := rnd_rel (q := x.val * (1 + a) * (1 + b) * (1 + c)) (s := w.neg != (lit 1000 : F32).neg)
    (by linarith) (by linarith)
  rw [e6, show x.val * (1 + a) * (1 + b) * (1 + c) * (1 + d) - x.val =
    x.val * ((1 + a) * (1 + b) * ((1 + c) * (1 + d)) - 1) by ring, abs_mul, div_eq_mul_inv]
  refine mul_le_mul_of_nonneg_left ?_ (abs_nonneg _)
  have u1 := one_add_mul ha hb
  have u2 := one_add_mul hc hd
  have u3 := one_add_mul u1 u2
  rw [add_sub_cancel, add_sub_cancel] at u3
  exact u3.trans (by norm_num)

example : 1 / 2 ^ 125 ≤ |(lit (1/3) : F32).val| ∧ |(lit (1/3) : F32).val| ≤ 2 ^ 126 ∧
    1000 / 2 ^ 125 ≤ |(lit (1/3) : F32).val * (lit 48000 : F32).val| ∧
    |(lit (1/3) : F32).val * (lit 48000 : F32).val| ≤ 2 ^ 126 := by decide +kernel

end Verif
