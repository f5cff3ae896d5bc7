import Verif.Lemmas.Si
import Verif.Props.Sinc
import Verif.Props.FloatMath

/-! # C111: `si` against the real sine integral -/

namespace Verif
open F32 FMath

/-- C111 in full: for arguments up to 4, `si` is within a tenth of the integral of sin(t)/t from 0 to x. -/
def SiFull : Prop :=
  ∀ (checks : Bool) (rem : F32 → F32 → F32), RemContract rem → ∀ x : F32, x.isFin = true → |x.val| ≤ 4 →
    ∃ r, si checks rem x = .ok r ∧ |(r.val : ℝ) - ∫ t in (0:ℝ)..x.val, Real.sinc t| ≤ 1 / 10

/-! ## Rounding -/

theorem rnd_near {s : Bool} {q B : ℚ} (h : |q| ≤ B) (hB : B ≤ 2 ^ 100) :
    (rnd s q).isFin = true ∧ |(rnd s q).val - q| ≤ 1 / 2 ^ 150 + B / 2 ^ 24 := by
  have hf : (rnd s q).isFin = true := rnd_fin_of_lt (lt_of_le_of_lt (h.trans hB) (by norm_num))
  exact ⟨hf, rnd_abs_error hf h⟩

theorem add_near {a b : F32} (ha : a.isFin = true) (hb : b.isFin = true) {B : ℚ} (h : |a.val + b.val| ≤ B) (hB : B ≤ 2 ^ 100) :
    (a + b).isFin = true ∧ |(a + b).val - (a.val + b.val)| ≤ 1 / 2 ^ 150 + B / 2 ^ 24 := by
  rw [add_fin ha hb]; exact rnd_near h hB

theorem mul_near {a b : F32} (ha : a.isFin = true) (hb : b.isFin = true) {B : ℚ} (h : |a.val * b.val| ≤ B) (hB : B ≤ 2 ^ 100) :
    (a * b).isFin = true ∧ |(a * b).val - a.val * b.val| ≤ 1 / 2 ^ 150 + B / 2 ^ 24 := by
  rw [mul_fin ha hb]; exact rnd_near h hB

theorem div_near {a b : F32} (ha : a.isFin = true) (hb : b.isFin = true) (h0 : b.val ≠ 0) {B : ℚ} (h : |a.val / b.val| ≤ B)
    (hB : B ≤ 2 ^ 100) : (a / b).isFin = true ∧ |(a / b).val - a.val / b.val| ≤ 1 / 2 ^ 150 + B / 2 ^ 24 := by
  rw [div_fin ha hb h0]; exact rnd_near h hB

/-- Up to 500 numbers of at most 21 are summed with an error below a third. -/
theorem fold_near (l : List F32) : ∀ (acc : F32) (k : ℕ), acc.isFin = true → |acc.val| ≤ 22 * k → k + l.length ≤ 500 →
    (∀ v ∈ l, v.isFin = true ∧ |v.val| ≤ 21) →
    (l.foldl (· + ·) acc).isFin = true ∧
      |(l.foldl (· + ·) acc).val - (acc.val + (l.map F32.val).sum)| ≤ l.length * (66 / 10 ^ 5) := by
  induction l with
  | nil => intro acc k h1 _ _ _; simp [h1]
  | cons v l ih =>
    intro acc k h1 h2 h3 h4
    obtain ⟨v1, v2⟩ := h4 v (by simp)
    simp only [List.length_cons] at h3
    have hk : (k : ℚ) + 1 ≤ 500 := by exact_mod_cast (by omega : k + 1 ≤ 500)
    have hb : |acc.val + v.val| ≤ 11000 := by
      refine (abs_add_le _ _).trans ?_
      linarith
    obtain ⟨f, e⟩ := add_near h1 v1 hb (by norm_num)
    have e' : |(acc + v).val - (acc.val + v.val)| ≤ 66 / 10 ^ 5 := e.trans (by norm_num)
    have hb' : |(acc + v).val| ≤ 22 * ((k + 1 : ℕ) : ℚ) := by
      have := abs_add_le ((acc + v).val - (acc.val + v.val)) (acc.val + v.val)
      rw [sub_add_cancel] at this
      have h5 := abs_add_le acc.val v.val
      push_cast
      linarith
    obtain ⟨g1, g2⟩ := ih (acc + v) (k + 1) f hb' (by omega) (fun w hw => h4 w (by simp [hw]))
    rw [List.foldl_cons]
    refine ⟨g1, ?_⟩
    rw [List.map_cons, List.sum_cons, List.length_cons]
    push_cast
    rw [abs_le] at g2 e' ⊢
    constructor <;> linarith [g2.1, g2.2, e'.1, e'.2]

theorem fsum_near {l : List F32} (h : l.length ≤ 500) (hv : ∀ v ∈ l, v.isFin = true ∧ |v.val| ≤ 21) :
    (fsum l).isFin = true ∧ |(fsum l).val - (l.map F32.val).sum| ≤ 33 / 100 := by
  obtain ⟨h1, h2⟩ := fold_near l (lit 0) 0 lit0_fin (by rw [lit0_val]; simp) (by omega) hv
  refine ⟨h1, ?_⟩
  rw [lit0_val, zero_add] at h2
  refine h2.trans ?_
  have : (l.length : ℚ) ≤ 500 := by exact_mod_cast h
  linarith

/-! ## The points and the values there -/

/-- The value at a point `y` close to `p`. -/
theorem sinc_point {rem : F32 → F32 → F32} (hrem : RemContract rem) (checks : Bool) {y : F32} (hy : y.isFin = true) {p : ℚ}
    (hp : |p| ≤ 5) (h : |y.val - p| ≤ 1 / 2 ^ 138 + |p| / 2 ^ 23) :
    ∃ r, sinc checks rem y = .ok r ∧ r.isFin = true ∧ |r.val| ≤ 21 ∧
      |(p : ℝ)| * |(r.val : ℝ) - Real.sinc (p : ℝ)| ≤ 31 / 10 ^ 5 := by
  obtain ⟨r, h1, h2, h3, h4⟩ := C110_partial hrem checks hy
  have hpR : |(p : ℝ)| ≤ 5 := by
    have := (Rat.cast_le (K := ℝ)).2 hp; push_cast at this; exact this
  have hR : |(y.val : ℝ) - p| ≤ 1 / 2 ^ 138 + |(p : ℝ)| / 2 ^ 23 := by
    have := (Rat.cast_le (K := ℝ)).2 h; push_cast at this; exact this
  have p0 := abs_nonneg (p : ℝ)
  have s1 := Real.abs_sinc_le_one (p : ℝ)
  have t138 : (1:ℝ) / 2 ^ 138 ≤ 1 / 10 ^ 30 := by norm_num
  have htri : |(p : ℝ)| ≤ |(y.val : ℝ)| + |(y.val : ℝ) - p| := by
    have := abs_sub_abs_le_abs_sub (p : ℝ) y.val
    rw [abs_sub_comm] at this; linarith
  refine ⟨r, h1, h2, ?_, ?_⟩
  · by_cases h0 : y.val = 0
    · rw [h3 h0, lit1_val, abs_one]; norm_num
    rcases le_or_gt |y.val| (1 / 2 ^ 16) with hs | hs
    · obtain ⟨r', a1, a2, a3⟩ := C110_actual hrem checks hy h0 hs
      rw [h1] at a1; injection a1 with a1
      rw [a1, a3, abs_zero]; norm_num
    · have e := h4 h0
      have hs' : 1 / 2 ^ 16 < |(y.val : ℝ)| := by
        have := (Rat.cast_lt (K := ℝ)).2 hs; push_cast at this; exact this
      have e2 : 301 / 10 ^ 6 / |(y.val : ℝ)| ≤ 1975 / 100 := by
        rw [div_le_iff₀ (lt_trans (by norm_num) hs')]; norm_num at hs' ⊢; linarith
      have s2 := Real.abs_sinc_le_one (y.val : ℝ)
      have : |(r.val : ℝ)| ≤ 21 := by
        have := abs_add_le ((r.val : ℝ) - Real.sinc y.val) (Real.sinc y.val)
        rw [sub_add_cancel] at this
        norm_num at e
        linarith
      exact_mod_cast this
  · by_cases h0 : y.val = 0
    · rw [h3 h0, lit1_val]
      rw [h0] at hR
      simp only [Rat.cast_zero, zero_sub, abs_neg, Rat.cast_one] at hR ⊢
      have hp' : |(p : ℝ)| ≤ 1 / 10 ^ 20 := by norm_num at hR t138 ⊢; linarith
      have : |1 - Real.sinc (p : ℝ)| ≤ 2 := by
        rw [abs_le] at s1 ⊢; constructor <;> linarith [s1.1, s1.2]
      refine (mul_le_mul hp' this (abs_nonneg _) (by norm_num)).trans (by norm_num)
    rcases le_or_gt |y.val| (1 / 2 ^ 16) with hs | hs
    · obtain ⟨r', a1, a2, a3⟩ := C110_actual hrem checks hy h0 hs
      rw [h1] at a1; injection a1 with a1
      rw [a1, a3, Rat.cast_zero, zero_sub, abs_neg]
      have hs' : |(y.val : ℝ)| ≤ 1 / 2 ^ 16 := by
        have := (Rat.cast_le (K := ℝ)).2 hs; push_cast at this; exact this
      have hp' : |(p : ℝ)| ≤ 1 / 2 ^ 15 := by norm_num at hs' htri hR t138 ⊢; linarith
      refine (mul_le_mul hp' s1 (abs_nonneg _) (by norm_num)).trans (by norm_num)
    · have e := h4 h0
      have hs' : 1 / 2 ^ 16 < |(y.val : ℝ)| := by
        have := (Rat.cast_lt (K := ℝ)).2 hs; push_cast at this; exact this
      have hy0 : 0 < |(y.val : ℝ)| := lt_trans (by norm_num) hs'
      have hq : |(p : ℝ)| * (301 / 10 ^ 6 / |(y.val : ℝ)|) ≤ 302 / 10 ^ 6 := by
        rw [← mul_div_assoc, div_le_iff₀ hy0]
        norm_num at hs' htri hR t138 ⊢; linarith
      have hl := sinc_lipschitz (y.val : ℝ) p
      have ht := abs_sub_le (r.val : ℝ) (Real.sinc y.val) (Real.sinc p)
      have hd : |(r.val : ℝ) - Real.sinc p| ≤ 301 / 10 ^ 6 / |(y.val : ℝ)| + 14 / 10 ^ 7 := by
        norm_num at e hR t138 ⊢; linarith
      refine (mul_le_mul_of_nonneg_left hd p0).trans ?_
      rw [mul_add]
      norm_num at hq ⊢; linarith

theorem mapM_ok {α β : Type} {f : α → M β} {g : α → β} (l : List α) (h : ∀ a ∈ l, f a = .ok (g a)) :
    l.mapM f = .ok (l.map g) := by
  induction l with
  | nil => rfl
  | cons a l ih =>
    rw [List.mapM_cons, h a (by simp), ih (fun b hb => h b (by simp [hb]))]; rfl

theorem stepBy2_range {β : Type} (g : ℕ → β) : ∀ (n s : ℕ),
    stepBy2 ((List.range' s n).map g) = (List.range ((n + 1) / 2)).map (fun j => g (s + 2 * j))
  | 0, s => by simp [stepBy2]
  | 1, s => by simp [stepBy2]
  | n + 2, s => by
    have ih := stepBy2_range g n (s + 2)
    rw [show List.range' s (n + 2) = s :: (s + 1) :: List.range' (s + 2) n from rfl]
    simp only [List.map_cons, stepBy2]
    rw [ih, show (n + 2 + 1) / 2 = (n + 1) / 2 + 1 by omega, List.range_succ_eq_map, List.map_cons, List.map_map]
    simp only [Function.comp_def, mul_zero, add_zero, List.cons.injEq, true_and]
    refine List.map_congr_left (fun j _ => ?_)
    congr 1; omega

/-- `si` in terms of the values at its 1000 points and at the end. -/
theorem si_shape {checks : Bool} {rem : F32 → F32 → F32} {x h fb : F32} {y : ℕ → F32} (hh : h = (x - lit 0) / lit 1000)
    (hy : ∀ i : ℕ, i < 1000 → sinc checks rem (lit 0 + lit (i : ℚ) * h) = .ok (y i)) (hb : sinc checks rem x = .ok fb) :
    si checks rem x = .ok (h / lit 3 * (lit 1 + lit 4 * fsum ((List.range 500).map (fun j => y (2 * j + 1))) +
      lit 2 * fsum ((List.range 499).map (fun j => y (2 * j + 2))) +
      lit 4 * fsum ((List.range 500).map (fun j => y (2 * j + 1))) + fb)) := by
  have hm : ((List.range 1000).map (fun i : ℕ => lit 0 + lit (i : ℚ) * h)).mapM (sinc checks rem) =
      .ok ((List.range 1000).map y) := by
    have : ((List.range 1000).map (fun i : ℕ => lit 0 + lit (i : ℚ) * h)).mapM (sinc checks rem) =
        (List.range 1000).mapM (fun i : ℕ => sinc checks rem (lit 0 + lit (i : ℚ) * h)) := by
      rw [List.mapM_map]; rfl
    rw [this]
    exact mapM_ok _ (fun i hi => hy i (List.mem_range.1 hi))
  have ha : sinc checks rem (lit 0) = .ok (lit 1) := sinc_zero_arg lit0_fin lit0_val
  unfold si simpsonsRule
  simp only [show (((1000 : ℕ) : ℚ)) = 1000 by norm_num, ← hh, hm, ha, hb, bind, Except.bind, pure, Except.pure]
  rw [if_neg (by norm_num), if_pos (by norm_num)]
  have h1 : ((List.range 1000).map y).drop 1 = (List.range' 1 999).map y := by
    rw [List.range_eq_range', ← List.map_drop, List.drop_range']
  have h2 : (((List.range 1000).map y).take (1000 - 1)).drop 2 = (List.range' 2 997).map y := by
    rw [List.range_eq_range', ← List.map_take, ← List.map_drop, List.take_range'_of_length_ge (by omega), List.drop_range']
  rw [h1, h2, stepBy2_range, stepBy2_range]
  simp only [Nat.add_comm 1, Nat.add_comm 2]

/-- The rounding of the final expression. -/
theorem si_rounding {h s1 s2 fb : F32} {A B : ℚ} (hf : h.isFin = true) (hb : |h.val| ≤ 41 / 10 ^ 4) (f1 : s1.isFin = true)
    (e1 : |s1.val - A| ≤ 33 / 100) (b1 : |A| ≤ 10500) (f2 : s2.isFin = true) (e2 : |s2.val - B| ≤ 33 / 100) (b2 : |B| ≤ 10500)
    (f3 : fb.isFin = true) (b3 : |fb.val| ≤ 21) :
    |(h / lit 3 * (lit 1 + lit 4 * s1 + lit 2 * s2 + lit 4 * s1 + fb)).val - h.val / 3 * (1 + 8 * A + 2 * B + fb.val)| ≤
      5 / 1000 := by
  have v3 : (lit 3 : F32).val = 3 := by decide +kernel
  have g3 : (lit 3 : F32).isFin = true := by decide +kernel
  have v4 : (lit 4 : F32).val = 4 := by decide +kernel
  have g4 : (lit 4 : F32).isFin = true := by decide +kernel
  have A1 := abs_le.1 b1; have A2 := abs_le.1 e1; have B1 := abs_le.1 b2; have B2 := abs_le.1 e2; have F1 := abs_le.1 b3
  have t150 : (1:ℚ) / 2 ^ 150 ≤ 1 / 10 ^ 30 := by norm_num
  obtain ⟨m1f, m1e⟩ := mul_near (B := 2 ^ 16) g4 f1 (by rw [v4, abs_le]; constructor <;> norm_num <;> linarith) (by norm_num)
  have M1 := abs_le.1 m1e
  obtain ⟨m2f, m2e⟩ := mul_near (B := 2 ^ 16) lit2_fin f2 (by rw [lit2_val, abs_le]; constructor <;> norm_num <;> linarith) (by norm_num)
  have M2 := abs_le.1 m2e
  rw [v4] at M1
  rw [lit2_val] at M2
  generalize lit 4 * s1 = m1 at *
  generalize lit 2 * s2 = m2 at *
  norm_num at M1 M2 t150
  obtain ⟨a1f, a1e⟩ := add_near (B := 2 ^ 16) lit1_fin m1f (by rw [lit1_val, abs_le]; constructor <;> norm_num <;> linarith) (by norm_num)
  have E1 := abs_le.1 a1e
  rw [lit1_val] at E1
  generalize lit 1 + m1 = a1 at *
  norm_num at E1
  obtain ⟨a2f, a2e⟩ := add_near (B := 2 ^ 16) a1f m2f (by rw [abs_le]; constructor <;> norm_num <;> linarith) (by norm_num)
  have E2 := abs_le.1 a2e
  generalize a1 + m2 = a2 at *
  norm_num at E2
  obtain ⟨a3f, a3e⟩ := add_near (B := 2 ^ 17) a2f m1f (by rw [abs_le]; constructor <;> norm_num <;> linarith) (by norm_num)
  have E3 := abs_le.1 a3e
  generalize a2 + m1 = a3 at *
  norm_num at E3
  obtain ⟨a4f, a4e⟩ := add_near (B := 2 ^ 17) a3f f3 (by rw [abs_le]; constructor <;> norm_num <;> linarith) (by norm_num)
  have E4 := abs_le.1 a4e
  generalize a3 + fb = a4 at *
  norm_num at E4
  obtain ⟨T, hT⟩ : ∃ T, T = 1 + 8 * A + 2 * B + fb.val := ⟨_, rfl⟩
  have hd : |a4.val - T| ≤ 335 / 100 := by
    rw [hT, abs_le]; constructor <;> linarith
  have ha4 : |a4.val| ≤ 105200 := by
    rw [abs_le]; constructor <;> linarith
  rw [← hT]
  have hb3 : |h.val / 3| ≤ 14 / 10 ^ 4 := by
    rw [abs_div, abs_of_pos (a := (3:ℚ)) (by norm_num)]; norm_num at hb ⊢; linarith
  obtain ⟨h3f, h3e⟩ := div_near (B := 14 / 10 ^ 4) hf g3 (by rw [v3]; norm_num) (by rw [v3]; exact hb3) (by norm_num)
  rw [v3] at h3e
  generalize h / lit 3 = h3 at *
  have h3e' : |h3.val - h.val / 3| ≤ 1 / 10 ^ 10 := h3e.trans (by norm_num)
  have h3b : |h3.val| ≤ 15 / 10 ^ 4 := by
    have := abs_add_le (h3.val - h.val / 3) (h.val / 3)
    rw [sub_add_cancel] at this; norm_num at this h3e' hb3 ⊢; linarith
  have hpr : |h3.val * a4.val| ≤ 256 := by
    rw [abs_mul]
    exact (mul_le_mul h3b ha4 (abs_nonneg _) (by norm_num)).trans (by norm_num)
  obtain ⟨-, re⟩ := mul_near h3f a4f hpr (by norm_num)
  have re' : |(h3 * a4).val - h3.val * a4.val| ≤ 2 / 10 ^ 5 := re.trans (by norm_num)
  have k1 : |h3.val * a4.val - h.val / 3 * a4.val| ≤ 2 / 10 ^ 5 := by
    rw [← sub_mul, abs_mul]
    exact (mul_le_mul h3e' ha4 (abs_nonneg _) (by norm_num)).trans (by norm_num)
  have k2 : |h.val / 3 * a4.val - h.val / 3 * T| ≤ 47 / 10 ^ 4 := by
    rw [← mul_sub, abs_mul]
    exact (mul_le_mul hb3 hd (abs_nonneg _) (by norm_num)).trans (by norm_num)
  rw [abs_le] at re' k1 k2 ⊢
  norm_num at re' k1 k2 ⊢
  constructor <;> linarith [re'.1, re'.2, k1.1, k1.2, k2.1, k2.2]

theorem odd_harmonic : ∑ j ∈ Finset.range 500, (1 : ℚ) / ((2 * j + 1 : ℕ) : ℚ) ≤ 41 / 10 := by decide +kernel
theorem even_harmonic : ∑ j ∈ Finset.range 499, (1 : ℚ) / ((2 * j + 2 : ℕ) : ℚ) ≤ 4 := by decide +kernel

theorem list_sum_range (f : ℕ → ℚ) (n : ℕ) : ((List.range n).map f).sum = ∑ j ∈ Finset.range n, f j := by
  induction n with
  | zero => rfl
  | succ n ih => rw [List.range_succ, List.map_append, List.sum_append, ih, Finset.sum_range_succ]; simp

/-- C111, what `si` computes: five thirds of the sine integral. -/
theorem C111_actual {rem : F32 → F32 → F32} (hrem : RemContract rem) (checks : Bool) {x : F32} (hx : x.isFin = true)
    (hb : |x.val| ≤ 4) :
    ∃ r, si checks rem x = .ok r ∧ |(r.val : ℝ) - 5 / 3 * ∫ t in (0:ℝ)..x.val, Real.sinc t| ≤ 1 / 20 := by
  have t150 : (1:ℚ) / 2 ^ 150 ≤ 1 / 10 ^ 30 := by norm_num
  have v1000 : (lit 1000 : F32).val = 1000 := by decide +kernel
  have g1000 : (lit 1000 : F32).isFin = true := by decide +kernel
  have hsub : (x - lit 0).isFin = true ∧ (x - lit 0).val = x.val := by
    have := sub_exact hx lit0_fin (by rw [lit0_val, sub_zero]; exact rep_val hx)
    rw [lit0_val, sub_zero] at this; exact this
  have hdb : |x.val / 1000| = |x.val| / 1000 := by rw [abs_div, abs_of_pos (a := (1000:ℚ)) (by norm_num)]
  obtain ⟨hf, he⟩ := div_near (B := |x.val| / 1000) hsub.1 g1000 (by rw [v1000]; norm_num) (by rw [v1000, hsub.2, hdb])
    (by norm_num; linarith)
  rw [v1000, hsub.2] at he
  obtain ⟨h, hh⟩ : ∃ h, h = (x - lit 0) / lit 1000 := ⟨_, rfl⟩
  rw [← hh] at hf he
  have hxh : |x.val - 1000 * h.val| ≤ 1 / 2 ^ 139 + |x.val| / 2 ^ 24 := by
    rw [abs_le] at he ⊢
    have : (1:ℚ) / 2 ^ 139 = 2048 * (1 / 2 ^ 150) := by norm_num
    have p : (0:ℚ) < 1 / 2 ^ 150 := by positivity
    rw [this]
    constructor <;> linarith [he.1, he.2]
  have hhb : |h.val| ≤ 41 / 10 ^ 4 := by
    have := abs_add_le (h.val - x.val / 1000) (x.val / 1000)
    rw [sub_add_cancel, hdb] at this
    norm_num at this he t150 ⊢; linarith
  -- the points
  have hpt : ∀ i : ℕ, ∃ r, i < 1000 → sinc checks rem (lit 0 + lit (i : ℚ) * h) = .ok r ∧ r.isFin = true ∧ |r.val| ≤ 21 ∧
      |((i * h.val : ℚ) : ℝ)| * |(r.val : ℝ) - Real.sinc ((i * h.val : ℚ) : ℝ)| ≤ 31 / 10 ^ 5 := by
    intro i
    by_cases hi : i < 1000
    · have vi : (lit (i : ℚ) : F32).val = i := lit_val (rep_nat (by omega))
      have gi : (lit (i : ℚ) : F32).isFin = true := lit_fin (rep_nat (by omega))
      have hiq : (i : ℚ) ≤ 1000 := by exact_mod_cast hi.le
      have hpb : |(i : ℚ) * h.val| ≤ 5 := by
        rw [abs_mul, Nat.abs_cast]
        exact (mul_le_mul hiq hhb (abs_nonneg _) (by norm_num)).trans (by norm_num)
      obtain ⟨mf, me⟩ := mul_near (B := |(i : ℚ) * h.val|) gi hf (by rw [vi]) (hpb.trans (by norm_num))
      rw [vi] at me
      have ha : (lit 0 + lit (i : ℚ) * h).isFin = true ∧ (lit 0 + lit (i : ℚ) * h).val = (lit (i : ℚ) * h).val := by
        have := add_exact lit0_fin mf (by rw [lit0_val, zero_add]; exact rep_val mf)
        rw [lit0_val, zero_add] at this; exact this
      obtain ⟨r, hr⟩ := sinc_point hrem checks ha.1 hpb (by
        rw [ha.2]
        refine me.trans ?_
        have := abs_nonneg ((i : ℚ) * h.val)
        have p : (1:ℚ) / 2 ^ 150 ≤ 1 / 2 ^ 138 := by norm_num
        have q : |(i : ℚ) * h.val| / 2 ^ 24 ≤ |(i : ℚ) * h.val| / 2 ^ 23 := by
          apply div_le_div_of_nonneg_left this (by norm_num) (by norm_num)
        linarith)
      exact ⟨r, fun _ => hr⟩
    · exact ⟨lit 0, fun h => absurd h hi⟩
  choose y hy using hpt
  obtain ⟨fb, hfb, fbf, fbb, fbe⟩ := sinc_point hrem checks hx (p := 1000 * h.val)
    (by rw [abs_mul, abs_of_pos (a := (1000:ℚ)) (by norm_num)]; norm_num at hhb ⊢; linarith)
    (by
      refine hxh.trans ?_
      have h1 := abs_sub_abs_le_abs_sub x.val (1000 * h.val)
      have h2 := abs_nonneg (1000 * h.val)
      have e : (1:ℚ) / 2 ^ 138 = 2 * (1 / 2 ^ 139) := by norm_num
      have p : (0:ℚ) < 1 / 2 ^ 139 := by positivity
      rw [e]
      generalize |1000 * h.val| = P at *
      generalize |x.val| = X at *
      generalize |x.val - 1000 * h.val| = D at *
      generalize (1:ℚ) / 2 ^ 139 = ε at *
      norm_num at hxh ⊢
      linarith)
  have hshape := si_shape hh (fun i hi => (hy i hi).1) hfb
  refine ⟨_, hshape, ?_⟩
  -- the sums
  obtain ⟨A, hA⟩ : ∃ A : ℚ, A = ∑ j ∈ Finset.range 500, (y (2 * j + 1)).val := ⟨_, rfl⟩
  obtain ⟨B, hB⟩ : ∃ B : ℚ, B = ∑ j ∈ Finset.range 499, (y (2 * j + 2)).val := ⟨_, rfl⟩
  have bA : |A| ≤ 10500 := by
    rw [hA]
    refine (Finset.abs_sum_le_sum_abs _ _).trans ?_
    refine (Finset.sum_le_card_nsmul _ _ 21 (fun j hj => (hy _ ?_).2.2.1)).trans (by norm_num)
    have := Finset.mem_range.1 hj; omega
  have bB : |B| ≤ 10500 := by
    rw [hB]
    refine (Finset.abs_sum_le_sum_abs _ _).trans ?_
    refine (Finset.sum_le_card_nsmul _ _ 21 (fun j hj => (hy _ ?_).2.2.1)).trans (by norm_num)
    have := Finset.mem_range.1 hj; omega
  obtain ⟨s1f, s1e⟩ := fsum_near (l := (List.range 500).map (fun j => y (2 * j + 1))) (by simp) (by
    intro v hv
    obtain ⟨j, hj, rfl⟩ := List.mem_map.1 hv
    have := hy (2 * j + 1) (by have := List.mem_range.1 hj; omega)
    exact ⟨this.2.1, this.2.2.1⟩)
  obtain ⟨s2f, s2e⟩ := fsum_near (l := (List.range 499).map (fun j => y (2 * j + 2))) (by simp) (by
    intro v hv
    obtain ⟨j, hj, rfl⟩ := List.mem_map.1 hv
    have := hy (2 * j + 2) (by have := List.mem_range.1 hj; omega)
    exact ⟨this.2.1, this.2.2.1⟩)
  rw [List.map_map, list_sum_range] at s1e s2e
  simp only [Function.comp_apply] at s1e s2e
  rw [← hA] at s1e
  rw [← hB] at s2e
  have hround := si_rounding hf hhb s1f s1e bA s2f s2e bB fbf fbb
  generalize (h / lit 3 * _).val = R at hround ⊢
  have hround' : |(R : ℝ) - h.val / 3 * (1 + 8 * A + 2 * B + fb.val)| ≤ 5 / 1000 := by
    have := (Rat.cast_le (K := ℝ)).2 hround; push_cast at this; exact this
  -- the values
  have hval : ∀ i : ℕ, 1 ≤ i → i < 1000 →
      |(h.val : ℝ)| * |((y i).val : ℝ) - Real.sinc (i * h.val)| ≤ 31 / 10 ^ 5 * (1 / i) := by
    intro i h1 h2
    have := (hy i h2).2.2.2
    push_cast at this
    rw [abs_mul, Nat.abs_cast] at this
    have ip : (0:ℝ) < i := by exact_mod_cast h1
    rw [mul_one_div, le_div_iff₀ ip]
    linarith
  have hdiff : ∀ (n : ℕ) (o : ℕ → ℕ) (C : ℚ), (∀ j < n, 1 ≤ o j ∧ o j < 1000) → ∑ j ∈ Finset.range n, (1 : ℚ) / (o j : ℚ) ≤ C →
      |(h.val : ℝ) * (∑ j ∈ Finset.range n, ((y (o j)).val : ℝ) - ∑ j ∈ Finset.range n, Real.sinc (o j * h.val))| ≤
        31 / 10 ^ 5 * (C : ℝ) := by
    intro n o C ho hC
    rw [← Finset.sum_sub_distrib, Finset.mul_sum]
    refine (Finset.abs_sum_le_sum_abs _ _).trans ?_
    have hC' : ∑ j ∈ Finset.range n, (1 : ℝ) / (o j : ℝ) ≤ C := by
      have := (Rat.cast_le (K := ℝ)).2 hC; push_cast at this; exact this
    refine le_trans ?_ (mul_le_mul_of_nonneg_left hC' (by norm_num))
    rw [Finset.mul_sum]
    refine Finset.sum_le_sum (fun j hj => ?_)
    rw [abs_mul]
    obtain ⟨o1, o2⟩ := ho j (Finset.mem_range.1 hj)
    exact hval _ o1 o2
  have d1 := hdiff 500 (fun j => 2 * j + 1) (41 / 10) (fun j hj => by constructor <;> omega) odd_harmonic
  have d2 := hdiff 499 (fun j => 2 * j + 2) 4 (fun j hj => by constructor <;> omega) even_harmonic
  have cA : (A : ℝ) = ∑ j ∈ Finset.range 500, ((y (2 * j + 1)).val : ℝ) := by rw [hA]; push_cast; rfl
  have cB : (B : ℝ) = ∑ j ∈ Finset.range 499, ((y (2 * j + 2)).val : ℝ) := by rw [hB]; push_cast; rfl
  rw [← cA] at d1
  rw [← cB] at d2
  have d3 : |(h.val : ℝ) * (fb.val - Real.sinc ((1000 * h.val : ℚ) : ℝ))| ≤ 1 / 10 ^ 6 := by
    rw [abs_mul]
    rw [Rat.cast_mul, abs_mul, Rat.cast_ofNat, abs_of_pos (a := (1000:ℝ)) (by norm_num), mul_assoc] at fbe
    rw [Rat.cast_mul, Rat.cast_ofNat]
    norm_num at fbe ⊢; linarith
  -- the quadrature
  have hq := si_panels (h.val : ℝ) 500
  rw [Finset.sum_range_succ (fun j => Real.sinc (((2 * j + 2 : ℕ) : ℝ) * h.val)) 499] at hq
  have e1000 : ((2 * 499 + 2 : ℕ) : ℝ) * h.val = 1000 * h.val := by norm_num
  rw [e1000] at hq
  have hhR : |(h.val : ℝ)| ≤ 41 / 10 ^ 4 := by
    have := (Rat.cast_le (K := ℝ)).2 hhb; push_cast at this; exact this
  have hsq : ((500 : ℕ) : ℝ) * (10 / 3 * (h.val : ℝ) ^ 2) ≤ 29 / 1000 := by
    rw [← sq_abs]
    have := mul_le_mul hhR hhR (abs_nonneg _) (by norm_num)
    rw [sq]; norm_num at this ⊢; linarith
  -- the end
  have hint : |(∫ t in (0:ℝ)..(1000 * h.val), Real.sinc t) - ∫ t in (0:ℝ)..x.val, Real.sinc t| ≤ 1 / 10 ^ 6 := by
    rw [intervalIntegral.integral_interval_sub_left (sinc_integrable _ _) (sinc_integrable _ _)]
    have := intervalIntegral.norm_integral_le_of_norm_le_const (a := (x.val : ℝ)) (b := 1000 * h.val) (C := 1) (f := Real.sinc)
      (fun t _ => by rw [Real.norm_eq_abs]; exact Real.abs_sinc_le_one t)
    rw [Real.norm_eq_abs, one_mul] at this
    refine this.trans ?_
    have hx' : |(x.val : ℝ) - 1000 * h.val| ≤ 1 / 2 ^ 139 + |(x.val : ℝ)| / 2 ^ 24 := by
      have := (Rat.cast_le (K := ℝ)).2 hxh; push_cast at this; exact this
    have hbR : |(x.val : ℝ)| ≤ 4 := by
      have := (Rat.cast_le (K := ℝ)).2 hb; push_cast at this; exact this
    rw [abs_sub_comm]
    refine hx'.trans ?_
    have : (1:ℝ) / 2 ^ 139 ≤ 1 / 10 ^ 30 := by norm_num
    norm_num at this ⊢; linarith
  push_cast at d3 d1 d2 hq
  generalize ∑ j ∈ Finset.range 500, Real.sinc ((2 * (j : ℝ) + 1) * h.val) = SA at *
  generalize ∑ j ∈ Finset.range 499, Real.sinc ((2 * (j : ℝ) + 2) * h.val) = SB at *
  generalize Real.sinc (1000 * (h.val : ℝ)) = SE at *
  generalize (∫ t in (0:ℝ)..(1000 * h.val), Real.sinc t) = I1 at *
  generalize (∫ t in (0:ℝ)..x.val, Real.sinc t) = I2 at *
  generalize (h.val : ℝ) = H at *
  generalize (A : ℝ) = A' at *
  generalize (B : ℝ) = B' at *
  generalize (fb.val : ℝ) = F at *
  generalize (R : ℝ) = R' at *
  rw [abs_le] at hround' d1 d2 d3 hq hint ⊢
  push_cast at hsq
  norm_num at d1 d2
  constructor <;> nlinarith [hround'.1, hround'.2, d1.1, d1.2, d2.1, d2.2, d3.1, d3.2, hq.1, hq.2, hint.1, hint.2]

/-- At 1 the sine integral is at most 1 and five thirds of it are more than 1.5. -/
theorem C111_refuted : ¬ SiFull := by
  intro hfull
  obtain ⟨r, h1, h2⟩ := hfull true mmRem mmRem_contract (lit 1) lit1_fin (by rw [lit1_val]; norm_num)
  obtain ⟨r', h3, h4⟩ := C111_actual mmRem_contract true lit1_fin (by rw [lit1_val]; norm_num)
  rw [h1] at h3
  injection h3 with h3
  rw [← h3] at h4
  rw [lit1_val, Rat.cast_one] at h2 h4
  have lo : (3:ℝ) / 4 ≤ ∫ t in (0:ℝ)..1, Real.sinc t := by
    have := intervalIntegral.integral_mono_on (a := (0:ℝ)) (b := 1) (f := fun _ => (3:ℝ) / 4) (g := Real.sinc) (by norm_num) (by simp)
      (sinc_integrable _ _) (fun t ht => ?_)
    · simpa using this
    · rcases eq_or_lt_of_le ht.1 with h | h
      · rw [← h, Real.sinc_zero]; norm_num
      · rw [Real.sinc_of_ne_zero h.ne', le_div_iff₀ h]
        have := Real.sin_gt_sub_cube h
        nlinarith [ht.2, mul_pos h h, mul_nonneg h.le (sub_nonneg.2 ht.2)]
  rw [abs_le] at h2 h4
  linarith [h2.1, h2.2, h4.1, h4.2]

end Verif
