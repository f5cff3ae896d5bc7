import Verif.Model.FixedPoint
import Verif.Lemmas.SinPoly
import Mathlib.Tactic.IntervalCases
import Mathlib.Tactic.Rify
import Mathlib.Algebra.Order.Floor.Ring

/-! # C58, C59: the fixed-point sine -/

namespace Verif
open FixedPoint

/-! ## Specification: the polynomial evaluated in unbounded integers -/

/-- The published coefficients, lowest order first. -/
def sinCoeffs : List Int := [102944, -42334, 5223, -307, 10]

/-- Horner's rule in `z²` with both divisions by `2^15` rounded down, on unbounded integers. -/
def hornerFloor (z : Int) : List Int → Int
  | [] => 0
  | b :: bs => ((hornerFloor z bs + b) * z / 2 ^ 15) * z / 2 ^ 15

/-- The fixed-point sine of a given degree, on unbounded integers: no width anywhere except the one saturation. -/
def fixedSinSpec (z : Int) (degree : Nat) : Int :=
  max (-2 ^ 31) (min (2 ^ 31 - 1) ((hornerFloor z (sinCoeffs.tail.take degree) + sinCoeffs.head!) * z)) / 2 ^ 16

/-! ## Helpers -/

theorem floor_bound {a z A : Int} (hz : |z| ≤ 2 ^ 15) (ha : |a| ≤ A) : |a * z / 2 ^ 15| ≤ A := by
  have h : |a * z| ≤ A * 2 ^ 15 := by
    rw [abs_mul]; exact mul_le_mul ha hz (abs_nonneg _) ((abs_nonneg _).trans ha)
  rw [abs_le] at h ⊢
  constructor
  · rw [Int.le_ediv_iff_mul_le (by norm_num)]; linarith
  · rw [← Int.lt_add_one_iff, Int.ediv_lt_iff_lt_mul (by norm_num)]; linarith

theorem i32_ok {checks : Bool} {a : Int} (h : |a| ≤ 2 ^ 31 - 1) : i32 checks a = .ok a := by
  unfold i32
  have := abs_le.1 h
  rw [if_pos ⟨by linarith, this.2⟩]

theorem i32_mul_bound {a z A : Int} (hz : |z| ≤ 2 ^ 15) (ha : |a| ≤ A) (hA : A ≤ 65535) : |a * z| ≤ 2 ^ 31 - 1 := by
  rw [abs_mul]
  have : |a| * |z| ≤ A * 2 ^ 15 := mul_le_mul ha hz (abs_nonneg _) ((abs_nonneg _).trans ha)
  have : A * 2 ^ 15 ≤ 65535 * 2 ^ 15 := by linarith
  norm_num at *; linarith

/-- One round of the loop, while the sum stays below `2^16`. -/
theorem sinLoop_step {checks : Bool} {z res b A : Int} {d : Nat} (hz : |z| ≤ 2 ^ 15) (hb : B[d + 1]? = some b)
    (hA : |res + b| ≤ A) (hA' : A ≤ 65535) :
    sinLoop checks z (d + 1) res = sinLoop checks z d (((res + b) * z / 2 ^ 15) * z / 2 ^ 15) := by
  rw [sinLoop, hb]
  have h1 : i32 checks (res + b) = .ok (res + b) := i32_ok (by norm_num; linarith)
  have h2 : i32 checks ((res + b) * z) = .ok ((res + b) * z) := i32_ok (i32_mul_bound hz hA hA')
  have h3 : i32 checks ((res + b) * z / 2 ^ 15 * z) = .ok ((res + b) * z / 2 ^ 15 * z) :=
    i32_ok (i32_mul_bound hz (floor_bound hz hA) hA')
  simp only [shr, N, h1, h2, h3, bind, Except.bind]

theorem horner_bound {z : Int} (hz : |z| ≤ 2 ^ 15) : ∀ bs : List Int, |hornerFloor z bs| ≤ (bs.map fun b => |b|).sum
  | [] => by simp [hornerFloor]
  | b :: bs => by
    refine floor_bound hz (floor_bound hz ((abs_add_le _ _).trans ?_))
    have := horner_bound hz bs
    rw [List.map_cons, List.sum_cons]; linarith

theorem sinLoop_ok {checks : Bool} {z : Int} (hz : |z| ≤ 2 ^ 15) {d : Nat} (hd : d ≤ 4) :
    sinLoop checks z d 0 = .ok (hornerFloor z (sinCoeffs.tail.take d)) := by
  have key : ∀ k, k ≤ d → sinLoop checks z k (hornerFloor z ((sinCoeffs.tail.take d).drop k)) =
      .ok (hornerFloor z (sinCoeffs.tail.take d)) := by
    intro k
    induction k with
    | zero => intro _; rfl
    | succ k ih =>
      intro hk
      obtain ⟨b, hb, hl, hs⟩ : ∃ b, B[k + 1]? = some b ∧
          (sinCoeffs.tail.take d).drop k = b :: (sinCoeffs.tail.take d).drop (k + 1) ∧
          ((((sinCoeffs.tail.take d).drop (k + 1)).map fun b => |b|).sum + |b| ≤ 65535) := by
        have : k < 4 := by omega
        interval_cases k <;> interval_cases d <;> first | omega | exact ⟨_, rfl, rfl, by decide⟩
      have hbound : |hornerFloor z ((sinCoeffs.tail.take d).drop (k + 1)) + b| ≤ 65535 :=
        (abs_add_le _ _).trans (le_trans (by linarith [horner_bound hz ((sinCoeffs.tail.take d).drop (k + 1))]) hs)
      rw [sinLoop_step hz hb hbound le_rfl, ← ih (by omega), hl]
      rfl
  have := key d le_rfl
  rwa [show (sinCoeffs.tail.take d).drop d = [] from List.drop_eq_nil_of_le (by simp)] at this

theorem sinUnchecked_ok {checks : Bool} {z : Int} (h1 : -32768 ≤ z) (h2 : z ≤ 32767) {d : Nat} (hd : d ≤ 4) :
    sinI16Unchecked checks z d = .ok (fixedSinSpec z d) ∧ -32768 ≤ fixedSinSpec z d ∧ fixedSinSpec z d ≤ 32767 := by
  have hz : |z| ≤ 2 ^ 15 := by rw [abs_le]; constructor <;> norm_num <;> linarith
  have hh : |hornerFloor z (sinCoeffs.tail.take d)| ≤ 47874 := by
    refine (horner_bound hz _).trans ?_
    interval_cases d <;> decide
  have hr : -32768 ≤ fixedSinSpec z d ∧ fixedSinSpec z d ≤ 32767 := by
    unfold fixedSinSpec
    generalize (hornerFloor z (sinCoeffs.tail.take d) + sinCoeffs.head!) * z = v
    omega
  refine ⟨?_, hr⟩
  have h3 : i32 checks (hornerFloor z (sinCoeffs.tail.take d) + 102944) = .ok (hornerFloor z (sinCoeffs.tail.take d) + 102944) := by
    refine i32_ok ((abs_add_le _ _).trans ?_)
    norm_num; linarith
  have h4 : asI16 (fixedSinSpec z d) = fixedSinSpec z d := by unfold asI16; omega
  have h5 : shr (satMul (hornerFloor z (sinCoeffs.tail.take d) + 102944) z) (N + 1) = fixedSinSpec z d := rfl
  unfold sinI16Unchecked
  simp only [sinLoop_ok hz hd, h3, bind, Except.bind, h5, h4, pure, Except.pure]

/-! ## C58 -/

/-- C58: every phase and every degree, in both build modes: no overflow, no panic; the value is the unbounded-integer
polynomial of degree `min degree 4`, which fits `i16`, so nothing is lost by the narrowing. -/
theorem C58_sin (checks : Bool) {z : Int} (h1 : -32768 ≤ z) (h2 : z ≤ 32767) (degree : Nat) :
    sinI16 checks z degree = .ok (fixedSinSpec z (min degree 4)) ∧
      -32768 ≤ fixedSinSpec z (min degree 4) ∧ fixedSinSpec z (min degree 4) ≤ 32767 := by
  unfold sinI16
  split
  · rw [min_eq_right (by omega)]; exact sinUnchecked_ok h1 h2 le_rfl
  · rw [min_eq_left (by omega)]; exact sinUnchecked_ok h1 h2 (by omega)

/-- C58: the unchecked function panics exactly for a degree above 4. -/
theorem C58_unchecked_panics (checks : Bool) {z : Int} (h1 : -32768 ≤ z) (h2 : z ≤ 32767) (degree : Nat) :
    sinI16Unchecked checks z degree = .error .panic ↔ 4 < degree := by
  constructor
  · intro h
    by_contra hd
    rw [(sinUnchecked_ok h1 h2 (by omega)).1] at h
    cases h
  · intro h
    obtain ⟨d, rfl⟩ : ∃ d, degree = d + 5 := ⟨degree - 5, by omega⟩
    have : sinLoop checks z (d + 4 + 1) 0 = .error .panic := by
      rw [sinLoop, show B[d + 4 + 1]? = none from List.getElem?_eq_none (by simp [B])]
    unfold sinI16Unchecked
    simp only [show d + 5 = d + 4 + 1 from rfl, this, bind, Except.bind]

example : fixedSinSpec 16384 4 = 23170 := by decide
example : fixedSinSpec 32767 0 = 32767 := by decide
example : sinI16 true (-32768) 200 = .ok (-32768) := by decide

/-! ## C59 -/

/-- Rounding of the two divisions of one round: never up for a non-negative phase. -/
theorem horner_err {z h b : Int} (hz : |z| ≤ 2 ^ 15) :
    ∃ e : ℝ, (((h + b) * z / 2 ^ 15 * z / 2 ^ 15 : Int) : ℝ) = ((h : ℝ) + b) * ((z : ℝ) / 2 ^ 15) ^ 2 + e ∧
      (0 ≤ z → -2 ≤ e ∧ e ≤ 0) ∧ (z ≤ 0 → -1 ≤ e ∧ e ≤ 1) := by
  have fl : ∀ a : Int, ∃ f : ℝ, ((a / 2 ^ 15 : Int) : ℝ) = (a : ℝ) / 2 ^ 15 - f ∧ 0 ≤ f ∧ f ≤ 1 := by
    intro a
    refine ⟨((a % 2 ^ 15 : Int) : ℝ) / 2 ^ 15, ?_, ?_, ?_⟩
    · have : (a : ℝ) = ((2 ^ 15 * (a / 2 ^ 15) + a % 2 ^ 15 : Int) : ℝ) := by rw [Int.mul_ediv_add_emod]
      rw [eq_sub_iff_add_eq, ← mul_left_inj' (show (2 ^ 15 : ℝ) ≠ 0 by positivity), add_mul,
        div_mul_cancel₀ _ (by positivity), div_mul_cancel₀ _ (by positivity), this]
      push_cast; ring
    · have : 0 ≤ a % 2 ^ 15 := Int.emod_nonneg _ (by norm_num)
      exact div_nonneg (by exact_mod_cast this) (by positivity)
    · have : a % 2 ^ 15 ≤ 2 ^ 15 := (Int.emod_lt_of_pos _ (by norm_num)).le
      rw [div_le_one (by positivity)]; exact_mod_cast this
  obtain ⟨f, hf, f0, f1⟩ := fl ((h + b) * z)
  obtain ⟨g, hg, g0, g1⟩ := fl ((h + b) * z / 2 ^ 15 * z)
  refine ⟨-(f * (z / 2 ^ 15)) - g, ?_, ?_, ?_⟩
  · rw [hg]; push_cast at hf ⊢; rw [hf]; ring
  all_goals
    intro h0
    have hz' := abs_le.1 hz
    have t0 : (z : ℝ) / 2 ^ 15 ≤ 1 := by rw [div_le_one (by positivity)]; exact_mod_cast hz'.2
    have t1 : -1 ≤ (z : ℝ) / 2 ^ 15 := by rw [le_div_iff₀ (by positivity)]; have := hz'.1; rify at this; linarith
  · have : 0 ≤ (z : ℝ) / 2 ^ 15 := div_nonneg (by exact_mod_cast h0) (by positivity)
    constructor <;> nlinarith
  · have : (z : ℝ) / 2 ^ 15 ≤ 0 := div_nonpos_of_nonpos_of_nonneg (by exact_mod_cast h0) (by positivity)
    constructor <;> nlinarith

/-- C59: at degree 4 the result is within 5 units of `32768 sin(π/2 · phase/32768)`, for every phase. -/
theorem C59_accurate (checks : Bool) {z : Int} (h1 : -32768 ≤ z) (h2 : z ≤ 32767) :
    ∃ r : Int, sinI16 checks z 4 = .ok r ∧ |(r : ℝ) - 32768 * Real.sin (Real.pi / 2 * (z / 32768))| ≤ 5 := by
  refine ⟨_, (C58_sin checks h1 h2 4).1, ?_⟩
  have hz : |z| ≤ 2 ^ 15 := by rw [abs_le]; constructor <;> norm_num <;> linarith
  obtain ⟨e4, he4, p4, n4⟩ := horner_err (z := z) (h := 0) (b := 10) hz
  obtain ⟨e3, he3, p3, n3⟩ := horner_err (z := z) (h := hornerFloor z [10]) (b := -307) hz
  obtain ⟨e2, he2, p2, n2⟩ := horner_err (z := z) (h := hornerFloor z [-307, 10]) (b := 5223) hz
  obtain ⟨e1, he1, p1, n1⟩ := horner_err (z := z) (h := hornerFloor z [5223, -307, 10]) (b := -42334) hz
  change ((hornerFloor z [10] : Int) : ℝ) = _ at he4
  change ((hornerFloor z [-307, 10] : Int) : ℝ) = _ at he3
  change ((hornerFloor z [5223, -307, 10] : Int) : ℝ) = _ at he2
  change ((hornerFloor z [-42334, 5223, -307, 10] : Int) : ℝ) = _ at he1
  have hspec : fixedSinSpec z (min 4 4) =
      max (-2 ^ 31) (min (2 ^ 31 - 1) ((hornerFloor z [-42334, 5223, -307, 10] + 102944) * z)) / 2 ^ 16 := rfl
  rw [hspec]
  obtain ⟨v, hv⟩ : ∃ v, v = (hornerFloor z [-42334, 5223, -307, 10] + 102944) * z := ⟨_, rfl⟩
  rw [← hv]
  -- integer part: the result is the floor of `v/2^16` unless saturated
  have hr : ∃ r : Int, r = max (-2 ^ 31) (min (2 ^ 31 - 1) v) / 2 ^ 16 := ⟨_, rfl⟩
  obtain ⟨r, hr⟩ := hr
  rw [← hr]
  have rlo : v - 2 ^ 16 < r * 2 ^ 16 ∨ r = 32767 := by omega
  have rhi : r * 2 ^ 16 ≤ v ∨ r = -32768 := by omega
  obtain ⟨t, ht⟩ : ∃ t : ℝ, t = (z : ℝ) / 2 ^ 15 := ⟨_, rfl⟩
  rw [show (z : ℝ) / 32768 = t by rw [ht]; norm_num]
  rw [← ht] at he1 he2 he3 he4
  push_cast at he1 he2 he3 he4
  rw [he4] at he3
  rw [he3] at he2
  rw [he2] at he1
  have hvR : (v : ℝ) = 2 ^ 16 * ((102944 * t - 42334 * t ^ 3 + 5223 * t ^ 5 - 307 * t ^ 7 + 10 * t ^ 9) / 2 +
      t / 2 * (e1 + e2 * t ^ 2 + e3 * t ^ 4 + e4 * t ^ 6)) := by
    have : (z : ℝ) = 2 ^ 15 * t := by rw [ht]; field_simp
    rw [hv]; push_cast; rw [he1, this]; ring
  have S1 := Real.sin_le_one (Real.pi / 2 * t)
  have S2 := Real.neg_one_le_sin (Real.pi / 2 * t)
  rify at rlo rhi
  rw [hvR] at rlo rhi
  clear hvR hv hr he1 he2 he3 he4 hspec
  rw [abs_le]
  rcases le_total 0 z with h0 | h0
  · have t0 : 0 ≤ t := by rw [ht]; exact div_nonneg (by exact_mod_cast h0) (by positivity)
    have t1 : t ≤ 1 - 1 / 32768 := by
      rw [ht, div_le_iff₀ (by positivity)]; rify at h2; norm_num; exact h2
    obtain ⟨q1, q2⟩ := sin_poly t0 (by linarith)
    have hpow : ∀ k, 0 ≤ t ^ k ∧ t ^ k ≤ 1 := fun k => ⟨by positivity, pow_le_one₀ t0 (by linarith)⟩
    have hW : -8 ≤ e1 + e2 * t ^ 2 + e3 * t ^ 4 + e4 * t ^ 6 ∧ e1 + e2 * t ^ 2 + e3 * t ^ 4 + e4 * t ^ 6 ≤ 0 := by
      have a : ∀ e w : ℝ, (-2 ≤ e ∧ e ≤ 0) → (0 ≤ w ∧ w ≤ 1) → -2 ≤ e * w ∧ e * w ≤ 0 := by
        intro e w h h'; constructor <;> nlinarith [h.1, h.2, h'.1, h'.2]
      have a2 := a e2 _ (p2 h0) (hpow 2)
      have a3 := a e3 _ (p3 h0) (hpow 4)
      have a4 := a e4 _ (p4 h0) (hpow 6)
      have a1 := p1 h0
      constructor <;> linarith [a1.1, a1.2, a2.1, a2.2, a3.1, a3.2, a4.1, a4.2]
    have hX : -(4 * t) ≤ t / 2 * (e1 + e2 * t ^ 2 + e3 * t ^ 4 + e4 * t ^ 6) ∧
        t / 2 * (e1 + e2 * t ^ 2 + e3 * t ^ 4 + e4 * t ^ 6) ≤ 0 := by
      constructor <;> nlinarith [hW.1, hW.2]
    generalize t / 2 * (e1 + e2 * t ^ 2 + e3 * t ^ 4 + e4 * t ^ 6) = X at *
    generalize (102944 * t - 42334 * t ^ 3 + 5223 * t ^ 5 - 307 * t ^ 7 + 10 * t ^ 9) / 2 = P at *
    generalize Real.sin (Real.pi / 2 * t) = S at *
    obtain ⟨x1, x2⟩ := hX
    constructor
    · rcases rlo with h | h <;> linarith
    · rcases rhi with h | h <;> linarith
  · have t0 : 0 ≤ -t := by
      rw [ht, neg_nonneg]; exact div_nonpos_of_nonpos_of_nonneg (by exact_mod_cast h0) (by positivity)
    have t1 : -t ≤ 1 := by
      rw [ht, neg_le, le_div_iff₀ (by positivity)]; rify at h1; norm_num; exact h1
    obtain ⟨q1, q2⟩ := sin_poly t0 t1
    rw [mul_neg (Real.pi / 2), Real.sin_neg] at q1 q2
    have hP : (102944 * -t - 42334 * (-t) ^ 3 + 5223 * (-t) ^ 5 - 307 * (-t) ^ 7 + 10 * (-t) ^ 9) / 2 =
        -((102944 * t - 42334 * t ^ 3 + 5223 * t ^ 5 - 307 * t ^ 7 + 10 * t ^ 9) / 2) := by ring
    rw [hP] at q1 q2
    have hpow : ∀ k, 0 ≤ t ^ (2 * k) ∧ t ^ (2 * k) ≤ 1 := fun k => by
      rw [pow_mul]
      have : 0 ≤ t ^ 2 := by positivity
      exact ⟨by positivity, pow_le_one₀ this (by nlinarith)⟩
    have hW : -4 ≤ e1 + e2 * t ^ 2 + e3 * t ^ 4 + e4 * t ^ 6 ∧ e1 + e2 * t ^ 2 + e3 * t ^ 4 + e4 * t ^ 6 ≤ 4 := by
      have a : ∀ e w : ℝ, (-1 ≤ e ∧ e ≤ 1) → (0 ≤ w ∧ w ≤ 1) → -1 ≤ e * w ∧ e * w ≤ 1 := by
        intro e w h h'; constructor <;> nlinarith [h.1, h.2, h'.1, h'.2]
      have a2 := a e2 _ (n2 h0) (hpow 1)
      have a3 := a e3 _ (n3 h0) (hpow 2)
      have a4 := a e4 _ (n4 h0) (hpow 3)
      have a1 := n1 h0
      norm_num at a2 a3 a4
      constructor <;> linarith [a1.1, a1.2, a2.1, a2.2, a3.1, a3.2, a4.1, a4.2]
    have hX : -2 ≤ t / 2 * (e1 + e2 * t ^ 2 + e3 * t ^ 4 + e4 * t ^ 6) ∧
        t / 2 * (e1 + e2 * t ^ 2 + e3 * t ^ 4 + e4 * t ^ 6) ≤ 2 := by
      constructor <;> nlinarith [hW.1, hW.2]
    generalize t / 2 * (e1 + e2 * t ^ 2 + e3 * t ^ 4 + e4 * t ^ 6) = X at *
    generalize (102944 * t - 42334 * t ^ 3 + 5223 * t ^ 5 - 307 * t ^ 7 + 10 * t ^ 9) / 2 = P at *
    generalize Real.sin (Real.pi / 2 * t) = S at *
    obtain ⟨x1, x2⟩ := hX
    constructor
    · rcases rlo with h | h <;> linarith
    · rcases rhi with h | h <;> linarith

example : sinI16 false 10923 4 = .ok 16384 := by decide

end Verif
