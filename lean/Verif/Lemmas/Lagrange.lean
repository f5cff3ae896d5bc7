import Verif.Lemmas.Lerp

/-! # Helper lemmas: the Lagrange kernel at its nodes, in float arithmetic -/

namespace Verif
open F32 Interpolation

/-- The inner loop body of `lagrange` for node `i`. -/
def lagStep (i : Nat) (x : F32) (term : F32) (j : Nat) : F32 :=
  if i ≠ j then (term * (x - lit (j : ℚ))) / (lit (i : ℚ) - lit (j : ℚ)) else term

theorem lagrangeTerm_eq (n i : Nat) (yi x : F32) :
    lagrangeTerm n i yi x = (List.range n).foldl (lagStep i x) yi := rfl

theorem litNat_val {n : Nat} (h : n ≤ 2 ^ 24) : (lit (n : ℚ) : F32).val = n := lit_val (rep_nat h)
theorem litNat_fin {n : Nat} (h : n ≤ 2 ^ 24) : (lit (n : ℚ) : F32).isFin = true := lit_fin (rep_nat h)

theorem rep_sub_nat {a b : Nat} (ha : a ≤ 2 ^ 24) (hb : b ≤ 2 ^ 24) : Rep ((a : ℚ) - b) := by
  have := rep_int (n := (a : Int) - b) (by rw [abs_le]; constructor <;> omega)
  push_cast at this; exact this

theorem litSub {i j : Nat} (hi : i ≤ 2 ^ 24) (hj : j ≤ 2 ^ 24) :
    ((lit (i : ℚ) - lit (j : ℚ) : F32)).isFin = true ∧ ((lit (i : ℚ) - lit (j : ℚ) : F32)).val = (i : ℚ) - j := by
  have := sub_exact (litNat_fin hi) (litNat_fin hj) (by rw [litNat_val hi, litNat_val hj]; exact rep_sub_nat hi hj)
  rwa [litNat_val hi, litNat_val hj] at this

variable {x : F32} {k : Nat}

theorem xSub (hxf : x.isFin = true) (hx : x.val = k) {j : Nat} (hk : k ≤ 2 ^ 24) (hj : j ≤ 2 ^ 24) :
    ((x - lit (j : ℚ) : F32)).isFin = true ∧ ((x - lit (j : ℚ) : F32)).val = (k : ℚ) - j := by
  have := sub_exact hxf (litNat_fin hj) (by rw [hx, litNat_val hj]; exact rep_sub_nat hk hj)
  rwa [hx, litNat_val hj] at this

theorem lagStep_zero (hxf : x.isFin = true) (hx : x.val = k) (hk : k ≤ 2 ^ 24) {i j : Nat} (hi : i ≤ 2 ^ 24)
    (hj : j ≤ 2 ^ 24) {t : F32} (htf : t.isFin = true) (h0 : t.val = 0 ∨ (j = k ∧ i ≠ j)) :
    (lagStep i x t j).isFin = true ∧ (lagStep i x t j).val = 0 := by
  unfold lagStep
  by_cases hij : i = j
  · rw [if_neg (by simpa using hij)]
    rcases h0 with h0 | ⟨-, h⟩
    · exact ⟨htf, h0⟩
    · exact absurd hij h
  · rw [if_pos hij]
    obtain ⟨sf, sv⟩ := xSub hxf hx hk hj
    obtain ⟨df, dv⟩ := litSub hi hj
    have hz : t.val * (x - lit (j : ℚ)).val = 0 := by
      rcases h0 with h0 | ⟨h, -⟩
      · rw [h0, zero_mul]
      · rw [sv, h, sub_self, mul_zero]
    obtain ⟨mf, mv⟩ := mul_exact htf sf (by rw [hz]; exact rep_zero)
    rw [hz] at mv
    have hne : (lit (i : ℚ) - lit (j : ℚ) : F32).val ≠ 0 := by
      rw [dv, sub_ne_zero]; exact_mod_cast hij
    have := div_exact mf df hne (by rw [mv, zero_div]; exact rep_zero)
    rwa [mv, zero_div] at this

theorem lagFold_zero (hxf : x.isFin = true) (hx : x.val = k) {i : Nat} (hi : i ≤ 2 ^ 24) (hik : i ≠ k) {y : F32}
    (hpre : ((List.range k).foldl (lagStep i x) y).isFin = true) (m : Nat) (hm : k + 1 + m ≤ 2 ^ 24) :
    ((List.range (k + 1 + m)).foldl (lagStep i x) y).isFin = true ∧
    ((List.range (k + 1 + m)).foldl (lagStep i x) y).val = 0 := by
  induction m with
  | zero =>
    rw [Nat.add_zero, List.range_succ, List.foldl_append]
    exact lagStep_zero hxf hx (by omega) hi (by omega) hpre (Or.inr ⟨rfl, hik⟩)
  | succ m ih =>
    obtain ⟨h1, h2⟩ := ih (by omega)
    rw [← Nat.add_assoc, List.range_succ, List.foldl_append]
    exact lagStep_zero hxf hx (by omega) hi (by omega) h1 (Or.inl h2)

/-- Away from its own node, a term vanishes at a node, provided nothing overflowed before the zero factor. -/
theorem lagrangeTerm_other (hxf : x.isFin = true) (hx : x.val = k) {n i : Nat} (hn : n ≤ 2 ^ 24) (hi : i < n)
    (hk : k < n) (hik : i ≠ k) {y : F32} (hpre : ((List.range k).foldl (lagStep i x) y).isFin = true) :
    (lagrangeTerm n i y x).isFin = true ∧ (lagrangeTerm n i y x).val = 0 := by
  obtain ⟨m, rfl⟩ : ∃ m, n = k + 1 + m := ⟨n - (k + 1), by omega⟩
  exact lagFold_zero hxf hx (by omega) hik hpre m hn

/-- At its own node, a term is its sample, if the products with the node distances are exact. -/
theorem lagrangeTerm_self (hxf : x.isFin = true) (hx : x.val = k) {n : Nat} (hn : n ≤ 2 ^ 24) (hk : k < n)
    {y : F32} (hy : y.isFin = true) (hrep : ∀ j < n, Rep (y.val * ((k : ℚ) - j))) :
    (lagrangeTerm n k y x).isFin = true ∧ (lagrangeTerm n k y x).val = y.val := by
  rw [lagrangeTerm_eq]
  refine List.foldlRecOn (motive := fun t : F32 => t.isFin = true ∧ t.val = y.val) _ _ ⟨hy, rfl⟩ ?_
  rintro t ⟨htf, htv⟩ j hj
  have hj := List.mem_range.1 hj
  unfold lagStep
  by_cases hij : k = j
  · rw [if_neg (by simpa using hij)]; exact ⟨htf, htv⟩
  · rw [if_pos hij]
    obtain ⟨sf, sv⟩ := xSub hxf hx (j := j) (by omega) (by omega)
    obtain ⟨df, dv⟩ := litSub (i := k) (j := j) (by omega) (by omega)
    obtain ⟨mf, mv⟩ := mul_exact htf sf (by rw [htv, sv]; exact hrep j hj)
    have hne : (k : ℚ) - j ≠ 0 := by rw [sub_ne_zero]; exact_mod_cast hij
    have heq : (t * (x - lit (j : ℚ)) : F32).val / (lit (k : ℚ) - lit (j : ℚ) : F32).val = y.val := by
      rw [mv, htv, sv, dv, mul_div_assoc, div_self hne, mul_one]
    have := div_exact mf df (by rw [dv]; exact hne) (by rw [heq]; exact rep_val hy)
    rwa [heq] at this

/-- The whole kernel returns the sample at node `k`. -/
theorem lagrangeSum_node {ys : List F32} (hn : ys.length ≤ 2 ^ 24) (hxf : x.isFin = true) (hx : x.val = k)
    (hk : k < ys.length) (hy : (ys[k]).isFin = true)
    (hrep : ∀ j < ys.length, Rep ((ys[k]).val * ((k : ℚ) - j)))
    (hpre : ∀ i (hi : i < ys.length), i ≠ k → ((List.range k).foldl (lagStep i x) ys[i]).isFin = true) :
    (lagrangeSum ys x).isFin = true ∧ (lagrangeSum ys x).val = (ys[k]).val := by
  have key : ∀ m, m ≤ ys.length →
      let r := (List.range m).foldl
        (fun acc i => acc + lagrangeTerm ys.length i (ys.getD i (lit 0)) x) (lit 0 : F32)
      r.isFin = true ∧ r.val = if k < m then (ys[k]).val else 0 := by
    intro m
    induction m with
    | zero => intro _; simp
    | succ m ih =>
      intro hm
      obtain ⟨rf, rv⟩ := ih (by omega)
      simp only [List.range_succ, List.foldl_append, List.foldl_cons, List.foldl_nil]
      have hget : ys.getD m (lit 0) = ys[m] := by
        rw [List.getD_eq_getElem?_getD, List.getElem?_eq_getElem (by omega)]; rfl
      rw [hget]
      by_cases hmk : m = k
      · subst hmk
        obtain ⟨tf, tv⟩ := lagrangeTerm_self hxf hx hn hk hy hrep
        rw [if_neg (lt_irrefl _)] at rv
        have := add_exact rf tf (by rw [rv, tv, zero_add]; exact rep_val hy)
        rw [rv, tv, zero_add] at this
        rw [if_pos (by omega)]; exact this
      · obtain ⟨tf, tv⟩ := lagrangeTerm_other hxf hx hn (i := m) (by omega) hk hmk (hpre m (by omega) hmk)
        have := add_exact rf tf (by rw [tv, add_zero]; exact rep_val rf)
        rw [tv, add_zero, rv] at this
        refine ⟨this.1, this.2.trans ?_⟩
        by_cases h1 : k < m
        · rw [if_pos h1, if_pos (by omega)]
        · rw [if_neg h1, if_neg (by omega)]
  have := key ys.length le_rfl
  rw [if_pos hk] at this
  exact this

/-- No overflow before the zero factor: few nodes, moderate samples. -/
theorem lagFold_small (hxf : x.isFin = true) (hx : x.val = k) (hk : k ≤ 8) {i : Nat} (hi : i ≤ 8) {y : F32}
    (hyf : y.isFin = true) (hy : |y.val| ≤ 2 ^ 64) {m : Nat} (hm : m ≤ 8) :
    ((List.range m).foldl (lagStep i x) y).isFin = true ∧
    |((List.range m).foldl (lagStep i x) y).val| ≤ 2 ^ (64 + 3 * m) := by
  induction m with
  | zero => simpa using ⟨hyf, hy⟩
  | succ m ih =>
    obtain ⟨tf, tv⟩ := ih (by omega)
    rw [List.range_succ, List.foldl_append]
    simp only [List.foldl_cons, List.foldl_nil]
    generalize (List.range m).foldl (lagStep i x) y = t at tf tv ⊢
    have hpow : (2:ℚ) ^ (64 + 3 * (m + 1)) = 2 ^ (64 + 3 * m) * 8 := by
      rw [show 64 + 3 * (m + 1) = (64 + 3 * m) + 3 by ring, pow_add]; norm_num
    have hr : Rep ((2:ℚ) ^ (64 + 3 * (m + 1))) := by
      refine rep_of_zpow (m := 1) (e := ((64 + 3 * (m + 1) : Nat) : Int)) (by norm_num) (by omega) ?_ ?_
      · rw [zpow_natCast]; simp
      · rw [abs_of_pos (by positivity)]; exact pow_lt_pow_right₀ (by norm_num) (by omega)
    obtain ⟨z, zf, zv⟩ := hr
    have hz : |z.val| = 2 ^ (64 + 3 * (m + 1)) := by rw [zv, abs_of_pos (by positivity)]
    unfold lagStep
    by_cases hij : i = m
    · rw [if_neg (by simpa using hij)]
      refine ⟨tf, tv.trans ?_⟩
      rw [hpow]; have : (0:ℚ) < 2 ^ (64 + 3 * m) := by positivity
      linarith
    · rw [if_pos hij]
      obtain ⟨sf, sv⟩ := xSub hxf hx (j := m) (by omega) (by omega)
      obtain ⟨df, dv⟩ := litSub (i := i) (j := m) (by omega) (by omega)
      have hkm : |(k : ℚ) - m| ≤ 8 := by
        have h1 : |(k : Int) - m| ≤ 8 := by rw [abs_le]; constructor <;> omega
        exact_mod_cast h1
      have him : (1:ℚ) ≤ |(i : ℚ) - m| := by
        have h1 : 1 ≤ |(i : Int) - m| := Int.one_le_abs (by omega)
        exact_mod_cast h1
      have hb : |t.val * (x - lit (m : ℚ)).val| ≤ |z.val| := by
        rw [abs_mul, sv, hz, hpow]
        exact mul_le_mul tv hkm (abs_nonneg _) (by positivity)
      have mf : (t * (x - lit (m : ℚ))).isFin = true := by rw [mul_fin tf sf]; exact rnd_fin zf hb
      have mv : |(t * (x - lit (m : ℚ))).val| ≤ |z.val| := by rw [mul_fin tf sf]; exact rnd_abs_le hb
      have hne : (lit (i : ℚ) - lit (m : ℚ) : F32).val ≠ 0 := by
        rw [dv]; intro h; rw [h] at him; norm_num at him
      have hd : |(t * (x - lit (m : ℚ))).val / (lit (i : ℚ) - lit (m : ℚ) : F32).val| ≤ |z.val| := by
        rw [abs_div, dv]; exact (div_le_self (abs_nonneg _) him).trans mv
      rw [div_fin mf df hne]
      refine ⟨rnd_fin zf hd, ?_⟩
      rw [← hz]; exact rnd_abs_le hd

/-- At position zero the kernel returns the first sample (up to 100 nodes, whole samples up to `2^17`). -/
theorem lagrangeSum_zero {ys : List F32} (hn : ys.length ≤ 100) (hne : 0 < ys.length) (hxf : x.isFin = true)
    (hx : x.val = 0) (hfin : ∀ y ∈ ys, y.isFin = true) {z : Int} (hz : (ys[0]).val = z) (hz17 : |z| ≤ 2 ^ 17) :
    (lagrangeSum ys x).isFin = true ∧ (lagrangeSum ys x).val = (ys[0]).val := by
  refine lagrangeSum_node (k := 0) (by omega) hxf (by simpa using hx) hne (hfin _ (List.getElem_mem _)) ?_ ?_
  · intro j hj
    have : Rep ((z * (0 - j) : Int) : ℚ) := by
      apply rep_int
      rw [abs_mul]
      have : |(0:Int) - j| ≤ 100 := by rw [abs_le]; constructor <;> omega
      nlinarith [abs_nonneg z, abs_nonneg ((0:Int) - j)]
    push_cast at this
    rw [hz]; push_cast; exact this
  · intro i hi _
    simpa using hfin _ (List.getElem_mem _)

/-- At a node the kernel returns that node's sample (up to 8 nodes, whole samples up to `2^20`). -/
theorem lagrangeSum_node_small {ys : List F32} (hn : ys.length ≤ 8) (hxf : x.isFin = true) (hx : x.val = k)
    (hk : k < ys.length) (hys : ∀ y ∈ ys, y.isFin = true ∧ ∃ z : Int, y.val = z ∧ |z| ≤ 2 ^ 20) :
    (lagrangeSum ys x).isFin = true ∧ (lagrangeSum ys x).val = (ys[k]).val := by
  refine lagrangeSum_node (by omega) hxf hx hk (hys _ (List.getElem_mem _)).1 ?_ ?_
  · intro j hj
    obtain ⟨-, z, hz, hz20⟩ := hys _ (List.getElem_mem hk)
    have : Rep ((z * (k - j) : Int) : ℚ) := by
      apply rep_int
      rw [abs_mul]
      have : |(k:Int) - j| ≤ 8 := by rw [abs_le]; constructor <;> omega
      nlinarith [abs_nonneg z, abs_nonneg ((k:Int) - j)]
    push_cast at this
    rw [hz]; exact this
  · intro i hi _
    obtain ⟨hf, z, hz, hz20⟩ := hys _ (List.getElem_mem hi)
    refine (lagFold_small hxf hx (by omega) (by omega) hf ?_ (by omega)).1
    rw [hz]
    have : ((|z| : Int) : ℚ) ≤ ((2 ^ 20 : Int) : ℚ) := by exact_mod_cast hz20
    push_cast at this
    exact this.trans (by norm_num)

/-! ## the four-point kernel is the general one -/

theorem lagrange4_eq (a b d e x : F32) : lagrange4 a b d e x = lagrangeSum [a, b, d, e] x := by
  have d01 : (lit 0 - lit 1 : F32) = lit (-1) := by decide +kernel
  have d02 : (lit 0 - lit 2 : F32) = lit (-2) := by decide +kernel
  have d03 : (lit 0 - lit 3 : F32) = lit (-3) := by decide +kernel
  have d10 : (lit 1 - lit 0 : F32) = lit 1 := by decide +kernel
  have d12 : (lit 1 - lit 2 : F32) = lit (-1) := by decide +kernel
  have d13 : (lit 1 - lit 3 : F32) = lit (-2) := by decide +kernel
  have d20 : (lit 2 - lit 0 : F32) = lit 2 := by decide +kernel
  have d21 : (lit 2 - lit 1 : F32) = lit 1 := by decide +kernel
  have d23 : (lit 2 - lit 3 : F32) = lit (-1) := by decide +kernel
  have d30 : (lit 3 - lit 0 : F32) = lit 3 := by decide +kernel
  have d31 : (lit 3 - lit 1 : F32) = lit 2 := by decide +kernel
  have d32 : (lit 3 - lit 2 : F32) = lit 1 := by decide +kernel
  have r4 : List.range 4 = [0, 1, 2, 3] := by decide
  simp [lagrange4, lagrangeSum, lagrangeTerm, r4, d01, d02, d03, d10, d12, d13, d20, d21, d23, d30, d31, d32]

end Verif
