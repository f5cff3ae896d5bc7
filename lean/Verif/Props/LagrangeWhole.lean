import Verif.Props.Loudness
import Verif.Props.Delay
import Verif.Props.LagrangeFloat

/-! # C11, C19 for samples of every size; C13 at every position; C05 in release builds

At a whole position the kernel multiplies its first sample by each node distance and divides by it again. -/

namespace Verif
open F32 Interpolation

/-- Multiplying by a whole number and dividing by it again moves a float by at most `2^-23` of itself, subnormals included. -/
theorem mul_div_near {t s d : F32} {m : ℤ} (tf : t.isFin = true) (sf : s.isFin = true) (df : d.isFin = true) (hs : s.val = m) (hd : d.val = m)
    (hm : m ≠ 0) (hb : |t.val| * |(m : ℚ)| ≤ 2 ^ 127) :
    (t * s / d).isFin = true ∧ |(t * s / d).val - t.val| ≤ |t.val| / 2 ^ 23 := by
  have m1 : (1 : ℚ) ≤ |(m : ℚ)| := by exact_mod_cast Int.one_le_abs hm
  have pf : (t * s).isFin = true := by
    rw [mul_fin tf sf, hs]
    exact rnd_fin_of_lt (by rw [abs_mul]; exact lt_of_le_of_lt hb (by norm_num))
  have pe : |(t * s).val - t.val * m| ≤ |t.val * m| / 2 ^ 24 := by
    have pf' := pf
    rw [mul_fin tf sf, hs] at pf' ⊢
    rcases le_or_gt (1 / 2 ^ 126) |t.val * (m : ℚ)| with h | h
    · have := rnd_rel_error pf' h
      exact this
    · obtain ⟨k, hk⟩ := val_units t
      have hr : Rep (t.val * m) := by
        have e : t.val * m = ((k * m : ℤ) : ℚ) / unit := by rw [hk]; push_cast; ring
        rw [e] at h ⊢
        apply rep_subnormal
        have : |((k * m : ℤ) : ℚ)| ≤ 2 ^ 23 := by
          rw [abs_div, abs_of_pos unit_pos, div_lt_iff₀ unit_pos] at h
          refine h.le.trans (le_of_eq ?_)
          unfold unit; norm_num
        exact_mod_cast this
      rw [hr.rnd_val, sub_self, abs_zero]; positivity
  have m0 : (m : ℚ) ≠ 0 := by exact_mod_cast hm
  have qe : |(t * s).val / m - t.val| ≤ |t.val| / 2 ^ 24 := by
    rw [show (t * s).val / m - t.val = ((t * s).val - t.val * m) / m by field_simp, abs_div, div_le_iff₀ (by linarith)]
    refine pe.trans (le_of_eq ?_)
    rw [abs_mul]; ring
  have tb : |t.val| ≤ 2 ^ 127 := le_trans (le_mul_of_one_le_right (abs_nonneg _) m1) hb
  have qb : |(t * s).val / m| < 2 ^ 128 - 2 ^ 103 := by
    have h1 := abs_sub_abs_le_abs_sub ((t * s).val / m) t.val
    have : |t.val| / 2 ^ 24 ≤ 2 ^ 127 / 2 ^ 24 := div_le_div_of_nonneg_right tb (by positivity)
    have h2 : (2 ^ 127 : ℚ) + 2 ^ 127 / 2 ^ 24 < 2 ^ 128 - 2 ^ 103 := by norm_num
    linarith
  rw [div_fin pf df (by rw [hd]; exact m0), hd]
  have rf := rnd_fin_of_lt (s := (t * s).neg != d.neg) qb
  refine ⟨rf, ?_⟩
  have hn := rnd_nearest rf (y := t)
  rw [abs_sub_comm t.val] at hn
  have h3 := abs_sub_le (rnd ((t * s).neg != d.neg) ((t * s).val / m)).val ((t * s).val / m) t.val
  have : |t.val| / 2 ^ 23 = |t.val| / 2 ^ 24 + |t.val| / 2 ^ 24 := by ring
  linarith

/-- A term at its own node. -/
theorem lagrangeTerm_near {x : F32} {k : ℕ} (hxf : x.isFin = true) (hx : x.val = k) {n : ℕ} (hn : n ≤ 100) (hk : k < n) {y : F32}
    (hy : y.isFin = true) (hb : |y.val| ≤ 2 ^ 119) :
    (lagrangeTerm n k y x).isFin = true ∧ |(lagrangeTerm n k y x).val - y.val| ≤ n / 2 ^ 22 * |y.val| := by
  rw [lagrangeTerm_eq]
  have key : ∀ m ≤ n, ((List.range m).foldl (lagStep k x) y).isFin = true ∧
      |((List.range m).foldl (lagStep k x) y).val - y.val| ≤ m / 2 ^ 22 * |y.val| := by
    intro m
    induction m with
    | zero => intro _; simpa using hy
    | succ m ih =>
      intro hm
      obtain ⟨tf, te⟩ := ih (by omega)
      rw [List.range_succ, List.foldl_append]
      simp only [List.foldl_cons, List.foldl_nil]
      generalize (List.range m).foldl (lagStep k x) y = t at tf te ⊢
      have y0 := abs_nonneg y.val
      have hmq : (m : ℚ) ≤ 100 := by exact_mod_cast (by omega : m ≤ 100)
      have hb2 : (m : ℚ) / 2 ^ 22 * |y.val| ≤ 1 * |y.val| :=
        mul_le_mul_of_nonneg_right (by rw [div_le_iff₀ (by norm_num)]; linarith) y0
      have ht : |t.val| ≤ 2 * |y.val| := by have := abs_sub_abs_le_abs_sub t.val y.val; linarith
      unfold lagStep
      by_cases hij : k = m
      · rw [if_neg (by simpa using hij)]
        refine ⟨tf, te.trans (mul_le_mul_of_nonneg_right ?_ y0)⟩
        push_cast
        exact div_le_div_of_nonneg_right (by linarith) (by norm_num)
      · rw [if_pos hij]
        obtain ⟨sf, sv⟩ := xSub hxf hx (j := m) (by omega) (by omega)
        obtain ⟨df, dv⟩ := litSub (i := k) (j := m) (by omega) (by omega)
        have hne : (k : ℤ) - m ≠ 0 := by omega
        have hab : |(((k : ℤ) - m : ℤ) : ℚ)| ≤ 100 := by
          have : |(k : ℤ) - m| ≤ 100 := by rw [abs_le]; constructor <;> omega
          exact_mod_cast this
        obtain ⟨rf, re⟩ := mul_div_near tf sf df (m := (k : ℤ) - m) (by rw [sv]; push_cast; rfl) (by rw [dv]; push_cast; rfl) hne
          (le_trans (mul_le_mul ht hab (abs_nonneg _) (by positivity)) (by linarith))
        refine ⟨rf, ?_⟩
        have h3 := abs_sub_le (t * (x - lit (m : ℚ)) / (lit (k : ℚ) - lit (m : ℚ))).val t.val y.val
        have h4 : |t.val| / 2 ^ 23 ≤ 2 * |y.val| / 2 ^ 23 := div_le_div_of_nonneg_right ht (by norm_num)
        push_cast
        rw [add_div, add_mul]
        linarith
  exact key n le_rfl

/-- At position zero the kernel returns the first sample up to rounding. -/
theorem lagrangeSum_zero_near {x : F32} {ys : List F32} (hn : ys.length ≤ 100) (hne : 0 < ys.length) (hxf : x.isFin = true)
    (hx : x.val = 0) (hfin : ∀ y ∈ ys, y.isFin = true) (hb : |(ys[0]).val| ≤ 2 ^ 119) :
    (lagrangeSum ys x).isFin = true ∧ |(lagrangeSum ys x).val - (ys[0]).val| ≤ ys.length / 2 ^ 22 * |(ys[0]).val| := by
  have hx0 : x.val = ((0 : ℕ) : ℚ) := by simpa using hx
  obtain ⟨sf, se⟩ := lagrangeTerm_near hxf hx0 hn hne (hfin _ (List.getElem_mem hne)) hb
  have key : ∀ m, m ≤ ys.length →
      let r := (List.range m).foldl (fun acc i => acc + lagrangeTerm ys.length i (ys.getD i (lit 0)) x) (lit 0 : F32)
      r.isFin = true ∧ r.val = if 0 < m then (lagrangeTerm ys.length 0 (ys[0]) x).val else 0 := by
    intro m
    induction m with
    | zero => intro _; simp
    | succ m ih =>
      intro hm
      obtain ⟨rf, rv⟩ := ih (by omega)
      simp only [List.range_succ, List.foldl_append, List.foldl_cons, List.foldl_nil]
      have hget : ys.getD m (lit 0) = ys[m] := by
        rw [List.getD_eq_getElem?_getD, List.getElem?_eq_getElem (by omega)]; rfl
      rw [hget]
      by_cases hmk : m = 0
      · subst hmk
        rw [if_neg (lt_irrefl _)] at rv
        have := add_exact rf sf (by rw [rv, zero_add]; exact rep_val sf)
        rw [rv, zero_add] at this
        rw [if_pos (by omega)]; exact this
      · obtain ⟨tf, tv⟩ := lagrangeTerm_other hxf hx0 (by omega) (i := m) (n := ys.length) (by omega) hne hmk (y := ys[m])
          (hfin _ (List.getElem_mem _))
        have := add_exact rf tf (by rw [tv, add_zero]; exact rep_val rf)
        rw [tv, add_zero, rv] at this
        refine ⟨this.1, this.2.trans ?_⟩
        rw [if_pos (by omega), if_pos (by omega)]
  obtain ⟨h1, h2⟩ := key ys.length le_rfl
  rw [if_pos hne] at h2
  refine ⟨h1, ?_⟩
  show |((List.range ys.length).foldl (fun acc i => acc + lagrangeTerm ys.length i (ys.getD i (lit 0)) x) (lit 0 : F32)).val - _| ≤ _
  rw [h2]; exact se

variable {c : Cfg} {mem : Mem F32} {s : MemorySlice} {xs : List F32} {floor : F32 → F32} {x : F32}

/-- C11: what `lagrange_wrapped` returns at a whole position `i` for a window of `w`, samples of any size: the sample at `i - w/2 + 1`
up to `min w 100` roundings. -/
theorem C11_near_actual (h : Views c mem s xs) (hx : xs ≠ []) (hfin : ∀ y ∈ xs, y.isFin = true ∧ |y.val| ≤ 2 ^ 119)
    (hf : FloorContract floor) (hm : Moderate x) {i : Int} (hxi : x.val = i) (hlo : c.isizeMin ≤ i - 49)
    (hhi : i + 50 ≤ c.isizeMax) {w : Nat} (hw : 2 ≤ w) :
    ∃ r, s.lagrangeWrapped c mem floor x w = .ok r ∧ r.isFin = true ∧
      |r.val - (wrapAt xs hx (i - (min w 100 / 2 : Nat) + 1)).val| ≤
        (min w 100 : ℕ) / 2 ^ 22 * |(wrapAt xs hx (i - (min w 100 / 2 : Nat) + 1)).val| := by
  have hfl : ⌊x.val⌋ = i := by rw [hxi, Int.floor_intCast]
  obtain ⟨t, t1, t2, e⟩ := C12_lagrange_wrapped h hx hf hm (by rwa [hfl]) (by rwa [hfl]) hw
  rw [hxi, Int.fract_intCast] at t2
  have t0 : t.val = 0 := t2.trans (rnd_val_zero _)
  rw [hfl] at e
  have hlen := lagrangeNodes_length xs hx i w
  have hne : 0 < (lagrangeNodes xs hx i w).length := by omega
  have h0 : (lagrangeNodes xs hx i w)[0] = wrapAt xs hx (i - (min w 100 / 2 : Nat) + 1) := by
    have hpos : 0 < 2 * (min w 100 / 2) := by omega
    simp only [lagrangeNodes]
    rw [List.getElem_append_left (by simpa [wrapRun] using hpos)]
    simp [wrapRun]
  have hfin' : ∀ y ∈ lagrangeNodes xs hx i w, y.isFin = true ∧ |y.val| ≤ 2 ^ 119 := by
    intro y hy
    simp only [lagrangeNodes, List.mem_append, wrapRun, List.mem_map, List.mem_replicate] at hy
    rcases hy with ⟨k, -, rfl⟩ | ⟨-, rfl⟩
    · exact hfin _ (List.getElem_mem _)
    · exact ⟨lit0_fin, by simp⟩
  have := lagrangeSum_zero_near (ys := lagrangeNodes xs hx i w) (by omega) hne t1 t0 (fun y hy => (hfin' y hy).1)
    (hfin' _ (List.getElem_mem _)).2
  rw [hlen, h0] at this
  exact ⟨_, e, this⟩

/-- C19: what the Lagrange read of a delay line returns at a whole offset `o`, samples of any size: the plain read at `o - 1`, one sample
older, up to five roundings. -/
theorem C19_near_actual {d : DelayLine} {q : List F32} (h : Holds c mem d q) (hfin : ∀ y ∈ q, y.isFin = true ∧ |y.val| ≤ 2 ^ 119)
    (hf : FloorContract floor) {off : F32} {o : Int} (hof : off.isFin = true) (hov : off.val = o)
    (hlen : q.length ≤ 2 ^ 23) (ho : |(d.index : Int) + o| ≤ 2 ^ 23)
    (hlo : c.isizeMin ≤ d.index + o - 49) (hhi : d.index + o + 50 ≤ c.isizeMax) :
    ∃ r r', d.readLagrangeWrappedAt c floor mem off = .ok r ∧ d.readWrappedAt c mem (o - 1) = .ok r' ∧
      r.isFin = true ∧ |r.val - r'.val| ≤ 5 / 2 ^ 22 * |r'.val| := by
  have hidx := h.idx_lt
  obtain ⟨hm, hv⟩ := cursor_add c (n := d.index) hof hov (by omega) ho
  obtain ⟨xs, hvw, hix, rfl⟩ := h
  have hx : xs ≠ [] := by rintro rfl; simp at hix
  obtain ⟨r, e1, hrf, hrv⟩ := C11_near_actual hvw hx (fun y hy => hfin y (by
    have : y ∈ xs.take d.index ++ xs.drop d.index := by rw [List.take_append_drop]; exact hy
    rw [List.mem_append] at this ⊢; exact this.symm)) hf hm hv hlo hhi (w := 5) (by norm_num)
  refine ⟨r, _, e1, ?_, hrf, by simpa using hrv⟩
  unfold DelayLine.readWrappedAt
  have := hvw.len_le'
  rw [c.asIsize_eq (by omega), c.iadd_eq ⟨by omega, by omega⟩]
  simp only [bind, Except.bind]
  rw [hvw.getWrapped hx]
  congr 2
  ring

/-- The roundings are there: three times a float over three need not be that float. -/
example : ∃ y : F32, y * lit 3 / lit 3 ≠ y ∧ |(y * lit 3 / lit 3).val - y.val| ≤ |y.val| / 2 ^ 23 := by
  refine ⟨lit 11396606, ?_, ?_⟩ <;> decide +kernel

/-- C05: the release build with `offset + n` beyond `usize`. Every such window is granted, serves the parent's samples where there are any,
and reaches out of the block. -/
theorem C05_sub_slice_inside_actual {α : Type} {c : Cfg} {mem : Mem α} {s : MemorySlice} {xs : List α} (h : Views c mem s xs)
    (hc : c.checks = false) {o n : ℕ} (ho : o < xs.length) (hn : n ≤ c.usizeMax) (hov : c.usizeMax < o + n) :
    ∃ s', s.getSubSlice c mem o n = .ok (.ok s') ∧ s'.length = n ∧
      (∀ i (hi : o + i < xs.length), s'.get mem i = .ok (.ok xs[o + i])) ∧
      ∃ k < n, ∀ i, k ≤ i → i < n → s'.get mem i = .error .ub := by
  have hpos : 0 < 2 ^ c.w := by positivity
  unfold Cfg.usizeMax at hn hov
  obtain ⟨b, pre, post, hp, hl, hm, hf⟩ := h
  have hT : (pre ++ xs ++ post).length < 2 ^ c.w := c.lt_pow_of_le_isizeMax (by omega)
  have hT' : (pre ++ xs ++ post).length = pre.length + xs.length + post.length := by simp; omega
  have hg : s.getSubSlice c mem o n = .ok (.ok ⟨⟨some b, pre.length + o⟩, n⟩) := by
    have hu : c.uadd o n = .ok (o + n - 2 ^ c.w) := by
      unfold Cfg.uadd
      rw [if_neg (by omega), hc]
      simp only [Bool.false_eq_true, if_false]
      rw [Nat.mod_eq_sub_mod (by omega), Nat.mod_eq_of_lt (by omega)]
    have ha : s.ptr.add mem o = .ok ⟨some b, pre.length + o⟩ := by
      unfold Ptr.add
      split
      · rename_i h0; subst h0; rw [hp]; rfl
      · simp only [hp, hm, List.length_append]
        rw [if_pos (by omega)]
    unfold MemorySlice.getSubSlice
    simp only [hl, hu, ha, bind, Except.bind, pure, Except.pure]
    rw [if_neg (by omega), if_neg (by omega)]
  refine ⟨_, hg, rfl, fun i hi => ?_, xs.length + post.length - o, by omega, fun i h1 h2 => ?_⟩
  · unfold MemorySlice.get MemorySlice.getUnchecked load
    simp only [hm, bind, Except.bind, pure, Except.pure]
    rw [if_neg (by omega), List.append_assoc, List.getElem?_append_right (by omega), List.getElem?_append_left (by omega),
      List.getElem?_eq_getElem (by omega)]
    simp only [show pre.length + o + i - pre.length = o + i by omega]
  · unfold MemorySlice.get MemorySlice.getUnchecked load
    simp only [hm, bind, Except.bind, pure, Except.pure]
    rw [if_neg (by omega), List.getElem?_eq_none (by omega)]

example : ∃ s', demoSlice.getSubSlice Cfg.release64 demoMem 2 (2 ^ 64 - 2) = .ok (.ok s') ∧ s'.get demoMem 0 = .ok (.ok 40) ∧
    s'.get demoMem 1 = .ok (.ok 50) ∧ s'.get demoMem 2 = .error .ub := ⟨⟨⟨some 0, 3⟩, 2 ^ 64 - 2⟩, by rfl, by rfl, by rfl, by rfl⟩

/-! ## C13 at every position -/

/-- C13: what the code does at any position: the four right samples, but the cubic is evaluated at the position itself, far outside the
nodes for positions beyond 3. -/
theorem C13_position_actual {c : Cfg} {mem : Mem F32} {s : MemorySlice} {xs : List F32} {floor : F32 → F32} {x : F32} (h : Views c mem s xs)
    (hx : xs ≠ []) (hf : FloorContract floor) (hm : Moderate x) (hi : c.IsIsize ⌊x.val⌋) (hi3 : c.IsIsize (⌊x.val⌋ + 3)) :
    s.lagrangeFourPointsWrapped c mem floor x = .ok (lagrange4 (wrapAt xs hx ⌊x.val⌋) (wrapAt xs hx (⌊x.val⌋ + 1))
      (wrapAt xs hx (⌊x.val⌋ + 2)) (wrapAt xs hx (⌊x.val⌋ + 3)) x) := four_points_eq h hx hf hm hi hi3

/-- C13: between the nodes this is, up to rounding, the cubic through the four samples at `x`; the claim asks for it at the fractional
part of `x`. -/
theorem C13_cubic_actual {c : Cfg} {mem : Mem F32} {s : MemorySlice} {xs : List F32} {floor : F32 → F32} {x : F32} {M : ℚ} (h : Views c mem s xs)
    (hx : xs ≠ []) (hf : FloorContract floor) (hfin : ∀ y ∈ xs, y.isFin = true ∧ |y.val| ≤ M) (M1 : M ≤ 2 ^ 60) (hxf : x.isFin = true)
    (x0 : 0 ≤ x.val) (x3 : x.val ≤ 3) {p : Polynomial ℚ} (hp : p.degree < 4)
    (ps : ∀ j : ℕ, j ≤ 3 → p.eval (j : ℚ) = (wrapAt xs hx (⌊x.val⌋ + j)).val) :
    ∃ r, s.lagrangeFourPointsWrapped c mem floor x = .ok r ∧ r.isFin = true ∧ |r.val - p.eval x.val| ≤ M / 2 ^ 13 + 1 / 2 ^ 139 := by
  have hw : ∀ j, (wrapAt xs hx j).isFin = true ∧ |(wrapAt xs hx j).val| ≤ M := fun j => hfin _ (by unfold wrapAt; exact List.getElem_mem _)
  have f0 : 0 ≤ ⌊x.val⌋ := Int.floor_nonneg.2 x0
  have f3 : ⌊x.val⌋ ≤ 3 := by
    have : (⌊x.val⌋ : ℚ) ≤ 3 := (Int.floor_le _).trans x3
    exact_mod_cast this
  have hc := c.pow_pred_ge
  have e := four_points_eq (c := c) h hx hf (x := x) ⟨hxf, by rw [abs_of_nonneg x0]; exact x3.trans (by norm_num)⟩
    (by unfold Cfg.IsIsize Cfg.isizeMin Cfg.isizeMax; omega) (by unfold Cfg.IsIsize Cfg.isizeMin Cfg.isizeMax; omega)
  have p0 := ps 0 (by norm_num)
  have p1 := ps 1 (by norm_num)
  have p2 := ps 2 (by norm_num)
  have p3 := ps 3 (by norm_num)
  norm_num at p0 p1 p2 p3
  obtain ⟨r, -, er, rf, re⟩ := C133_accuracy c (hw _).1 (hw _).1 (hw _).1 (hw _).1 (hw _).2 (hw _).2 (hw _).2 (hw _).2 M1 hxf x0 x3 hp p0 p1 p2 p3
  exact ⟨r, by rw [e, er], rf, re⟩

/-- On the samples 0, 1, 4, 9, 16, … position 3/2 returns the square of the position counted from sample 1, `(1 + 3/2)² = 6.25`, not
`(3/2)² = 2.25`. -/
example : (lagrange4 (lit 1) (lit 4) (lit 9) (lit 16) (lit (3/2)) : F32).val = 25 / 4 := by decide +kernel

/-! ## C50, C51: the value of `lagrange` -/

/-- C51: where it does not panic, `lagrange` returns the sum that C50 evaluates. -/
theorem C51_value (c : Cfg) {ys : List F32} (hne : 0 < ys.length) {x : F32} (hx : x.isNaN = false)
    (hb : x.val ≤ (F32.ofInt ((ys.length - 1 : ℕ) : ℤ)).val) : lagrange c ys x = .ok (lagrangeSum ys x) := by
  have hs : c.usub ys.length 1 = .ok (ys.length - 1) := by unfold Cfg.usub; rw [if_pos (by omega)]
  unfold lagrange
  rw [hs]
  simp only [bind, Except.bind]
  rw [if_pos]
  rw [le_iff]
  exact ⟨hx, ofInt_not_nan _, hb⟩

end Verif
