import Verif.Lemmas.Lagrange
import Verif.Props.SliceInterp

/-! # C10-C13: circular interpolated access to slices -/

namespace Verif
open F32 Interpolation

variable {c : Cfg} {mem : Mem F32} {s : MemorySlice} {xs : List F32} {floor : F32 → F32} {x : F32}

/-- `x` is finite and of size at most `2^23`. -/
def Moderate (x : F32) : Prop := x.isFin = true ∧ |x.val| ≤ 2 ^ 23

theorem floor_index (hf : FloorContract floor) (hx : Moderate x) (hi : c.IsIsize ⌊x.val⌋) :
    c.f2i (floor x) = ⌊x.val⌋ := by
  obtain ⟨h1, h2⟩ := hf x hx.1 hx.2
  exact c.f2i_int (isFin.not_nan h1) h2 hi

/-- The float the code uses as fractional position: the correctly rounded fractional part. -/
theorem frac_spec (c : Cfg) (hx : Moderate x) :
    (x - c.i2f ⌊x.val⌋).isFin = true ∧ (x - c.i2f ⌊x.val⌋).val = (F32.ofRat (Int.fract x.val)).val := by
  have hfl := abs_floor_le hx.2
  have h24 : |⌊x.val⌋| ≤ 2 ^ 24 := by omega
  rw [sub_fin hx.1 (c.i2f_fin h24), c.i2f_val h24]
  have h1 := Int.fract_lt_one x.val
  have h0 := Int.fract_nonneg x.val
  refine ⟨?_, le_antisymm (rnd_mono le_rfl) (rnd_mono le_rfl)⟩
  exact rnd_fin (y := lit 1) lit1_fin (by
    rw [lit1_val, abs_one, show x.val - (⌊x.val⌋ : ℚ) = Int.fract x.val from rfl, abs_of_nonneg h0]; exact h1.le)

theorem frac_whole (c : Cfg) (hx : Moderate x) {i : Int} (hi : x.val = i) :
    (x - c.i2f ⌊x.val⌋).isFin = true ∧ (x - c.i2f ⌊x.val⌋).val = 0 := by
  obtain ⟨h1, h2⟩ := frac_spec c hx
  refine ⟨h1, h2.trans ?_⟩
  rw [hi, Int.fract_intCast]; exact rnd_val_zero _

theorem frac_le_one (c : Cfg) (hx : Moderate x) : (x - c.i2f ⌊x.val⌋).val ≤ 1 := by
  rw [(frac_spec c hx).2, ← lit1_val]
  exact rnd_le (lit_not_nan _) (by rw [lit1_val]; exact (Int.fract_lt_one _).le)

/-! ## C10 -/

/-- C10, any position whatsoever (and whatever `floor` does): never outside the buffer. -/
theorem C10_lerp_wrapped_inside (h : Views c mem s xs) (hx : xs ≠ []) (floor : F32 → F32) (x : F32) :
    s.lerpWrapped c mem floor x ≠ .error .ub := by
  unfold MemorySlice.lerpWrapped
  simp only [bind, Except.bind, pure, Except.pure, h.getWrapped hx]
  unfold Cfg.iadd
  split_ifs <;> simp

theorem lerp_wrapped_kernel (h : Views c mem s xs) (hx : xs ≠ []) (hf : FloorContract floor) (hm : Moderate x)
    (hi : c.IsIsize ⌊x.val⌋) (hi1 : c.IsIsize (⌊x.val⌋ + 1)) :
    ∃ t : F32, t.isFin = true ∧ t.val = (F32.ofRat (Int.fract x.val)).val ∧
      s.lerpWrapped c mem floor x =
        .ok (lerpUnchecked (wrapAt xs hx ⌊x.val⌋) (wrapAt xs hx (⌊x.val⌋ + 1)) t) := by
  obtain ⟨t1, t2⟩ := frac_spec c hm
  refine ⟨_, t1, t2, ?_⟩
  unfold MemorySlice.lerpWrapped
  simp only [bind, Except.bind, pure, Except.pure, floor_index hf hm hi, h.getWrapped hx, c.iadd_eq hi1]

/-- C10: the two circular neighbours, blended at the (correctly rounded) fractional part. -/
theorem C10_lerp_wrapped (h : Views c mem s xs) (hx : xs ≠ []) (hf : FloorContract floor) (hm : Moderate x)
    (hi : c.IsIsize ⌊x.val⌋) (hi1 : c.IsIsize (⌊x.val⌋ + 1)) :
    ∃ r, s.lerpWrapped c mem floor x = .ok r ∧
      ((wrapAt xs hx ⌊x.val⌋).isFin = true → (wrapAt xs hx (⌊x.val⌋ + 1)).isFin = true →
        IsBlend (wrapAt xs hx ⌊x.val⌋) (wrapAt xs hx (⌊x.val⌋ + 1)) (F32.ofRat (Int.fract x.val)).val r) := by
  obtain ⟨t, -, t2, e⟩ := lerp_wrapped_kernel h hx hf hm hi hi1
  refine ⟨_, e, fun ha hb => ?_⟩
  have h1 : (F32.ofRat (Int.fract x.val)).val ≤ 1 := by
    rw [← lit1_val]; exact rnd_le (lit_not_nan _) (by rw [lit1_val]; exact (Int.fract_lt_one _).le)
  rw [← t2] at h1 ⊢
  exact lerpUnchecked_blend ha hb (by rw [t2]; exact rnd_val_nonneg (Int.fract_nonneg _)) h1

/-- C10 at whole positions: the same value as `get_wrapped`. -/
theorem C10_lerp_wrapped_whole (h : Views c mem s xs) (hx : xs ≠ []) (hfin : ∀ y ∈ xs, y.isFin = true)
    (hf : FloorContract floor) (hm : Moderate x) {i : Int} (hxi : x.val = i) (hi : c.IsIsize i)
    (hi1 : c.IsIsize (i + 1)) :
    ∃ r r', s.lerpWrapped c mem floor x = .ok r ∧ s.getWrapped c mem i = .ok r' ∧ r.isFin = true ∧ r.val = r'.val := by
  have hfl : ⌊x.val⌋ = i := by rw [hxi, Int.floor_intCast]
  obtain ⟨t, t1, t2, e⟩ := lerp_wrapped_kernel h hx hf hm (by rwa [hfl]) (by rwa [hfl])
  rw [hxi, Int.fract_intCast] at t2
  rw [hfl] at e
  exact ⟨_, _, e, h.getWrapped hx i, lerpUnchecked_zero (hfin _ (List.getElem_mem _)) (hfin _ (List.getElem_mem _)) t1
    (t2.trans (rnd_val_zero _))⟩

-- between samples -1 and 0 of [0, 10, 20, 30], i.e. half way from 30 to 0; and at the whole position -1
example : Views Cfg.debug64 demoMemF demoSliceF demoSamples ∧ demoSamples ≠ [] ∧ FloorContract mmFloor ∧
    Moderate (lit (-1 / 2)) ∧ Cfg.debug64.IsIsize ⌊(lit (-1 / 2) : F32).val⌋ ∧
    Cfg.debug64.IsIsize (⌊(lit (-1 / 2) : F32).val⌋ + 1) ∧ (lit (-1) : F32).val = ((-1 : Int) : ℚ) ∧
    demoSliceF.lerpWrapped Cfg.debug64 demoMemF mmFloor (lit (-1 / 2)) = .ok (lit 15) ∧
    demoSliceF.lerpWrapped Cfg.debug64 demoMemF mmFloor (lit (-1)) = .ok (lit 30) := by
  refine ⟨demo_viewsF _ (by simp), by simp [demoSamples], mmFloor_contract, ?_, ?_, ?_, ?_, ?_, ?_⟩
  · unfold Moderate; decide +kernel
  · unfold Cfg.IsIsize; decide +kernel
  · unfold Cfg.IsIsize; decide +kernel
  · decide +kernel
  · decide +kernel
  · decide +kernel

/-! ## C12 -/

/-- Specification: the samples from position `lo` on, going round. -/
def wrapRun (xs : List F32) (hx : xs ≠ []) (lo : Int) (n : Nat) : List F32 :=
  (List.range n).map fun k : Nat => wrapAt xs hx (lo + (k : Int))

theorem lagrangeWindow_eq (h : Views c mem s xs) (hx : xs ≠ []) (i : Int) :
    ∀ (n : Nat) (lo : Int), (∀ k : Nat, k < n → c.IsIsize (i + lo + k)) →
      s.lagrangeWindow c mem i lo n = .ok (wrapRun xs hx (i + lo) n) := by
  intro n
  induction n with
  | zero => intro lo _; rfl
  | succ n ih =>
    intro lo hk
    unfold MemorySlice.lagrangeWindow
    have h0 := hk 0 (by omega)
    simp only [Nat.cast_zero, add_zero] at h0
    rw [c.iadd_eq h0]
    simp only [bind, Except.bind, pure, Except.pure]
    rw [h.getWrappedUnchecked hx, ih (lo + 1) (fun k hkn => by
      have := hk (k + 1) (by omega)
      rw [show i + (lo + 1) + (k : Int) = i + lo + ((k + 1 : Nat) : Int) by push_cast; ring]; exact this)]
    simp only [wrapRun, List.range_succ_eq_map, List.map_cons, List.map_map]
    congr 2
    · simp
    · apply List.map_congr_left
      intro k _
      simp only [Function.comp]
      congr 1; push_cast; ring

theorem lagrangeWindow_no_ub (h : Views c mem s xs) (hx : xs ≠ []) (i : Int) :
    ∀ (n : Nat) (lo : Int), s.lagrangeWindow c mem i lo n ≠ .error .ub := by
  intro n
  induction n with
  | zero => intro lo; simp [MemorySlice.lagrangeWindow]
  | succ n ih =>
    intro lo
    unfold MemorySlice.lagrangeWindow
    simp only [bind, Except.bind, pure, Except.pure]
    cases hia : c.iadd i lo with
    | error e =>
      unfold Cfg.iadd at hia
      split_ifs at hia
      injection hia with hia; subst hia; simp
    | ok j =>
      simp only [h.getWrappedUnchecked hx]
      cases hl : s.lagrangeWindow c mem i (lo + 1) n with
      | error e => have := ih (lo + 1); rw [hl] at this; simpa using this
      | ok r => simp

/-- C12, any position and window whatsoever: never outside the buffer. -/
theorem C12_lagrange_wrapped_inside (h : Views c mem s xs) (hx : xs ≠ []) (floor : F32 → F32) (x : F32) (w : Nat) :
    s.lagrangeWrapped c mem floor x w ≠ .error .ub := by
  unfold MemorySlice.lagrangeWrapped
  simp only [bind, Except.bind]
  generalize (if w > 100 then 100 else w) = w'
  cases hl : s.lagrangeWindow c mem (c.f2i (floor x)) (-((w' / 2 : Nat) : Int) + 1) (2 * (w' / 2)) with
  | error e => have := lagrangeWindow_no_ub h hx (c.f2i (floor x)) (2 * (w' / 2)) (-((w' / 2 : Nat) : Int) + 1)
               rw [hl] at this; simpa using this
  | ok r =>
    simp only
    unfold Interpolation.lagrange Cfg.usub
    simp only [bind, Except.bind]
    split_ifs <;> simp only <;> (try split_ifs) <;> simp

/-- The samples `lagrange_wrapped` interpolates: `2*(w/2)` circular samples from `⌊x⌋ - w/2 + 1`, then a zero if the
(capped) window is odd. -/
def lagrangeNodes (xs : List F32) (hx : xs ≠ []) (i : Int) (w : Nat) : List F32 :=
  wrapRun xs hx (i - (min w 100 / 2 : Nat) + 1) (2 * (min w 100 / 2)) ++
    List.replicate (min w 100 - 2 * (min w 100 / 2)) (lit 0)

theorem lagrangeNodes_length (xs : List F32) (hx : xs ≠ []) (i : Int) (w : Nat) :
    (lagrangeNodes xs hx i w).length = min w 100 := by
  simp [lagrangeNodes, wrapRun]; omega

/-- C12: no panic, and the value is the kernel on the circular window at the rounded fractional part. -/
theorem C12_lagrange_wrapped (h : Views c mem s xs) (hx : xs ≠ []) (hf : FloorContract floor) (hm : Moderate x)
    (hlo : c.isizeMin ≤ ⌊x.val⌋ - 49) (hhi : ⌊x.val⌋ + 50 ≤ c.isizeMax) {w : Nat} (hw : 2 ≤ w) :
    ∃ t : F32, t.isFin = true ∧ t.val = (F32.ofRat (Int.fract x.val)).val ∧
      s.lagrangeWrapped c mem floor x w = .ok (lagrangeSum (lagrangeNodes xs hx ⌊x.val⌋ w) t) := by
  obtain ⟨t1, t2⟩ := frac_spec c hm
  refine ⟨_, t1, t2, ?_⟩
  unfold MemorySlice.lagrangeWrapped
  rw [show (if w > 100 then 100 else w) = min w 100 by split_ifs <;> omega]
  have hi : c.IsIsize ⌊x.val⌋ := ⟨by omega, by omega⟩
  simp only [bind, Except.bind, floor_index hf hm hi]
  rw [lagrangeWindow_eq h hx _ _ _ (fun k hk => ⟨by omega, by omega⟩)]
  simp only
  have hlen := lagrangeNodes_length xs hx ⌊x.val⌋ w
  rw [show ⌊x.val⌋ + (-((min w 100 / 2 : Nat) : Int) + 1) = ⌊x.val⌋ - (min w 100 / 2 : Nat) + 1 by ring]
  change Interpolation.lagrange c (lagrangeNodes xs hx ⌊x.val⌋ w) _ = _
  unfold Interpolation.lagrange
  rw [hlen, c.usub_eq (by omega)]
  simp only [bind, Except.bind]
  rw [if_pos]
  rw [le_iff]
  refine ⟨isFin.not_nan t1, c.u2f_not_nan _, ?_⟩
  rw [c.u2f_val (by omega)]
  refine (frac_le_one c hm).trans ?_
  have : 1 ≤ min w 100 - 1 := by omega
  exact_mod_cast this

example : Views Cfg.debug64 demoMemF demoSliceF demoSamples ∧ demoSamples ≠ [] ∧ FloorContract mmFloor ∧
    Moderate (lit (-5 / 2)) ∧ Cfg.debug64.isizeMin ≤ ⌊(lit (-5 / 2) : F32).val⌋ - 49 ∧
    ⌊(lit (-5 / 2) : F32).val⌋ + 50 ≤ Cfg.debug64.isizeMax ∧ 2 ≤ 5 ∧
    demoSliceF.lagrangeWrapped Cfg.debug64 demoMemF mmFloor (lit (-5 / 2)) 2 = .ok (lit 15) := by
  refine ⟨demo_viewsF _ (by simp), by simp [demoSamples], mmFloor_contract, ?_, ?_, ?_, ?_, ?_⟩
  · unfold Moderate; decide +kernel
  all_goals decide +kernel

/-! ## C11 -/

/-- The full claim, for a given window: at every whole position the stored sample's value comes back. -/
def LagrangeThroughSamples (c : Cfg) (mem : Mem F32) (s : MemorySlice) (xs : List F32) (hx : xs ≠ [])
    (floor : F32 → F32) (w : Nat) : Prop :=
  ∀ (x : F32) (i : Int), Moderate x → x.val = i → c.isizeMin ≤ i - 49 → i + 50 ≤ c.isizeMax →
    ∃ r, s.lagrangeWrapped c mem floor x w = .ok r ∧ r.val = (wrapAt xs hx i).val

/-- C11 holds for window 2, for all finite buffers (windows below 2 hold no sample at all). -/
theorem C11_through_samples_partial (h : Views c mem s xs) (hx : xs ≠ []) (hfin : ∀ y ∈ xs, y.isFin = true)
    (hf : FloorContract floor) : LagrangeThroughSamples c mem s xs hx floor 2 := by
  intro x i hm hxi hlo hhi
  have hfl : ⌊x.val⌋ = i := by rw [hxi, Int.floor_intCast]
  obtain ⟨t, t1, t2, e⟩ := C12_lagrange_wrapped h hx hf hm (by rwa [hfl]) (by rwa [hfl]) (le_refl 2)
  rw [hxi, Int.fract_intCast] at t2
  have t0 : t.val = ((0 : Nat) : ℚ) := by rw [t2]; exact rnd_val_zero _
  rw [hfl] at e
  have hn : lagrangeNodes xs hx i 2 = [wrapAt xs hx i, wrapAt xs hx (i + 1)] := by
    simp [lagrangeNodes, wrapRun, show List.range 2 = [0, 1] from rfl]
  rw [hn] at e
  have hw : ∀ j, (wrapAt xs hx j).isFin = true := fun j => hfin _ (List.getElem_mem _)
  refine ⟨_, e, (lagrangeSum_node (k := 0) (by simp) t1 t0 (by simp) (hw i) ?_ ?_).2⟩
  · intro j hj
    have hj : j = 0 ∨ j = 1 := by simp at hj; omega
    rcases hj with rfl | rfl
    · simpa using rep_zero
    · simpa using (rep_val (hw i)).neg
  · intro j hj _
    have hj : j = 0 ∨ j = 1 := by simp at hj; omega
    rcases hj with rfl | rfl
    · exact hw _
    · exact hw _

/-- What the code does instead: with a window of `w ≥ 2` it returns, at the whole position `i`, the sample at
`i - w/2 + 1` (window capped at 100). Stated for whole samples up to `2^17`, where the kernel computes exactly. -/
theorem C11_through_samples_actual (h : Views c mem s xs) (hx : xs ≠ [])
    (hfin : ∀ y ∈ xs, y.isFin = true ∧ ∃ z : Int, y.val = z ∧ |z| ≤ 2 ^ 17)
    (hf : FloorContract floor) (hm : Moderate x) {i : Int} (hxi : x.val = i) (hlo : c.isizeMin ≤ i - 49)
    (hhi : i + 50 ≤ c.isizeMax) {w : Nat} (hw : 2 ≤ w) :
    ∃ r, s.lagrangeWrapped c mem floor x w = .ok r ∧ r.isFin = true ∧
      r.val = (wrapAt xs hx (i - (min w 100 / 2 : Nat) + 1)).val := by
  have hfl : ⌊x.val⌋ = i := by rw [hxi, Int.floor_intCast]
  obtain ⟨t, t1, t2, e⟩ := C12_lagrange_wrapped h hx hf hm (by rwa [hfl]) (by rwa [hfl]) hw
  rw [hxi, Int.fract_intCast] at t2
  have t0 : t.val = 0 := t2.trans (rnd_val_zero _)
  rw [hfl] at e
  have hlen := lagrangeNodes_length xs hx i w
  have hne : 0 < (lagrangeNodes xs hx i w).length := by omega
  have h0 : (lagrangeNodes xs hx i w)[0] = wrapAt xs hx (i - (min w 100 / 2 : Nat) + 1) := by
    have hpos : 0 < 2 * (min w 100 / 2) := by omega
    simp only [lagrangeNodes]
    rw [List.getElem_append_left (by simpa [wrapRun] using hpos)]
    simp [wrapRun]
  obtain ⟨z, hz, hz17⟩ := (hfin _ (List.getElem_mem (l := xs) (n := ((i - (min w 100 / 2 : Nat) + 1) %
    (xs.length : Int)).toNat) (Views.wrap_lt hx _))).2
  have := lagrangeSum_zero (ys := lagrangeNodes xs hx i w) (by omega) hne t1 t0 ?_ (z := z) (by rw [h0]; exact hz) hz17
  · rw [h0] at this
    exact ⟨_, e, this⟩
  · intro y hy
    simp only [lagrangeNodes, List.mem_append, wrapRun, List.mem_map, List.mem_replicate] at hy
    rcases hy with ⟨k, -, rfl⟩ | ⟨-, rfl⟩
    · exact (hfin _ (List.getElem_mem _)).1
    · exact lit0_fin

/-- C11 is false for every window of 4 or more: whenever some sample differs from the one `w/2 - 1` places before it. -/
theorem C11_through_samples_refuted (h : Views c mem s xs) (hx : xs ≠ [])
    (hfin : ∀ y ∈ xs, y.isFin = true ∧ ∃ z : Int, y.val = z ∧ |z| ≤ 2 ^ 17)
    (hf : FloorContract floor) {w : Nat} (hw : 4 ≤ w) {i : Int} (hi : |i| ≤ 2 ^ 14)
    (hdiff : (wrapAt xs hx (i - (min w 100 / 2 : Nat) + 1)).val ≠ (wrapAt xs hx i).val) :
    ¬ LagrangeThroughSamples c mem s xs hx floor w := by
  intro hall
  have hr := rep_int (n := i) (by omega)
  have hiq : |(i : ℚ)| ≤ 2 ^ 14 := by
    have : ((|i| : Int) : ℚ) ≤ ((2 ^ 14 : Int) : ℚ) := by exact_mod_cast hi
    push_cast at this; exact this
  have hm : Moderate (lit (i : ℚ)) := ⟨lit_fin hr, by rw [lit_val hr]; exact hiq.trans (by norm_num)⟩
  have hp := c.pow_pred_ge
  rw [abs_le] at hi
  have hlo : c.isizeMin ≤ i - 49 := by unfold Cfg.isizeMin; omega
  have hhi : i + 50 ≤ c.isizeMax := by unfold Cfg.isizeMax; omega
  obtain ⟨r, e, hv⟩ := hall _ i hm (lit_val hr) hlo hhi
  obtain ⟨r', e', -, hv'⟩ := C11_through_samples_actual h hx hfin hf hm (lit_val hr) hlo hhi (w := w) (by omega)
  rw [e] at e'
  have : r = r' := by injection e'
  subst this
  exact hdiff (hv'.symm.trans hv)

theorem demoSamples_whole : ∀ y ∈ demoSamples, y.isFin = true ∧ ∃ z : Int, y.val = z ∧ |z| ≤ 2 ^ 17 := by
  intro y hy; refine ⟨demoSamples_fin y hy, ?_⟩
  simp [demoSamples] at hy
  rcases hy with rfl | rfl | rfl | rfl
  · exact ⟨0, by decide +kernel, by norm_num⟩
  · exact ⟨10, by decide +kernel, by norm_num⟩
  · exact ⟨20, by decide +kernel, by norm_num⟩
  · exact ⟨30, by decide +kernel, by norm_num⟩

example : Views Cfg.debug64 demoMemF demoSliceF demoSamples ∧
    (∀ y ∈ demoSamples, y.isFin = true ∧ ∃ z : Int, y.val = z ∧ |z| ≤ 2 ^ 17) ∧ FloorContract mmFloor ∧ |(2 : Int)| ≤ 2 ^ 14 ∧
    (wrapAt demoSamples (by simp [demoSamples]) (2 - (min 5 100 / 2 : Nat) + 1)).val ≠
      (wrapAt demoSamples (by simp [demoSamples]) 2).val ∧
    demoSliceF.lagrangeWrapped Cfg.debug64 demoMemF mmFloor (lit 2) 2 = .ok (lit 20) ∧
    demoSliceF.lagrangeWrapped Cfg.debug64 demoMemF mmFloor (lit 2) 5 = .ok (lit 10) := by
  refine ⟨demo_viewsF _ (by simp), demoSamples_whole, mmFloor_contract, by norm_num, ?_, ?_, ?_⟩ <;> decide +kernel

/-! ## C13 -/

/-- What `lagrange_four_points_wrapped` returns: the cubic through the four right samples, at the position `x`
itself (not at its fractional part). -/
theorem four_points_eq (h : Views c mem s xs) (hx : xs ≠ []) (hf : FloorContract floor) (hm : Moderate x)
    (hi : c.IsIsize ⌊x.val⌋) (hi3 : c.IsIsize (⌊x.val⌋ + 3)) :
    s.lagrangeFourPointsWrapped c mem floor x = .ok (lagrange4 (wrapAt xs hx ⌊x.val⌋) (wrapAt xs hx (⌊x.val⌋ + 1))
      (wrapAt xs hx (⌊x.val⌋ + 2)) (wrapAt xs hx (⌊x.val⌋ + 3)) x) := by
  unfold MemorySlice.lagrangeFourPointsWrapped
  simp only [bind, Except.bind, pure, Except.pure, floor_index hf hm hi]
  rw [C04_four_wrapped_partial h hx hi.1 hi3.2]

/-- C13's claim at whole positions. -/
def FourPointsThroughSamples (c : Cfg) (mem : Mem F32) (s : MemorySlice) (xs : List F32) (hx : xs ≠ [])
    (floor : F32 → F32) : Prop :=
  ∀ (x : F32) (i : Int), Moderate x → x.val = i → c.IsIsize i → c.IsIsize (i + 3) →
    ∃ r, s.lagrangeFourPointsWrapped c mem floor x = .ok r ∧ r.val = (wrapAt xs hx i).val

/-- C13 on `[0,1)`, where position and fractional part coincide. -/
theorem C13_four_points_partial (h : Views c mem s xs) (hx : xs ≠ []) (hf : FloorContract floor)
    (hxf : x.isFin = true) (h0 : 0 ≤ x.val) (h1 : x.val < 1) :
    ∃ t : F32, t.isFin = true ∧ t.val = Int.fract x.val ∧
      s.lagrangeFourPointsWrapped c mem floor x = .ok (lagrange4 (wrapAt xs hx ⌊x.val⌋) (wrapAt xs hx (⌊x.val⌋ + 1))
        (wrapAt xs hx (⌊x.val⌋ + 2)) (wrapAt xs hx (⌊x.val⌋ + 3)) t) := by
  have hfl : ⌊x.val⌋ = 0 := Int.floor_eq_zero_iff.2 ⟨h0, h1⟩
  have hp := c.pow_pred_ge
  refine ⟨x, hxf, (Int.fract_eq_self.2 ⟨h0, h1⟩).symm, four_points_eq h hx hf ⟨hxf, ?_⟩ ?_ ?_⟩
  · rw [abs_of_nonneg h0]; exact h1.le.trans (by norm_num)
  · rw [hfl]; unfold Cfg.IsIsize Cfg.isizeMin Cfg.isizeMax; omega
  · rw [hfl]; unfold Cfg.IsIsize Cfg.isizeMin Cfg.isizeMax; omega

/-- What the code does at the whole positions 0, 1, 2, 3: it returns the sample at TWICE the position. Stated for
whole samples up to `2^20`, where the kernel computes exactly. -/
theorem C13_four_points_actual (h : Views c mem s xs) (hx : xs ≠ []) (hf : FloorContract floor)
    (hfin : ∀ y ∈ xs, y.isFin = true ∧ ∃ z : Int, y.val = z ∧ |z| ≤ 2 ^ 20)
    (hxf : x.isFin = true) {k : Nat} (hk : k ≤ 3) (hxk : x.val = k) :
    ∃ r, s.lagrangeFourPointsWrapped c mem floor x = .ok r ∧ r.isFin = true ∧
      r.val = (wrapAt xs hx (2 * k : Nat)).val := by
  have hfl : ⌊x.val⌋ = (k : Int) := by rw [hxk, Int.floor_natCast]
  have hp := c.pow_pred_ge
  have hkq : (k : ℚ) ≤ 3 := by exact_mod_cast hk
  have e := four_points_eq (c := c) h hx hf (x := x) ⟨hxf, by
    rw [hxk, abs_of_nonneg (by positivity)]; exact hkq.trans (by norm_num)⟩
    (by rw [hfl]; unfold Cfg.IsIsize Cfg.isizeMin Cfg.isizeMax; omega)
    (by rw [hfl]; unfold Cfg.IsIsize Cfg.isizeMin Cfg.isizeMax; omega)
  rw [lagrange4_eq, hfl] at e
  refine ⟨_, e, ?_⟩
  have hw : ∀ j, (wrapAt xs hx j).isFin = true ∧ ∃ z : Int, (wrapAt xs hx j).val = z ∧ |z| ≤ 2 ^ 20 :=
    fun j => hfin _ (List.getElem_mem _)
  have := lagrangeSum_node_small (k := k) (ys := [wrapAt xs hx k, wrapAt xs hx (k + 1), wrapAt xs hx (k + 2),
    wrapAt xs hx (k + 3)]) (by simp) hxf hxk (by simp; omega) (by
      intro y hy
      simp only [List.mem_cons, List.not_mem_nil, or_false] at hy
      rcases hy with rfl | rfl | rfl | rfl <;> exact hw _)
  refine ⟨this.1, this.2.trans ?_⟩
  have hk' : k = 0 ∨ k = 1 ∨ k = 2 ∨ k = 3 := by omega
  rcases hk' with rfl | rfl | rfl | rfl <;> simp

/-- C13 is false: on every buffer (of whole samples) whose circular samples 1 and 2 differ, position 1 gives the
wrong sample. -/
theorem C13_four_points_refuted (h : Views c mem s xs) (hx : xs ≠ []) (hf : FloorContract floor)
    (hfin : ∀ y ∈ xs, y.isFin = true ∧ ∃ z : Int, y.val = z ∧ |z| ≤ 2 ^ 20)
    (hdiff : (wrapAt xs hx 2).val ≠ (wrapAt xs hx 1).val) : ¬ FourPointsThroughSamples c mem s xs hx floor := by
  intro hall
  have hp := c.pow_pred_ge
  obtain ⟨r, e, hv⟩ := hall (lit 1) 1 ⟨lit1_fin, by rw [lit1_val]; norm_num⟩ (by simp)
    (by unfold Cfg.IsIsize Cfg.isizeMin Cfg.isizeMax; omega) (by unfold Cfg.IsIsize Cfg.isizeMin Cfg.isizeMax; omega)
  obtain ⟨r', e', -, hv'⟩ := C13_four_points_actual h hx hf hfin (x := lit 1) lit1_fin (k := 1) (by norm_num) (by simp)
  rw [e] at e'
  have : r = r' := by injection e'
  subst this
  exact hdiff (hv'.symm.trans hv)

example : Views Cfg.debug64 demoMemF demoSliceF demoSamples ∧ FloorContract mmFloor ∧
    (∀ y ∈ demoSamples, y.isFin = true ∧ ∃ z : Int, y.val = z ∧ |z| ≤ 2 ^ 20) ∧
    (wrapAt demoSamples (by simp [demoSamples]) 2).val ≠ (wrapAt demoSamples (by simp [demoSamples]) 1).val ∧
    0 ≤ (lit (1 / 2) : F32).val ∧ (lit (1 / 2) : F32).val < 1 ∧ (lit 3 : F32).val = ((3 : Nat) : ℚ) ∧
    demoSliceF.lagrangeFourPointsWrapped Cfg.debug64 demoMemF mmFloor (lit (1 / 2)) = .ok (lit 5) ∧
    demoSliceF.lagrangeFourPointsWrapped Cfg.debug64 demoMemF mmFloor (lit 1) = .ok (lit 20) ∧
    demoSliceF.lagrangeFourPointsWrapped Cfg.debug64 demoMemF mmFloor (lit 3) = .ok (lit 20) := by
  refine ⟨demo_viewsF _ (by simp), mmFloor_contract, ?_, ?_, ?_, ?_, ?_, ?_, ?_, ?_⟩
  · intro y hy
    obtain ⟨h1, z, h2, h3⟩ := demoSamples_whole y hy
    exact ⟨h1, z, h2, h3.trans (by norm_num)⟩
  all_goals decide +kernel

end Verif
