import Verif.Lemmas.Slice
import Verif.F32.Ops

/-! # C01-C06, C14: element access, wrapped access, sub-slices, null slices -/

namespace Verif

variable {α : Type} {c : Cfg} {mem : Mem α} {s : MemorySlice} {xs : List α}

/-- A block of five cells; used as the concrete instance in the examples. -/
def demoMem : Mem Nat := fun b => if b = 0 then some [10, 20, 30, 40, 50] else none
/-- The slice looking at the middle three cells. -/
def demoSlice : MemorySlice := MemorySlice.fromSlice 0 1 3

theorem demo_views : Views Cfg.release64 demoMem demoSlice [20, 30, 40] :=
  ⟨0, [10], [50], rfl, rfl, rfl, by decide⟩

/-! ## C01 -/

theorem C01_get (h : Views c mem s xs) (i : Nat) :
    s.get mem i = .ok (if hi : i < xs.length then .ok xs[i] else .error .indexOutOfBound) := by
  split
  · exact h.get _
  · exact h.get_out (by omega)

/-- `assign` inside writes exactly that one cell of all memory, and the slice then views the updated list. -/
theorem C01_assign_in (h : Views c mem s xs) {i : Nat} (hi : i < xs.length) (v : α) :
    ∃ mem', s.assign mem i v = .ok (.ok mem') ∧ Views c mem' s (xs.set i v) ∧
      ∀ b j, cell mem' b j = if s.ptr.block = some b ∧ s.ptr.off + i = j then some v else cell mem b j := by
  obtain ⟨mem', h1, h2, h3⟩ := h.store hi v
  refine ⟨mem', ?_, h2, h3⟩
  unfold MemorySlice.assign MemorySlice.assignUnchecked
  rw [h.length_eq, if_neg (by omega), h1]; rfl

/-- `assign` outside reports the error (and no new memory). -/
theorem C01_assign_out (h : Views c mem s xs) {i : Nat} (hi : xs.length ≤ i) (v : α) :
    s.assign mem i v = .ok (.error .indexOutOfBound) := by
  unfold MemorySlice.assign
  rw [h.length_eq, if_pos (by omega)]; rfl

example : Views Cfg.release64 demoMem demoSlice [20, 30, 40] ∧ (2 < [20, 30, 40].length) ∧
    demoSlice.get demoMem 2 = .ok (.ok 40) ∧ demoSlice.get demoMem 3 = .ok (.error .indexOutOfBound) :=
  ⟨demo_views, by decide, by rfl, by rfl⟩

/-! ## C02 -/

/-- A history of checked writes: handle, index, value; a rejected write leaves memory alone. -/
def runAssigns (mem : Mem α) : List (MemorySlice × Nat × α) → M (Mem α)
  | [] => .ok mem
  | (h, i, v) :: rest => do
    match ← h.assign mem i v with
    | .ok mem' => runAssigns mem' rest
    | .error _ => runAssigns mem rest

/-- Specification: the last value in the history aimed (in bounds) at element `j` of block `b`. -/
def lastWrite (b j : Nat) : List (MemorySlice × Nat × α) → Option α
  | [] => none
  | (h, i, v) :: rest =>
    (lastWrite b j rest).or (if h.ptr.block = some b ∧ i < h.length ∧ h.ptr.off + i = j then some v else none)

theorem runAssigns_spec (hist : List (MemorySlice × Nat × α)) :
    ∀ {mem : Mem α}, (∀ w ∈ hist, Live c mem w.1) →
    ∃ mem', runAssigns mem hist = .ok mem' ∧ (∀ b, (mem' b).map List.length = (mem b).map List.length) ∧
      ∀ b j, cell mem' b j = (lastWrite b j hist).or (cell mem b j) := by
  induction hist with
  | nil => intro mem _; exact ⟨mem, rfl, fun _ => rfl, fun _ _ => by simp [lastWrite]⟩
  | cons w rest ih =>
    intro mem hl
    obtain ⟨h, i, v⟩ := w
    obtain ⟨ys, hv⟩ := hl _ (List.mem_cons_self)
    change Views c mem h ys at hv
    have hlen := hv.length_eq
    by_cases hi : i < ys.length
    · obtain ⟨mem1, h1, h2, h3⟩ := hv.store hi v
      have hsh := store_shape h1
      obtain ⟨mem', hr, hs, hc⟩ := ih (mem := mem1) (fun w hw => by
        obtain ⟨zs, hz⟩ := hl w (List.mem_cons_of_mem _ hw)
        exact hz.congr_shape hsh)
      refine ⟨mem', ?_, fun b => (hs b).trans (hsh b), fun b j => ?_⟩
      · unfold runAssigns MemorySlice.assign MemorySlice.assignUnchecked
        simp only [hlen]
        rw [if_neg (by omega), h1]
        exact hr
      · rw [hc, h3]
        simp only [lastWrite, hlen, hi, true_and, Option.or_assoc]
        split <;> simp
    · obtain ⟨mem', hr, hs, hc⟩ := ih (mem := mem) (fun w hw => hl w (List.mem_cons_of_mem _ hw))
      refine ⟨mem', ?_, hs, fun b j => ?_⟩
      · unfold runAssigns MemorySlice.assign
        simp only [hlen]
        rw [if_pos (by omega)]
        exact hr
      · rw [hc]
        simp [lastWrite, hlen, hi]

theorem C02_read_your_writes (hist : List (MemorySlice × Nat × α)) (hl : ∀ w ∈ hist, Live c mem w.1)
    (h : Views c mem s xs) {b : Nat} (hb : s.ptr.block = some b) {i : Nat} (hi : i < xs.length) :
    ∃ mem', runAssigns mem hist = .ok mem' ∧
      s.get mem' i = .ok (.ok ((lastWrite b (s.ptr.off + i) hist).getD xs[i])) := by
  obtain ⟨mem', hr, hs, hc⟩ := runAssigns_spec hist hl
  refine ⟨mem', hr, ?_⟩
  obtain ⟨ys, hy⟩ := h.congr_shape hs
  have hlen : i < ys.length := by rw [← hy.length_eq, h.length_eq]; exact hi
  rw [hy.get hlen]
  have h1 := hy.cell_eq hb hlen
  rw [hc, h.cell_eq hb hi] at h1
  cases hw : lastWrite b (s.ptr.off + i) hist with
  | none => rw [hw] at h1; simpa using h1.symm
  | some v => rw [hw] at h1; simpa using h1.symm

/-- Two overlapping handles; the write through the second is seen through the first. -/
example : ∃ mem', runAssigns demoMem [(demoSlice, 0, 7), (MemorySlice.fromSlice 0 0 5, 1, 8), (demoSlice, 9, 9)]
    = .ok mem' ∧ demoSlice.get mem' 0 = .ok (.ok 8) := ⟨_, rfl, rfl⟩

/-! ## C03 -/

theorem C03_get_wrapped (h : Views c mem s xs) (hx : xs ≠ []) {i : Int} (_hi : c.IsIsize i) :
    s.getWrapped c mem i = .ok (wrapAt xs hx i) := h.getWrapped hx i

/-- The specification `wrapAt` is what it should be: it continues `xs` periodically. -/
theorem C03_wrapAt_spec (hx : xs ≠ []) :
    (∀ (i : Nat) (hi : i < xs.length), wrapAt xs hx i = xs[i]) ∧
    (∀ i : Int, wrapAt xs hx (i + xs.length) = wrapAt xs hx i) := by
  refine ⟨fun i hi => ?_, fun i => ?_⟩
  · rw [Views.wrapAt_of_lt hx (by omega) (by omega)]; simp
  · unfold wrapAt; congr 1; simp

theorem C03_empty_panics (h : Views c mem s []) (i : Int) : s.getWrapped c mem i = .error .panic := by
  have hl : c.asIsize s.length = 0 := by simpa using h.asIsize_length
  unfold MemorySlice.getWrapped
  rw [hl, if_pos (by omega)]
  unfold MemorySlice.getWrappedUnchecked
  rw [hl]; simp [Cfg.irem]; rfl

example : Cfg.release64.IsIsize (-7) ∧ demoSlice.getWrapped Cfg.release64 demoMem (-7) = .ok 40 ∧
    demoSlice.getWrapped Cfg.release64 demoMem (-2 ^ 63) = .ok 30 :=
  ⟨by unfold Cfg.IsIsize; decide, by decide +kernel, by decide +kernel⟩

/-! ## C04 -/

/-- Everywhere except the three largest `isize` values the four samples are right. -/
theorem C04_four_wrapped_partial (h : Views c mem s xs) (hx : xs ≠ []) {i : Int} (h0 : c.isizeMin ≤ i)
    (h1 : i + 3 ≤ c.isizeMax) :
    s.getSliceOfFourWrapped c mem i =
      .ok (wrapAt xs hx i, wrapAt xs hx (i + 1), wrapAt xs hx (i + 2), wrapAt xs hx (i + 3)) := by
  have a0 : c.iadd i 0 = .ok i := by rw [c.iadd_eq ⟨by omega, by omega⟩]; simp
  have a1 : c.iadd i 1 = .ok (i + 1) := c.iadd_eq ⟨by omega, by omega⟩
  have a2 : c.iadd i 2 = .ok (i + 2) := c.iadd_eq ⟨by omega, by omega⟩
  have a3 : c.iadd i 3 = .ok (i + 3) := c.iadd_eq ⟨by omega, by omega⟩
  unfold MemorySlice.getSliceOfFourWrapped
  simp only [a0, a1, a2, a3, h.asIsize_length, bind, Except.bind, pure, Except.pure, h.getWrappedUnchecked hx]
  split
  · rfl
  · rw [h.getUnchecked_int hx (by omega) (by omega), h.getUnchecked_int hx (by omega) (by omega),
      h.getUnchecked_int hx (by omega) (by omega), h.getUnchecked_int hx (by omega) (by omega)]

/-- The missing part is false: at the three largest indices the addition overflows. With overflow checks the call
panics; without, it reads far outside the buffer. -/
theorem C04_four_wrapped_refuted (h : Views c mem s xs) {i : Int} (h1 : c.isizeMax < i + 3)
    (h2 : i ≤ c.isizeMax) :
    s.getSliceOfFourWrapped c mem i = .error (if c.checks then .panic else .ub) := by
  have hp := c.pow_pred_ge
  have hw := c.pow_w
  have hmx : c.isizeMax = 2 ^ (c.w - 1) - 1 := rfl
  have hmn : c.isizeMin = - 2 ^ (c.w - 1) := rfl
  unfold MemorySlice.getSliceOfFourWrapped
  by_cases hc : c.checks
  · have a3 : c.iadd i 3 = .error .panic := by
      unfold Cfg.iadd; rw [if_neg (by rintro ⟨-, h⟩; omega), if_pos hc]
    simp only [a3, hc, if_true, bind, Except.bind]
  · have a3 : c.iadd i 3 = .ok (i + 3 - 2 ^ c.w) := by
      unfold Cfg.iadd
      rw [if_neg (by rintro ⟨-, h⟩; omega), if_neg hc]
      unfold Cfg.wrapI
      have : (i + 3 + 2 ^ (c.w - 1)) % 2 ^ c.w = i + 3 + 2 ^ (c.w - 1) - 2 ^ c.w := by
        rw [← Int.sub_emod_right, Int.emod_eq_of_lt (by omega) (by omega)]
      rw [this]; congr 1; omega
    have a0 : c.iadd i 0 = .ok i := by rw [c.iadd_eq ⟨by omega, by omega⟩]; simp
    have hu : c.asUsize i = i.toNat := by
      conv_lhs => rw [← Int.toNat_of_nonneg (show 0 ≤ i by omega)]
      apply c.asUsize_eq
      have : ((i.toNat : Nat) : Int) < 2 ^ c.w := by omega
      exact_mod_cast this
    have hr : s.getUnchecked mem i.toNat = .error .ub := by
      obtain ⟨b, pre, post, hp', hl, hm, hf⟩ := h
      unfold MemorySlice.getUnchecked load
      simp only [hp', hm]
      rw [List.getElem?_eq_none (by omega)]
    simp only [a3, a0, hc, h.asIsize_length, bind, Except.bind]
    rw [if_neg (by omega), hu, hr]
    rfl

/-- In a release build the overrun is real. -/
example : demoSlice.getSliceOfFourWrapped Cfg.release64 demoMem (2 ^ 63 - 1) = .error .ub :=
  C04_four_wrapped_refuted demo_views (by decide) (by decide)

example : demoSlice.getSliceOfFourWrapped Cfg.release64 demoMem 2 = .ok (40, 20, 30, 40) := by decide +kernel

/-! ## C05, C06 -/

theorem subSlice_add (h : Views c mem s xs) {o n : Nat} (ho : o + n < xs.length) :
    ∃ p, s.ptr.add mem o = .ok p ∧ Views c mem ⟨p, n⟩ ((xs.drop o).take n) := by
  obtain ⟨b, pre, post, hp, hl, hm, hf⟩ := h
  refine ⟨⟨some b, pre.length + o⟩, ?_, b, pre ++ xs.take o, xs.drop (o + n) ++ post, ?_, ?_, ?_, ?_⟩
  · unfold Ptr.add
    split
    · rename_i h0; subst h0; rw [hp]; rfl
    · simp only [hp, hm, List.length_append]
      rw [if_pos (by omega)]
  · simp; omega
  · simp; omega
  · rw [hm]; congr 1
    simp only [List.append_assoc]
    congr 1
    rw [← List.append_assoc (List.take o xs), ← List.take_add, ← List.append_assoc, List.take_append_drop]
  · simp only [List.length_append, List.length_take, List.length_drop] at hf ⊢
    rw [show (pre.length + min o xs.length + min n (xs.length - o) + (xs.length - (o + n) + post.length))
      = pre.length + xs.length + post.length by omega]
    exact hf

/-- Exact behaviour of `get_sub_slice` when `offset + n` does not overflow `usize`. -/
theorem getSubSlice_spec (h : Views c mem s xs) {o n : Nat} (hn : o + n ≤ c.usizeMax) :
    (xs.length ≤ o ∧ s.getSubSlice c mem o n = .ok (.error .indexOutOfBound)) ∨
    (o < xs.length ∧ xs.length ≤ o + n ∧ s.getSubSlice c mem o n = .ok (.error .lengthOutOfBound)) ∨
    (o + n < xs.length ∧ ∃ p, s.getSubSlice c mem o n = .ok (.ok ⟨p, n⟩) ∧
      Views c mem ⟨p, n⟩ ((xs.drop o).take n)) := by
  have hpos : 0 < 2 ^ c.w := by positivity
  have ha : c.uadd o n = .ok (o + n) := c.uadd_eq (by unfold Cfg.usizeMax at hn; omega)
  rcases Nat.lt_or_ge o xs.length with ho | ho
  · rcases Nat.lt_or_ge (o + n) xs.length with hs | hs
    · obtain ⟨p, hp, hv⟩ := subSlice_add h hs
      refine Or.inr (Or.inr ⟨hs, p, ?_, hv⟩)
      unfold MemorySlice.getSubSlice
      simp only [h.length_eq, ha, hp, bind, Except.bind, pure, Except.pure]
      rw [if_neg (by omega), if_neg (by omega)]
    · refine Or.inr (Or.inl ⟨ho, hs, ?_⟩)
      unfold MemorySlice.getSubSlice
      simp only [h.length_eq, ha, bind, Except.bind, pure, Except.pure]
      rw [if_neg (by omega), if_pos (by omega)]
  · refine Or.inl ⟨ho, ?_⟩
    unfold MemorySlice.getSubSlice
    simp only [h.length_eq, bind, Except.bind, pure, Except.pure]
    rw [if_pos (by omega)]

/-- A sub-slice obtained without `usize` overflow in `offset + n` lies inside its parent. With overflow checks the
proviso is automatic. Missing: release builds when `offset + n` overflows (refuted below). -/
theorem C05_sub_slice_inside_partial (h : Views c mem s xs) {o n : Nat} {s' : MemorySlice}
    (hn : c.checks = true ∨ o + n ≤ c.usizeMax) (hs : s.getSubSlice c mem o n = .ok (.ok s')) :
    s'.length = n ∧ o + n ≤ xs.length ∧ Views c mem s' ((xs.drop o).take n) ∧
      ∀ i (_hi : i < n) (hi' : o + i < xs.length), s'.get mem i = .ok (.ok xs[o + i]) := by
  have hn' : o + n ≤ c.usizeMax := by
    rcases hn with hc | hn
    · by_contra hcon
      have hpos : 0 < 2 ^ c.w := by positivity
      have : c.uadd o n = .error .panic := by
        unfold Cfg.uadd; rw [if_neg (by unfold Cfg.usizeMax at hcon; omega), if_pos hc]
      unfold MemorySlice.getSubSlice at hs
      simp only [this, bind, Except.bind, pure, Except.pure] at hs
      split at hs <;> simp at hs
    · exact hn
  rcases getSubSlice_spec h hn' with ⟨_, h1⟩ | ⟨_, _, h1⟩ | ⟨hlt, p, h1, hv⟩
  · rw [h1] at hs; simp at hs
  · rw [h1] at hs; simp at hs
  · rw [h1] at hs
    simp only [Except.ok.injEq] at hs
    subst hs
    refine ⟨rfl, by omega, hv, fun i hi hi' => ?_⟩
    have hi2 : i < ((xs.drop o).take n).length := by simp; omega
    rw [hv.get hi2]; simp

/-- Release builds: `offset + n` wraps around, the check passes and the "sub-slice" of length `usize::MAX` reaches
out of the block. -/
theorem C05_sub_slice_inside_refuted :
    ∃ s', demoSlice.getSubSlice Cfg.release64 demoMem 1 (2 ^ 64 - 1) = .ok (.ok s') ∧
      s'.length = 2 ^ 64 - 1 ∧ s'.get demoMem 3 = .error .ub :=
  ⟨⟨⟨some 0, 2⟩, 2 ^ 64 - 1⟩, by rfl, rfl, by rfl⟩

example : ∃ s', demoSlice.getSubSlice Cfg.release64 demoMem 1 1 = .ok (.ok s') ∧ 1 + 1 ≤ Cfg.release64.usizeMax ∧
    s'.get demoMem 0 = .ok (.ok 30) := ⟨_, rfl, by decide, rfl⟩

/-- Windows that end before the last element are granted; out-of-range offsets and overrunning windows are
refused with the right error. Missing: windows that end exactly at the end of the slice (refuted below). -/
theorem C06_windows_partial (h : Views c mem s xs) {o n : Nat} (hn : o + n ≤ c.usizeMax) :
    (o + n < xs.length → ∃ s', s.getSubSlice c mem o n = .ok (.ok s')) ∧
    (xs.length ≤ o → s.getSubSlice c mem o n = .ok (.error .indexOutOfBound)) ∧
    (o < xs.length → xs.length < o + n → s.getSubSlice c mem o n = .ok (.error .lengthOutOfBound)) := by
  rcases getSubSlice_spec h hn with ⟨h1, h2⟩ | ⟨h1, h2, h3⟩ | ⟨h1, p, h2, -⟩
  · exact ⟨fun _ => by omega, fun _ => h2, fun _ => by omega⟩
  · exact ⟨fun _ => by omega, fun _ => by omega, fun _ _ => h3⟩
  · exact ⟨fun _ => ⟨_, h2⟩, fun _ => by omega, fun _ => by omega⟩

/-- No window reaching the end of a slice can be taken: in particular never the last element, never the whole. -/
theorem C06_windows_refuted (h : Views c mem s xs) {o n : Nat} (ho : o < xs.length) (hn : o + n = xs.length) :
    s.getSubSlice c mem o n = .ok (.error .lengthOutOfBound) := by
  have hlt := h.len_lt
  rcases getSubSlice_spec h (o := o) (n := n) (by unfold Cfg.usizeMax; omega) with ⟨h1, h2⟩ | ⟨h1, h2, h3⟩ | ⟨h1, -⟩
  · omega
  · exact h3
  · omega

example : demoSlice.getSubSlice Cfg.release64 demoMem 0 3 = .ok (.error .lengthOutOfBound) ∧
    demoSlice.getSubSlice Cfg.release64 demoMem 0 2 = .ok (.ok ⟨⟨some 0, 1⟩, 2⟩) := ⟨rfl, rfl⟩

/-! ## C14 -/

theorem C14_null_slice (mem : Mem α) (i o n : Nat) (v : α) :
    MemorySlice.null.len = 0 ∧
    MemorySlice.null.get mem i = .ok (.error .indexOutOfBound) ∧
    MemorySlice.null.assign mem i v = .ok (.error .indexOutOfBound) ∧
    MemorySlice.null.getSubSlice c mem o n = .ok (.error .indexOutOfBound) := ⟨rfl, rfl, rfl, rfl⟩

/-- The wrapped and the interpolating accessor on a null slice panic or report an error; neither touches memory. -/
theorem C14_null_slice_interpolated (mem : Mem α) (memF : Mem F32) (i : Int) (x : F32) :
    MemorySlice.null.getWrapped c mem i = .error .panic ∧
    MemorySlice.null.lerp c memF x =
      if F32.lt x F32.zero = false ∧ c.checks = true then .error .panic else .ok (.error .indexOutOfBound) := by
  have h0 : c.asIsize MemorySlice.null.length = 0 := by
    have := c.asIsize_eq (n := 0) (by have := c.pow_pred_ge; unfold Cfg.isizeMax; push_cast; omega)
    exact this
  have hz : (lit 0 : F32) = F32.zero := by decide
  refine ⟨?_, ?_⟩
  · unfold MemorySlice.getWrapped
    rw [h0, if_pos (by omega)]
    unfold MemorySlice.getWrappedUnchecked
    rw [h0]; simp [Cfg.irem]; rfl
  · unfold MemorySlice.lerp
    rw [hz]
    by_cases hx : F32.lt x F32.zero = true
    · simp [hx]; rfl
    · simp only [hx]
      by_cases hc : c.checks = true
      · have : c.usub MemorySlice.null.length 1 = .error .panic := by
          unfold Cfg.usub; rw [if_neg (by decide), if_pos hc]
        simp [this, hc]; rfl
      · have : c.usub MemorySlice.null.length 1 = .ok (2 ^ c.w - 1) := by
          unfold Cfg.usub; rw [if_neg (by decide), if_neg hc]; simp [MemorySlice.null]
        have hf : (F32.feq x (c.u2f (2 ^ c.w - 1)) &&
            F32.lt x (c.u2f MemorySlice.null.length - lit 1 + lit 10 * MemorySlice.epsilon)) = false := by
          have hneg : (c.u2f MemorySlice.null.length - lit 1 + lit 10 * MemorySlice.epsilon : F32).val < 0 := by
            show (F32.ofInt ((0 : Nat) : Int) - F32.ofRat 1 + F32.ofRat 10 * F32.ofRat (1 / 2 ^ 23)).val < 0
            decide +kernel
          rw [Bool.and_eq_false_iff]
          by_cases h1 : F32.lt x (c.u2f MemorySlice.null.length - lit 1 + lit 10 * MemorySlice.epsilon) = true
          · exfalso; apply hx
            rw [F32.lt_iff] at h1 ⊢
            refine ⟨h1.1, by decide, lt_trans h1.2.2 ?_⟩
            rw [show F32.zero.val = 0 by decide +kernel]; exact hneg
          · right; simpa using h1
        simp only [this, hc, bind, Except.bind, pure, Except.pure]
        rw [hf]
        simp [MemorySlice.get, MemorySlice.null]; rfl

example : MemorySlice.null.get demoMem 0 = .ok (.error .indexOutOfBound) := rfl

end Verif
