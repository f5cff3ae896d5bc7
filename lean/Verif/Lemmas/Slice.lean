import Verif.Spec.Slice

/-! # Helper lemmas: machine integers and slices -/

namespace Verif

variable {α : Type}

namespace Cfg
variable (c : Cfg)

theorem pow_w : (2 : Int) ^ c.w = 2 * 2 ^ (c.w - 1) := by
  have := c.w_ge
  rw [← pow_succ']; congr 1; omega

theorem pow_w_nat : 2 ^ c.w = 2 * 2 ^ (c.w - 1) := by
  have := c.w_ge
  rw [← pow_succ']; congr 1; omega

theorem pow_pred_ge : (2 : Int) ^ 15 ≤ 2 ^ (c.w - 1) := by
  have := c.w_ge
  exact pow_le_pow_right₀ (by norm_num) (by omega)

theorem pow_pred_ge_nat : 2 ^ 15 ≤ 2 ^ (c.w - 1) := by
  have := c.w_ge
  exact Nat.pow_le_pow_right (by norm_num) (by omega)

theorem wrapI_eq {a : Int} (h : c.IsIsize a) : c.wrapI a = a := by
  unfold IsIsize isizeMin isizeMax at h
  have := c.pow_w
  unfold wrapI
  rw [Int.emod_eq_of_lt] <;> omega

theorem asIsize_eq {n : Nat} (h : (n : Int) ≤ c.isizeMax) : c.asIsize n = n := by
  apply c.wrapI_eq
  refine ⟨?_, h⟩
  have := c.pow_pred_ge
  unfold isizeMin; omega

theorem asUsize_eq {n : Nat} (h : n < 2 ^ c.w) : c.asUsize (n : Int) = n := by
  unfold asUsize
  have h' : (n : Int) < 2 ^ c.w := by exact_mod_cast h
  rw [Int.emod_eq_of_lt (by omega) h']; simp

theorem lt_pow_of_le_isizeMax {n : Nat} (h : (n : Int) ≤ c.isizeMax) : n < 2 ^ c.w := by
  have h1 := c.pow_w
  unfold isizeMax at h
  have h2 := c.pow_pred_ge
  have : (n : Int) < 2 ^ c.w := by omega
  exact_mod_cast this

theorem iadd_eq {a b : Int} (h : c.IsIsize (a + b)) : c.iadd a b = .ok (a + b) := by
  unfold iadd; rw [if_pos ⟨h.1, h.2⟩]

theorem uadd_eq {a b : Nat} (h : a + b < 2 ^ c.w) : c.uadd a b = .ok (a + b) := by
  unfold uadd; rw [if_pos h]

theorem usub_eq {a b : Nat} (h : b ≤ a) : c.usub a b = .ok (a - b) := by
  unfold usub; rw [if_pos h]

theorem irem_eq {a b : Int} (h : 0 < b) : c.irem a b = .ok (a % b) := by
  unfold irem; rw [if_neg h.ne', if_neg (by rintro ⟨-, h'⟩; omega)]

end Cfg

variable {c : Cfg} {mem : Mem α} {s : MemorySlice} {xs : List α}

namespace Views

theorem length_eq (h : Views c mem s xs) : s.length = xs.length := by
  obtain ⟨_, _, _, _, h, _⟩ := h; exact h

theorem len_le (h : Views c mem s xs) : 4 * (xs.length : Int) ≤ c.isizeMax := by
  obtain ⟨_, pre, post, _, _, _, h⟩ := h
  simp only [List.length_append] at h; push_cast at h; omega

theorem len_le' (h : Views c mem s xs) : (xs.length : Int) ≤ c.isizeMax := by
  have := h.len_le; omega

theorem len_lt (h : Views c mem s xs) : xs.length < 2 ^ c.w := c.lt_pow_of_le_isizeMax h.len_le'

theorem asIsize_length (h : Views c mem s xs) : c.asIsize s.length = xs.length := by
  rw [h.length_eq]; exact c.asIsize_eq h.len_le'

theorem load (h : Views c mem s xs) {i : Nat} (hi : i < xs.length) : load mem s.ptr i = .ok xs[i] := by
  obtain ⟨b, pre, post, hp, hl, hm, hf⟩ := h
  unfold Verif.load
  simp only [hp, hm]
  have : (pre ++ xs ++ post)[pre.length + i]? = some xs[i] := by
    rw [List.append_assoc, List.getElem?_append_right (by omega), List.getElem?_append_left (by omega)]
    simp [hi]
  rw [this]

theorem getUnchecked (h : Views c mem s xs) {i : Nat} (hi : i < xs.length) :
    s.getUnchecked mem i = .ok xs[i] := h.load hi

theorem get (h : Views c mem s xs) {i : Nat} (hi : i < xs.length) :
    s.get mem i = .ok (.ok xs[i]) := by
  unfold MemorySlice.get
  rw [h.length_eq, if_neg (by omega), h.getUnchecked hi]; rfl

theorem get_out (h : Views c mem s xs) {i : Nat} (hi : xs.length ≤ i) :
    s.get mem i = .ok (.error .indexOutOfBound) := by
  unfold MemorySlice.get
  rw [h.length_eq, if_pos (by omega)]; rfl

/-- The memory after writing. -/
theorem store (h : Views c mem s xs) {i : Nat} (hi : i < xs.length) (v : α) :
    ∃ mem', Verif.store mem s.ptr i v = .ok mem' ∧ Views c mem' s (xs.set i v) ∧
      ∀ b j, cell mem' b j = if s.ptr.block = some b ∧ s.ptr.off + i = j then some v else cell mem b j := by
  obtain ⟨b, pre, post, hp, hl, hm, hf⟩ := h
  have hlt : pre.length + i < (pre ++ xs ++ post).length := by simp; omega
  refine ⟨_, by unfold Verif.store; simp only [hp, hm]; rw [if_pos hlt], ?_, ?_⟩
  · refine ⟨b, pre, post, hp, by simp [hl], ?_, by simpa using hf⟩
    simp only [if_true, Option.some.injEq]
    rw [List.append_assoc, List.set_append_right _ _ (by omega), List.append_assoc]
    congr 1
    rw [List.set_append_left _ _ (by omega)]
    simp
  · intro b' j
    simp only [cell, hp]
    by_cases hb : b' = b
    · subst hb
      simp only [hm, if_true, Option.bind_some, true_and]
      rw [List.getElem?_set]
      by_cases h : pre.length + i = j
      · subst h; simp; omega
      · simp [h]
    · simp [hb, Ne.symm hb]

theorem wrap_lt (hx : xs ≠ []) (i : Int) : (i % (xs.length : Int)).toNat < xs.length := by
  have : (0 : Int) < xs.length := by
    have := List.length_pos_iff.mpr hx; omega
  have h1 := Int.emod_nonneg i this.ne'
  have h2 := Int.emod_lt_of_pos i this
  omega

theorem getWrappedUnchecked (h : Views c mem s xs) (hx : xs ≠ []) (i : Int) :
    s.getWrappedUnchecked c mem i = .ok (wrapAt xs hx i) := by
  have hpos : (0 : Int) < xs.length := by
    have := List.length_pos_iff.mpr hx; omega
  unfold MemorySlice.getWrappedUnchecked
  rw [h.asIsize_length, c.irem_eq hpos]
  have hlt := wrap_lt hx i
  have h0 := Int.emod_nonneg i hpos.ne'
  have : c.asUsize (i % (xs.length : Int)) = (i % (xs.length : Int)).toNat := by
    conv_lhs => rw [← Int.toNat_of_nonneg h0]
    exact c.asUsize_eq (lt_trans hlt h.len_lt)
  show s.getUnchecked mem (c.asUsize (i % (xs.length : Int))) = _
  rw [this, h.getUnchecked hlt]; rfl

theorem wrapAt_of_lt (hx : xs ≠ []) {i : Int} (h0 : 0 ≤ i) (h1 : i < xs.length) :
    wrapAt xs hx i = xs[i.toNat]'(by omega) := by
  unfold wrapAt
  congr 1
  rw [Int.emod_eq_of_lt h0 h1]

theorem getUnchecked_int (h : Views c mem s xs) (hx : xs ≠ []) {i : Int} (h0 : 0 ≤ i) (h1 : i < xs.length) :
    s.getUnchecked mem (c.asUsize i) = .ok (wrapAt xs hx i) := by
  have : c.asUsize i = i.toNat := by
    conv_lhs => rw [← Int.toNat_of_nonneg h0]
    exact c.asUsize_eq (lt_trans (by omega) h.len_lt)
  rw [this, h.getUnchecked (by omega), wrapAt_of_lt hx h0 h1]

theorem getWrapped (h : Views c mem s xs) (hx : xs ≠ []) (i : Int) :
    s.getWrapped c mem i = .ok (wrapAt xs hx i) := by
  unfold MemorySlice.getWrapped
  rw [h.asIsize_length]
  split
  · exact h.getWrappedUnchecked hx i
  · rename_i hi; exact h.getUnchecked_int hx (by omega) (by omega)

theorem cell_eq (h : Views c mem s xs) {b i : Nat} (hb : s.ptr.block = some b) (hi : i < xs.length) :
    cell mem b (s.ptr.off + i) = some xs[i] := by
  obtain ⟨b', pre, post, hp, hl, hm, hf⟩ := h
  have : b' = b := by simpa [hp] using hb
  subst this
  simp only [cell, hm, hp, Option.bind_some]
  rw [List.append_assoc, List.getElem?_append_right (by omega), List.getElem?_append_left (by omega)]
  simp [hi]

theorem congr_shape {mem' : Mem α} (h : Views c mem s xs)
    (hs : ∀ b, (mem' b).map List.length = (mem b).map List.length) : Live c mem' s := by
  obtain ⟨b, pre, post, hp, hl, hm, hf⟩ := h
  have hb := hs b
  rw [hm, Option.map_some] at hb
  obtain ⟨cells, hc, hcl⟩ := Option.map_eq_some_iff.mp hb
  simp only [List.length_append] at hcl hf
  refine ⟨(cells.drop pre.length).take xs.length, b, cells.take pre.length,
    cells.drop (pre.length + xs.length), ?_, ?_, ?_, ?_⟩
  · rw [hp]; simp; omega
  · rw [hl]; simp; omega
  · rw [hc]; congr 1
    rw [← List.take_add, List.take_append_drop]
  · simp only [List.length_append, List.length_take, List.length_drop]
    rw [show min pre.length cells.length + min xs.length (cells.length - pre.length) +
      (cells.length - (pre.length + xs.length)) = pre.length + xs.length + post.length by omega]
    exact hf

end Views

theorem store_shape {mem mem' : Mem α} {p : Ptr} {i : Nat} {v : α} (h : store mem p i v = .ok mem') (b : Nat) :
    (mem' b).map List.length = (mem b).map List.length := by
  unfold store at h
  split at h
  · simp at h
  · split at h
    · simp at h
    · rename_i b' _ _ cells hm
      split at h
      · simp only [Except.ok.injEq] at h
        subst h
        by_cases hb : b = b'
        · subst hb; simp [hm]
        · simp [hb]
      · simp at h

end Verif
