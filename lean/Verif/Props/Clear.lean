import Verif.Model.Buffers
import Verif.Props.AnyOrder
import Verif.Props.Voice

/-! # C201: clearing the buffer through `get_ptr_slice_mut`

The slice handed out is the whole buffer of the effect and nothing else. Writing zeros through it silences a delay line and an all-pass for
good. It does not silence a comb, whose filter state is not in the buffer. -/

namespace Verif
variable {α : Type}

/-! ## Specification -/

/-- What `get_ptr_slice_mut` hands out: a pointer and a number of elements. -/
def Proc.handle : Proc α → Ptr × Nat
  | .delay d => d.getPtrSliceMut
  | .comb k => k.getPtrSliceMut
  | .allPass k => k.getPtrSliceMut

/-- The settings of the effect are finite numbers. -/
def Proc.FiniteSettings : Proc F32 → Prop
  | .comb k => k.feedback.isFin = true ∧ k.dampening.isFin = true ∧ k.dampeningInverse.isFin = true
  | _ => True

/-! ## The slice handed out -/

/-- The slice handed out is the buffer: the one the effect was built with, or the one last given to `change_buffer`; neither ticking nor the
setters of the comb change it. -/
theorem C201_handle [Add α] [Sub α] [Mul α] [Neg α] [Lit α] (s : MemorySlice) (d : DelayLine) (k : Comb α) (a : AllPass) (x : α) :
    (DelayLine.new s).getPtrSliceMut = (s.ptr, s.length) ∧ (Comb.new s : Comb α).getPtrSliceMut = (s.ptr, s.length) ∧
    (AllPass.new s).getPtrSliceMut = (s.ptr, s.length) ∧
    (d.changeBuffer s).getPtrSliceMut = (s.ptr, s.length) ∧ (k.changeBuffer s).getPtrSliceMut = (s.ptr, s.length) ∧
    (a.changeBuffer s).getPtrSliceMut = (s.ptr, s.length) ∧
    (k.setDampening x).getPtrSliceMut = k.getPtrSliceMut ∧ (k.setFeedback x).getPtrSliceMut = k.getPtrSliceMut ∧
    ∀ (c : Cfg) (mem : Mem α) (p : Proc α) (q : List α), Holds c mem p.line q →
      ∃ mem' p' o, p.tick c mem x = .ok (mem', p', o) ∧ p'.handle = p.handle := by
  refine ⟨rfl, rfl, rfl, rfl, rfl, rfl, rfl, rfl, fun c mem p q h => ?_⟩
  obtain ⟨p', o, v, hb, hp⟩ := Proc.tick_frame (c := c) (p := p) h.ne_nil x
  obtain ⟨mem', e, -⟩ := hp mem h
  refine ⟨mem', p', o, e, ?_⟩
  have hh : ∀ r : Proc α, r.handle = r.line.buffer.asSlice := fun r => by cases r <;> rfl
  rw [hh, hh, hb]

theorem fillThrough_views {c : Cfg} {mem : Mem α} {s : MemorySlice} {xs : List α} (h : Views c mem s xs) (v : α) (n : ℕ)
    (hn : n ≤ xs.length) :
    ∃ mem', fillThrough mem s.ptr v n = .ok mem' ∧ Views c mem' s (List.replicate n v ++ xs.drop n) ∧
      ∀ b j, ¬ InSlice s b j → cell mem' b j = cell mem b j := by
  induction n with
  | zero => exact ⟨mem, rfl, by simpa using h, fun _ _ _ => rfl⟩
  | succ n ih =>
    obtain ⟨m, e, hv, hc⟩ := ih (by omega)
    have hi : n < (List.replicate n v ++ xs.drop n).length := by simp; omega
    obtain ⟨m', e', hv', hc'⟩ := hv.store hi v
    refine ⟨m', by simp only [fillThrough, e, bind, Except.bind, e'], ?_, fun b j hb => ?_⟩
    · have : (List.replicate n v ++ xs.drop n).set n v = List.replicate (n + 1) v ++ xs.drop (n + 1) := by
        apply List.ext_getElem
        · simp; omega
        · intro i h1 h2
          simp only [List.getElem_set, List.getElem_append, List.getElem_replicate, List.getElem_drop, List.length_replicate]
          split_ifs <;> first | rfl | omega | (congr 1; omega)
      rwa [this] at hv'
    · rw [hc' b j, hc b j hb]
      split_ifs with hif
      · exfalso
        have := hv.length_eq
        simp only [List.length_append, List.length_replicate, List.length_drop] at this
        refine hb ⟨by grind, by grind, by grind⟩
      · rfl

/-- Filling the slice handed out never fails, leaves `v` in all places of the line, and touches nothing outside the buffer. -/
theorem C201_fill {c : Cfg} {mem : Mem α} {p : Proc α} {q : List α} (h : Holds c mem p.line q) (v : α) :
    ∃ mem', fillThrough mem p.handle.1 v p.handle.2 = .ok mem' ∧ Holds c mem' p.line (List.replicate q.length v) ∧
      ∀ b j, ¬ InSlice p.line.buffer b j → cell mem' b j = cell mem b j := by
  obtain ⟨xs, hv, hi, rfl⟩ := h
  obtain ⟨m, e, hv', hc⟩ := fillThrough_views hv v xs.length le_rfl
  have hh : p.handle = (p.line.buffer.ptr, xs.length) := by rw [← hv.length_eq]; cases p <;> rfl
  refine ⟨m, by rw [hh]; exact e, ⟨List.replicate xs.length v, by simpa using hv', by simpa using hi, ?_⟩, hc⟩
  rw [List.drop_replicate, List.take_replicate, List.replicate_append_replicate]
  congr 1
  simp

/-! ## Silence -/

/-- The claim in full: an effect, in whatever state its use left it, is silent for ever once its buffer is cleared and it is fed with
silence. -/
def C201_full : Prop :=
  ∀ (c : Cfg) (mem mem' : Mem F32) (p : Proc F32) (q : List F32), Holds c mem p.line q → (∀ x ∈ q, x.isFin = true) → p.FiniteSettings →
    (∀ k, p = .comb k → ∃ mem₀ s xs inp n, Views c mem₀ s xs ∧ Comb.stateAt c mem₀ (Comb.new s) inp n = .ok (mem, k)) →
    fillThrough mem p.handle.1 (lit 0) p.handle.2 = .ok mem' →
    ∀ n, ∃ y, p.outAt c mem' (fun _ => lit 0) n = .ok y ∧ IsZ y

theorem comb_silent {c : Cfg} {mem : Mem F32} {k : Comb F32} {q : List F32} (h : Holds c mem k.delayLine q) (hq : ∀ x ∈ q, IsZ x)
    (hz : IsZ k.filterState) (g1 : k.feedback.isFin = true) (g2 : k.dampening.isFin = true) (g3 : k.dampeningInverse.isFin = true) (n : ℕ) :
    ∃ y, Comb.outAt c mem k (fun _ => lit 0) n = .ok y ∧ IsZ y := by
  obtain ⟨w, f, h1, hf0, hf, h2, h3⟩ := C20_comb h (fun _ => lit 0)
  have hL : 0 < q.length := List.length_pos_iff.2 h.ne_nil
  have key : ∀ n, IsZ (f n) ∧ ∀ i < n + q.length, IsZ (w i) := by
    intro n
    induction n with
    | zero => exact ⟨hf0 ▸ hz, fun i hi => by rw [h1 i (by omega)]; exact hq _ (List.getElem_mem _)⟩
    | succ n ih =>
      have hfn : IsZ (f (n + 1)) := by
        rw [hf]; exact ((ih.2 n (by omega)).mul_right g3).add (ih.1.mul_right g2)
      refine ⟨hfn, fun i hi => ?_⟩
      by_cases hc : i < n + q.length
      · exact ih.2 i hc
      · obtain rfl : i = n + q.length := by omega
        rw [h2]; exact IsZ.lit0.add (hfn.mul_right g1)
  exact ⟨w n, h3 n, (key n).2 n (by omega)⟩

/-- What holds: the same for delay lines and all-passes, and for a comb whose filter state is zero. -/
theorem C201_partial {c : Cfg} {mem mem' : Mem F32} {p : Proc F32} {q : List F32} (h : Holds c mem p.line q) (hp : p.FiniteSettings)
    (hz : ∀ k, p = .comb k → IsZ k.filterState) (e : fillThrough mem p.handle.1 (lit 0) p.handle.2 = .ok mem') (n : ℕ) :
    ∃ y, p.outAt c mem' (fun _ => lit 0) n = .ok y ∧ IsZ y := by
  obtain ⟨m, e', hm, -⟩ := C201_fill h (lit 0 : F32)
  obtain rfl : m = mem' := by rw [e] at e'; exact (Except.ok.inj e').symm
  have hL : 0 < (List.replicate q.length (lit 0 : F32)).length := List.length_pos_iff.2 hm.ne_nil
  have half : (lit (1/2) : F32).isFin = true := by decide +kernel
  have hneg : IsZ (-(lit 0 : F32)) := by constructor <;> decide +kernel
  cases p with
  | delay d =>
    obtain ⟨w, h1, h2, h3⟩ := delay_orbit hm (fun _ => lit 0)
    refine ⟨w n, h3 n, ?_⟩
    refine stride_induction (P := fun n => IsZ (w n)) hL (fun i hi => ?_) (fun i _ => ?_) n
    · rw [h1 i hi, List.getElem_replicate]; exact .lit0
    · rw [h2]; exact .lit0
  | comb k =>
    rw [Proc.outAt_comb]
    exact comb_silent hm (fun x hx => by rw [List.eq_of_mem_replicate hx]; exact .lit0) (hz k rfl) hp.1 hp.2.1 hp.2.2 n
  | allPass k =>
    obtain ⟨w, h1, h2, h3⟩ := C24_all_pass hm (fun _ => lit 0)
    refine ⟨_, by rw [Proc.outAt_allPass]; exact h3 n, hneg.add ?_⟩
    refine stride_induction (P := fun n => IsZ (w n)) hL (fun i hi => ?_) (fun i hi => ?_) n
    · rw [h1 i hi, List.getElem_replicate]; exact .lit0
    · rw [h2]; exact IsZ.lit0.add (hi.mul_right half)

/-- What a comb does instead, in any arithmetic: one buffer length of the value written, and then what the filter state has left. -/
theorem C201_actual [Add α] [Sub α] [Mul α] [Neg α] [Lit α] {c : Cfg} {mem : Mem α} {k : Comb α} {q : List α}
    (h : Holds c mem k.delayLine q) (v : α) (inp : ℕ → α) :
    ∃ mem', fillThrough mem k.getPtrSliceMut.1 v k.getPtrSliceMut.2 = .ok mem' ∧
      (∀ n < q.length, Comb.outAt c mem' k inp n = .ok v) ∧
      Comb.outAt c mem' k inp q.length = .ok (inp 0 + (v * k.dampeningInverse + k.filterState * k.dampening) * k.feedback) := by
  obtain ⟨m, e, hm, -⟩ := C201_fill (p := .comb k) h v
  obtain ⟨w, f, h1, hf0, hf, h2, h3⟩ := C20_comb hm inp
  simp only [List.length_replicate, List.getElem_replicate] at h1 h2
  have hL : 0 < q.length := List.length_pos_iff.2 h.ne_nil
  refine ⟨m, e, fun n hn => by rw [h3, h1 n hn], ?_⟩
  rw [h3, ← Nat.zero_add q.length, h2, hf, hf0, h1 0 hL]

/-- The way to silence a comb: clear the buffer, set the dampening to zero for one tick of silence, and set it back to whatever it was. -/
theorem C201_remedy {c : Cfg} {mem : Mem F32} {k : Comb F32} {q : List F32} (h : Holds c mem k.delayLine q) (hf : k.filterState.isFin = true)
    (hg : k.feedback.isFin = true) {d : F32} (hd : d.isFin = true) (hd' : (lit 1 - d).isFin = true) :
    ∃ mem₁ mem₂ k' o, fillThrough mem k.getPtrSliceMut.1 (lit 0) k.getPtrSliceMut.2 = .ok mem₁ ∧
      (k.setDampening (lit 0)).tick c mem₁ (lit 0) = .ok (mem₂, k', o) ∧ IsZ o ∧
      ∀ n, ∃ y, Comb.outAt c mem₂ (k'.setDampening d) (fun _ => lit 0) n = .ok y ∧ IsZ y := by
  obtain ⟨m, e, hm, -⟩ := C201_fill (p := .comb k) h (lit 0 : F32)
  have hm' : Holds c m (k.setDampening (lit 0)).delayLine (List.replicate q.length (lit 0)) := hm
  obtain ⟨m₂, d', e₂, h₂⟩ := Comb.tick_spec hm' (lit 0)
  have hrep : ∀ x ∈ List.replicate q.length (lit 0 : F32), IsZ x := fun x hx => by rw [List.eq_of_mem_replicate hx]; exact .lit0
  have hhead := hrep _ (List.head_mem hm'.ne_nil)
  have one : (lit 1 - lit 0 : F32).isFin = true := by decide +kernel
  have hfs : IsZ ((List.replicate q.length (lit 0 : F32)).head hm'.ne_nil * (k.setDampening (lit 0)).dampeningInverse +
      (k.setDampening (lit 0)).filterState * (k.setDampening (lit 0)).dampening) :=
    (hhead.mul_right one).add (IsZ.mul_left hf .lit0)
  refine ⟨m, m₂, _, _, e, e₂, hhead, fun n => ?_⟩
  refine comb_silent (k := Comb.setDampening ⟨d', k.feedback, _, lit 0, lit 1 - lit 0⟩ d) h₂ (fun x hx => ?_) hfs hg hd hd' n
  rcases List.mem_append.1 hx with hx | hx
  · exact hrep x (List.mem_of_mem_tail hx)
  · rw [List.mem_singleton.1 hx]; exact IsZ.lit0.add (hfs.mul_right hg)

/-- One block of one sample, a one. -/
def oneMem : Mem F32 := fun b => if b = 0 then some [lit 1] else none

theorem oneMem_views : Views Cfg.release32 oneMem ⟨⟨some 0, 0⟩, 1⟩ [lit 1] :=
  ⟨0, [], [], rfl, rfl, rfl, by decide⟩

/-- The claim in full is false: a comb that has once heard a one keeps half of it in its filter state; after the clearing the second sample of
silence comes out as an eighth. -/
theorem C201_refuted : ¬ C201_full := by
  intro H
  have half : (lit (1/2) : F32).isFin = true := by decide +kernel
  have h0 : Holds Cfg.release32 oneMem (Comb.new ⟨⟨some 0, 0⟩, 1⟩ : Comb F32).delayLine [lit 1] := holds_new oneMem_views (by simp)
  obtain ⟨m, d', e, hm⟩ := Comb.tick_spec h0 (lit 0)
  set k : Comb F32 := { (Comb.new ⟨⟨some 0, 0⟩, 1⟩ : Comb F32) with
    delayLine := d', filterState := (lit 1 : F32) * lit (1/2) + lit 0 * lit (1/2) } with hk
  obtain ⟨m', e', -, e2⟩ := C201_actual (k := k) hm (lit 0) (fun _ => lit 0)
  obtain ⟨y, hy, hz⟩ := H _ m m' (.comb k) _ hm (by
      intro x hx
      simp only [List.tail_cons, List.nil_append, List.mem_singleton, List.head_cons] at hx
      rw [hx]; decide +kernel) ⟨half, half, half⟩
    (fun k' hk' => by
      obtain rfl : k = k' := Proc.comb.inj hk'
      refine ⟨oneMem, _, _, fun _ => lit 0, 1, oneMem_views, ?_⟩
      simp only [Comb.stateAt, bind, Except.bind, pure, Except.pure]
      rw [e]; rfl) e' 1
  rw [Proc.outAt_comb] at hy
  have : y = (lit 0 : F32) + (lit 0 * lit (1/2) + ((lit 1 : F32) * lit (1/2) + lit 0 * lit (1/2)) * lit (1/2)) * lit (1/2) :=
    Except.ok.inj (hy.symm.trans e2)
  have h8 : ((lit 0 : F32) + (lit 0 * lit (1/2) + ((lit 1 : F32) * lit (1/2) + lit 0 * lit (1/2)) * lit (1/2)) * lit (1/2)).val ≠ 0 := by
    decide +kernel
  exact h8 (this ▸ hz.2)

/-! ## Concrete cases -/

/-- Filling writes both samples of the slice and leaves its neighbours alone. -/
example : (fillThrough (fun b => if b = 0 then some [1, 2, 3, 4] else none : Mem ℕ)
    (Comb.new (MemorySlice.fromSlice 0 1 2) : Comb ℚ).getPtrSliceMut.1 0 (Comb.new (MemorySlice.fromSlice 0 1 2) : Comb ℚ).getPtrSliceMut.2).map
      (fun m => m 0) = .ok (some [1, 0, 0, 4]) := by
  rfl

/-- An all-pass holding a one is silenced. -/
example (n : ℕ) : ∃ mem', fillThrough oneMem ⟨some 0, 0⟩ (lit 0) 1 = .ok mem' ∧
    ∃ y, (Proc.allPass (AllPass.new ⟨⟨some 0, 0⟩, 1⟩) : Proc F32).outAt Cfg.release32 mem' (fun _ => lit 0) n = .ok y ∧ IsZ y := by
  have h : Holds Cfg.release32 oneMem (Proc.allPass (AllPass.new ⟨⟨some 0, 0⟩, 1⟩) : Proc F32).line [lit 1] := holds_new oneMem_views (by simp)
  obtain ⟨m, e, -⟩ := C201_fill h (lit 0)
  exact ⟨m, e, C201_partial h trivial (by simp) e n⟩

/-- Without the clearing it is not: the one comes out. -/
example : ((Proc.allPass (AllPass.new ⟨⟨some 0, 0⟩, 1⟩) : Proc F32).outAt Cfg.release32 oneMem (fun _ => lit 0) 0).map F32.val = .ok 1 := by
  decide +kernel

end Verif
