import Mathlib.Tactic.FinCases
import Verif.Lemmas.Trace
import Verif.Props.Slice

/-! # C119, C120: several processors in one memory

A reverb runs many combs, all-passes and delay lines over parts of one static buffer. -/

namespace Verif

variable {α : Type}

/-! ## Specification -/

/-- Element `j` of block `b` belongs to the slice. -/
def InSlice (s : MemorySlice) (b j : ℕ) : Prop :=
  s.ptr.block = some b ∧ s.ptr.off ≤ j ∧ j < s.ptr.off + s.length

/-- Two slices without a common element. -/
def Apart (s t : MemorySlice) : Prop := ∀ b j, ¬ (InSlice s b j ∧ InSlice t b j)

/-- One of the processors of the library that are built on a delay line. -/
inductive Proc (α : Type) where
  | delay (d : DelayLine)
  | comb (k : Comb α)
  | allPass (k : AllPass)

/-- The delay line inside. -/
def Proc.line : Proc α → DelayLine
  | .delay d => d
  | .comb k => k.delayLine
  | .allPass k => k.delayLine

/-! ## Frame lemmas -/

/-- A slice whose cells did not change still views the same samples. -/
theorem Views.frame {c : Cfg} {mem mem' : Mem α} {s : MemorySlice} {xs : List α} (h : Views c mem s xs)
    (hs : ∀ b, (mem' b).map List.length = (mem b).map List.length)
    (hc : ∀ b j, InSlice s b j → cell mem' b j = cell mem b j) : Views c mem' s xs := by
  obtain ⟨ys, hy⟩ := h.congr_shape hs
  have hl : ys.length = xs.length := by rw [← hy.length_eq, h.length_eq]
  obtain ⟨b, hb⟩ : ∃ b, s.ptr.block = some b := by
    obtain ⟨b, pre, post, hp, -⟩ := h; exact ⟨b, by rw [hp]⟩
  have : ys = xs := by
    apply List.ext_getElem hl
    intro i h1 h2
    have e1 := hy.cell_eq hb h1
    have e2 := h.cell_eq hb h2
    rw [hc b _ ⟨hb, by omega, by rw [h.length_eq]; omega⟩, e2] at e1
    simpa using e1.symm
  exact this ▸ hy

/-- Writing into a delay line: the new cursor does not depend on the memory, and only the slice changes. -/
theorem Holds.write_frame {c : Cfg} {d : DelayLine} {q : List α} (v : α) :
    ∃ d' : DelayLine, d'.buffer = d.buffer ∧ ∀ mem, Holds c mem d q → ∃ mem',
      d.writeAndAdvance c mem v = .ok (mem', d') ∧ Holds c mem' d' (q.tail ++ [v]) ∧
      (∀ b, (mem' b).map List.length = (mem b).map List.length) ∧
      ∀ b j, ¬ InSlice d.buffer b j → cell mem' b j = cell mem b j := by
  refine ⟨{ d with index := if d.index + 1 = d.buffer.length then 0 else d.index + 1 }, rfl, fun mem h => ?_⟩
  obtain ⟨mem', d', e, hb, hs, hh⟩ := h.write v
  obtain ⟨xs, hv, hi, rfl⟩ := h
  obtain ⟨mem2, h1, h2, h3⟩ := hv.store hi v
  have hadv := advance_eq hv hi
  have : d.writeAndAdvance c mem v =
      .ok (mem2, { d with index := if d.index + 1 = xs.length then 0 else d.index + 1 }) := by
    unfold DelayLine.writeAndAdvance MemorySlice.assignUnchecked
    rw [h1, hadv]; rfl
  rw [this] at e
  obtain ⟨rfl, rfl⟩ : mem2 = mem' ∧ _ = d' := by simpa using e
  rw [hv.length_eq]
  refine ⟨mem2, this, hh, hs, fun b j hn => ?_⟩
  rw [h3, if_neg]
  rintro ⟨k1, rfl⟩
  exact hn ⟨k1, by omega, by rw [hv.length_eq]; omega⟩

theorem Holds.frame {c : Cfg} {mem mem' : Mem α} {d : DelayLine} {q : List α} (h : Holds c mem d q)
    (hs : ∀ b, (mem' b).map List.length = (mem b).map List.length)
    (hc : ∀ b j, InSlice d.buffer b j → cell mem' b j = cell mem b j) : Holds c mem' d q := by
  obtain ⟨xs, hv, hi, e⟩ := h
  exact ⟨xs, hv.frame hs hc, hi, e⟩

section
variable [Add α] [Mul α] [Neg α] [Lit α]

/-- One sample through a processor: `tick` of src/comb.rs:46-55 and src/all_pass.rs:29-39; for a bare delay line `read`
followed by `write_and_advance` (src/delay_line.rs:28-30, 44-54). -/
def Proc.tick (c : Cfg) (mem : Mem α) (x : α) : Proc α → M (Mem α × Proc α × α)
  | .delay d => do
    let o ← d.read mem
    let (mem', d') ← d.writeAndAdvance c mem x
    return (mem', .delay d', o)
  | .comb k => do
    let (mem', k', o) ← k.tick c mem x
    return (mem', .comb k', o)
  | .allPass k => do
    let (mem', k', o) ← k.tick c mem x
    return (mem', .allPass k', o)

/-- A schedule: which processor gets its next sample, and the sample. The outputs come with the processor's name. -/
def runRack {ι : Type} [DecidableEq ι] (c : Cfg) : Mem α → (ι → Proc α) → List (ι × α) → M (List (ι × α))
  | _, _, [] => .ok []
  | mem, ps, (i, x) :: rest => do
    let (mem', p', o) ← (ps i).tick c mem x
    let os ← runRack c mem' (Function.update ps i p') rest
    return (i, o) :: os

/-- One processor alone. -/
def runAlone (c : Cfg) : Mem α → Proc α → List α → M (List α)
  | _, _, [] => .ok []
  | mem, p, x :: rest => do
    let (mem', p', o) ← p.tick c mem x
    let os ← runAlone c mem' p' rest
    return o :: os

/-- What concerns processor `i`, in order. -/
def only {ι β : Type} [DecidableEq ι] (i : ι) (l : List (ι × β)) : List β :=
  (l.filter (fun e => e.1 = i)).map Prod.snd

/-! ## Lemmas -/

/-- A tick, with everything but the memory determined by the processor and the queue in its buffer. -/
theorem Proc.tick_frame {c : Cfg} {p : Proc α} {q : List α} (hq : q ≠ []) (x : α) :
    ∃ (p' : Proc α) (o v : α), p'.line.buffer = p.line.buffer ∧ ∀ mem, Holds c mem p.line q → ∃ mem',
      p.tick c mem x = .ok (mem', p', o) ∧ Holds c mem' p'.line (q.tail ++ [v]) ∧
      (∀ b, (mem' b).map List.length = (mem b).map List.length) ∧
      ∀ b j, ¬ InSlice p.line.buffer b j → cell mem' b j = cell mem b j := by
  cases p with
  | delay d =>
    obtain ⟨d', hb, hd⟩ := Holds.write_frame (c := c) (d := d) (q := q) x
    refine ⟨.delay d', q.head hq, x, hb, fun mem h => ?_⟩
    obtain ⟨mem', e, hh, hs, hc⟩ := hd mem h
    refine ⟨mem', ?_, hh, hs, hc⟩
    have hr := h.read
    simp only [Proc.line] at hr
    simp only [Proc.tick, hr, e, bind, Except.bind, pure, Except.pure]
  | comb k =>
    obtain ⟨d', hb, hd⟩ := Holds.write_frame (c := c) (d := k.delayLine) (q := q)
      (x + (q.head hq * k.dampeningInverse + k.filterState * k.dampening) * k.feedback)
    refine ⟨.comb { k with delayLine := d', filterState := q.head hq * k.dampeningInverse + k.filterState * k.dampening },
      q.head hq, x + (q.head hq * k.dampeningInverse + k.filterState * k.dampening) * k.feedback, hb, fun mem h => ?_⟩
    obtain ⟨mem', e, hh, hs, hc⟩ := hd mem h
    refine ⟨mem', ?_, hh, hs, hc⟩
    have hr := h.read
    simp only [Proc.line] at hr
    simp only [Proc.tick, Comb.tick, hr, e, bind, Except.bind, pure, Except.pure]
  | allPass k =>
    obtain ⟨d', hb, hd⟩ := Holds.write_frame (c := c) (d := k.delayLine) (q := q) (x + q.head hq * lit (1/2))
    refine ⟨.allPass ⟨d'⟩, -x + q.head hq, x + q.head hq * lit (1/2), hb, fun mem h => ?_⟩
    obtain ⟨mem', e, hh, hs, hc⟩ := hd mem h
    refine ⟨mem', ?_, hh, hs, hc⟩
    have hr := h.read
    simp only [Proc.line] at hr
    simp only [Proc.tick, AllPass.tick, hr, e, bind, Except.bind, pure, Except.pure]

/-- A processor alone sees only its own buffer. -/
theorem runAlone_congr {c : Cfg} (ins : List α) : ∀ {mem mem' : Mem α} {p : Proc α} {q : List α},
    Holds c mem p.line q → Holds c mem' p.line q → runAlone c mem p ins = runAlone c mem' p ins := by
  induction ins with
  | nil => intros; rfl
  | cons x rest ih =>
    intro mem mem' p q h h'
    obtain ⟨p', o, v, -, ht⟩ := Proc.tick_frame (c := c) (p := p) h.ne_nil x
    obtain ⟨m1, e1, hh1, -⟩ := ht mem h
    obtain ⟨m2, e2, hh2, -⟩ := ht mem' h'
    simp only [runAlone, e1, e2, bind, Except.bind]
    rw [ih hh1 hh2]

/-! ## C119 -/

/-- C119: processors whose buffers have no element in common do not disturb one another. Whatever the order in which
they get their samples, nothing fails, every sample gets its answer, and each processor answers exactly as if it were
alone. -/
theorem C119_independent {ι : Type} [DecidableEq ι] {c : Cfg} (sched : List (ι × α)) :
    ∀ {mem : Mem α} {ps : ι → Proc α}, (∀ i, ∃ q, Holds c mem (ps i).line q) →
      (∀ i j, i ≠ j → Apart (ps i).line.buffer (ps j).line.buffer) →
      ∃ outs, runRack c mem ps sched = .ok outs ∧ outs.map Prod.fst = sched.map Prod.fst ∧
        ∀ i, runAlone c mem (ps i) (only i sched) = .ok (only i outs) := by
  induction sched with
  | nil => intro mem ps _ _; exact ⟨[], rfl, rfl, fun i => rfl⟩
  | cons e rest ih =>
    obtain ⟨i, x⟩ := e
    intro mem ps hl hd
    obtain ⟨q, hq⟩ := hl i
    obtain ⟨p', o, v, hb, ht⟩ := Proc.tick_frame (c := c) (p := ps i) hq.ne_nil x
    obtain ⟨mem', e1, hh, hs, hc⟩ := ht mem hq
    -- the others keep what they hold
    have hkeep : ∀ j, j ≠ i → ∀ r, Holds c mem (ps j).line r → Holds c mem' (ps j).line r := fun j hj r hr =>
      hr.frame hs (fun b k hk => hc b k (fun hk' => hd j i hj b k ⟨hk, hk'⟩))
    have hbuf : ∀ j, (Function.update ps i p' j).line.buffer = (ps j).line.buffer := fun j => by
      by_cases hj : j = i
      · subst hj; rw [Function.update_self, hb]
      · rw [Function.update_of_ne hj]
    obtain ⟨outs, h1, h2, h3⟩ := ih (mem := mem') (ps := Function.update ps i p')
      (fun j => by
        by_cases hj : j = i
        · subst hj; rw [Function.update_self]; exact ⟨_, hh⟩
        · obtain ⟨r, hr⟩ := hl j
          rw [Function.update_of_ne hj]; exact ⟨r, hkeep j hj r hr⟩)
      (fun j k hjk => by rw [hbuf, hbuf]; exact hd j k hjk)
    refine ⟨(i, o) :: outs, ?_, by simp [h2], fun j => ?_⟩
    · simp only [runRack, e1, h1, bind, Except.bind, pure, Except.pure]
    · by_cases hj : j = i
      · subst hj
        have := h3 j
        rw [Function.update_self] at this
        simp only [only, List.filter_cons, decide_true, if_true, List.map_cons] at this ⊢
        simp only [runAlone, e1, bind, Except.bind]
        rw [this]; rfl
      · have := h3 j
        rw [Function.update_of_ne hj] at this
        obtain ⟨r, hr⟩ := hl j
        have hne : ¬ i = j := fun h => hj h.symm
        simp only [only, List.filter_cons, hne, decide_false, Bool.false_eq_true, if_false] at this ⊢
        rw [runAlone_congr _ hr (hkeep j hj r hr)]
        exact this

end

/-- Three processors in the two halves and the end of one block: the hypotheses of `C119_independent` hold, and in the
interleaved run each answers its own samples. -/
def rackMem : Mem F32 := fun b => if b = 0 then some [lit 0, lit 0, lit 0, lit 0, lit 0] else none
def rack : Fin 3 → Proc F32
  | 0 => .comb (Comb.new (MemorySlice.fromSlice 0 0 2))
  | 1 => .allPass (AllPass.new (MemorySlice.fromSlice 0 2 1))
  | 2 => .delay (DelayLine.new (MemorySlice.fromSlice 0 3 2))

theorem rack_live : ∀ i, ∃ q, Holds Cfg.release32 rackMem (rack i).line q := by
  intro i
  fin_cases i
  · exact ⟨_, [lit 0, lit 0], ⟨0, [], [lit 0, lit 0, lit 0], rfl, rfl, rfl, by decide⟩, by decide, rfl⟩
  · exact ⟨_, [lit 0], ⟨0, [lit 0, lit 0], [lit 0, lit 0], rfl, rfl, rfl, by decide⟩, by decide, rfl⟩
  · exact ⟨_, [lit 0, lit 0], ⟨0, [lit 0, lit 0, lit 0], [], rfl, rfl, rfl, by decide⟩, by decide, rfl⟩

theorem rack_apart : ∀ i j, i ≠ j → Apart (rack i).line.buffer (rack j).line.buffer := by
  intro i j h b k
  fin_cases i <;> fin_cases j <;> first | exact absurd rfl h | skip
  all_goals
    simp only [InSlice, rack, Proc.line, Comb.new, AllPass.new, DelayLine.new, MemorySlice.fromSlice]
    omega

example : ∃ outs, runRack Cfg.release32 rackMem rack
    [(0, lit 1), (2, lit 5), (1, lit 3), (0, lit 0), (1, lit 0), (0, lit 0), (2, lit 0), (2, lit 0)] = .ok outs ∧
    outs.map Prod.fst = [0, 2, 1, 0, 1, 0, 2, 2] ∧ runAlone Cfg.release32 rackMem (rack 0) [lit 1, lit 0, lit 0] = .ok (only 0 outs) := by
  obtain ⟨outs, h1, h2, h3⟩ := C119_independent
    [(0, lit 1), (2, lit 5), (1, lit 3), (0, lit 0), (1, lit 0), (0, lit 0), (2, lit 0), (2, lit 0)] rack_live rack_apart
  exact ⟨outs, h1, by rw [h2]; rfl, h3 0⟩

/-! ## C120: copies

`DelayLine`, `Comb` and `AllPass` are `Copy`: a copy has its own cursor and settings. -/

/-- The claim that the copies do not disturb each other: what a delay line reads does not depend on whether a copy of it
was written to. -/
def C120_full : Prop :=
  ∀ (c : Cfg) (mem mem' : Mem F32) (original copy copy' : DelayLine) (q : List F32) (v : F32),
    Holds c mem original q → copy = original → copy.writeAndAdvance c mem v = .ok (mem', copy') →
      original.read mem' = original.read mem

/-- C120 as the code has it: the sample written into the copy is the next one the original reads, for every delay line,
buffer and sample. -/
theorem C120_actual {c : Cfg} {mem : Mem α} {d : DelayLine} {q : List α} (h : Holds c mem d q) (v : α) :
    ∃ mem' d', d.writeAndAdvance c mem v = .ok (mem', d') ∧ d.read mem' = .ok v := by
  obtain ⟨xs, hv, hi, rfl⟩ := h
  obtain ⟨mem2, h1, h2, h3⟩ := hv.store hi v
  have hadv := advance_eq hv hi
  refine ⟨mem2, { d with index := if d.index + 1 = xs.length then 0 else d.index + 1 }, ?_, ?_⟩
  · unfold DelayLine.writeAndAdvance MemorySlice.assignUnchecked
    rw [h1, hadv]; rfl
  · unfold DelayLine.read
    rw [h2.getUnchecked (by simpa using hi)]
    simp

theorem C120_refuted : ¬ C120_full := by
  intro h
  have hh : Holds Cfg.release32 rackMem (rack 2).line [lit 0, lit 0] :=
    ⟨[lit 0, lit 0], ⟨0, [lit 0, lit 0, lit 0], [], rfl, rfl, rfl, by decide⟩, by decide, rfl⟩
  obtain ⟨mem', d', e, hr⟩ := C120_actual hh (lit 1)
  have := h _ _ _ _ _ _ _ _ hh rfl e
  rw [hr, hh.read] at this
  revert this
  simp only [List.head_cons, Except.ok.injEq]
  decide +kernel

/-- C120, the true part: a copy moved to a buffer of its own (`change_buffer`) no longer disturbs the original, whatever
is written to it. -/
theorem C120_partial {c : Cfg} {mem : Mem α} {d : DelayLine} {s : MemorySlice} {q ys : List α} (h : Holds c mem d q)
    (hs : Views c mem s ys) (hi : d.index < ys.length) (ha : Apart d.buffer s) (v : α) :
    ∃ mem' d', (d.changeBuffer s).writeAndAdvance c mem v = .ok (mem', d') ∧ Holds c mem' d q := by
  have h2 : Holds c mem (d.changeBuffer s) (ys.drop d.index ++ ys.take d.index) := ⟨ys, hs, hi, rfl⟩
  obtain ⟨d', hb, hd⟩ := Holds.write_frame (c := c) (d := d.changeBuffer s) (q := ys.drop d.index ++ ys.take d.index) v
  obtain ⟨mem', e, -, hsh, hc⟩ := hd mem h2
  exact ⟨mem', d', e, h.frame hsh (fun b j hj => hc b j (fun hj' => ha b j ⟨hj, hj'⟩))⟩

example : ∃ mem' d', ((rack 0).line.changeBuffer (MemorySlice.fromSlice 0 3 2)).writeAndAdvance Cfg.release32 rackMem (lit 7)
    = .ok (mem', d') ∧ Holds Cfg.release32 mem' (rack 0).line [lit 0, lit 0] :=
  C120_partial ⟨[lit 0, lit 0], ⟨0, [], [lit 0, lit 0, lit 0], rfl, rfl, rfl, by decide⟩, by decide, rfl⟩
    (ys := [lit 0, lit 0]) ⟨0, [lit 0, lit 0, lit 0], [], rfl, rfl, rfl, by decide⟩ (by decide) (rack_apart 0 2 (by decide)) _

/-! ## C121: freed memory

`from_slice(&[f32])` and `from_slice_mut` return a slice without a lifetime (src/memory/memory_slice.rs:342-356), so safe
code can keep it when the array is gone. -/

/-- The array in block `b` is dropped. -/
def freeBlock (mem : Mem α) (b : ℕ) : Mem α := fun b' => if b' = b then none else mem b'

/-- The claim that a slice stays safe as long as it exists: reading it never is undefined behaviour, even after its array
was dropped. -/
def C121_full : Prop :=
  ∀ (c : Cfg) (mem : Mem F32) (xs : List F32) (b off i : ℕ), Views c mem (MemorySlice.fromSlice b off xs.length) xs →
    (MemorySlice.fromSlice b off xs.length).get (freeBlock mem b) i ≠ .error .ub

/-- C121 as the code has it: once the array is dropped every read and write that is in range is undefined behaviour, and
only those. -/
theorem C121_actual (mem : Mem α) (b off len i : ℕ) (v : α) :
    ((MemorySlice.fromSlice b off len).get (freeBlock mem b) i = .error .ub ↔ i < len) ∧
      ((MemorySlice.fromSlice b off len).assign (freeBlock mem b) i v = .error .ub ↔ i < len) := by
  unfold MemorySlice.get MemorySlice.assign MemorySlice.fromSlice MemorySlice.getUnchecked MemorySlice.assignUnchecked
    load store freeBlock
  by_cases h : i < len
  · simp [h, bind, Except.bind, Nat.not_le.2 h]
  · simp [h, Nat.not_lt.1 h, pure, Except.pure]

theorem C121_refuted : ¬ C121_full := fun h =>
  h Cfg.release32 rackMem [lit 0, lit 0] 0 0 0 ⟨0, [], [lit 0, lit 0, lit 0], rfl, rfl, rfl, by decide⟩
    ((C121_actual rackMem 0 0 2 0 (lit 0)).1.2 (by decide))

/-- C121, the true part: dropping other arrays does not affect a slice, its elements stay readable and writable. -/
theorem C121_partial {c : Cfg} {mem : Mem α} {s : MemorySlice} {xs : List α} (h : Views c mem s xs) {b : ℕ}
    (hb : s.ptr.block ≠ some b) :
    Views c (freeBlock mem b) s xs ∧ (∀ i (hi : i < xs.length), s.get (freeBlock mem b) i = .ok (.ok xs[i])) ∧
    ∀ i < xs.length, ∀ v, ∃ mem', s.assign (freeBlock mem b) i v = .ok (.ok mem') ∧ Views c mem' s (xs.set i v) := by
  have h' : Views c (freeBlock mem b) s xs := by
    obtain ⟨b', pre, post, hp, hl, hm, hf⟩ := h
    refine ⟨b', pre, post, hp, hl, ?_, hf⟩
    have : b' ≠ b := fun e => hb (by rw [hp, e])
    simp only [freeBlock, if_neg this, hm]
  refine ⟨h', fun i hi => ?_, fun i hi v => ?_⟩
  · exact h'.get hi
  · obtain ⟨mem', h1, h2, -⟩ := C01_assign_in h' hi v
    exact ⟨mem', h1, h2⟩

example : Views Cfg.release32 (freeBlock rackMem 1) (MemorySlice.fromSlice 0 3 2) [lit 0, lit 0] :=
  (C121_partial ⟨0, [lit 0, lit 0, lit 0], [], rfl, rfl, rfl, by decide⟩ (by decide)).1

end Verif
