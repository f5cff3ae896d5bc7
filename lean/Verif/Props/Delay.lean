import Verif.Lemmas.Delay
import Verif.Props.SliceWrapped

/-! # C15-C19: delay lines -/

namespace Verif
open F32

variable {α : Type} {c : Cfg} {mem : Mem α} {s : MemorySlice} {d : DelayLine} {xs q : List α}

/-! ## C15 -/

/-- Feed samples through a delay line: read the output, then write the input. -/
def delayRun (c : Cfg) : Mem α → DelayLine → List α → M (Mem α × DelayLine × List α)
  | mem, d, [] => .ok (mem, d, [])
  | mem, d, x :: rest => do
    let o ← d.read mem
    let (mem', d') ← d.writeAndAdvance c mem x
    let (mem'', d'', os) ← delayRun c mem' d' rest
    return (mem'', d'', o :: os)

theorem delayRun_spec : ∀ (ins : List α) {mem : Mem α} {d : DelayLine} {q : List α}, Holds c mem d q →
    ∃ mem' d', delayRun c mem d ins = .ok (mem', d', (q ++ ins).take ins.length) ∧ d'.buffer = d.buffer ∧
      Holds c mem' d' ((q ++ ins).drop ins.length) := by
  intro ins
  induction ins with
  | nil => intro mem d q h; exact ⟨mem, d, by simp [delayRun], rfl, by simpa using h⟩
  | cons x rest ih =>
    intro mem d q h
    obtain ⟨mem1, d1, h1, hb1, -, hq1⟩ := h.write x
    obtain ⟨mem2, d2, h2, hb2, hq2⟩ := ih hq1
    obtain ⟨y, ys, rfl⟩ := List.exists_cons_of_ne_nil h.ne_nil
    refine ⟨mem2, d2, ?_, hb2.trans hb1, ?_⟩
    · simp only [delayRun, h.read, h1, h2, bind, Except.bind, pure, Except.pure]
      simp
    · simpa using hq2

/-- C15: reading then writing each sample returns, at step `n`, the initial buffer cell `n` while `n < L`, and then the
sample written at step `n - L`. -/
theorem C15_delay_exactly (h : Views c mem s xs) (hx : xs ≠ []) (ins : List α) :
    ∃ mem' d' outs, delayRun c mem (DelayLine.new s) ins = .ok (mem', d', outs) ∧ outs.length = ins.length ∧
      ∀ n < ins.length, outs[n]? = if n < xs.length then xs[n]? else ins[n - xs.length]? := by
  obtain ⟨mem', d', h1, -, -⟩ := delayRun_spec ins (holds_new h hx)
  refine ⟨mem', d', _, h1, by simp, ?_⟩
  intro n hn
  rw [List.getElem?_take_of_lt hn]
  by_cases hl : n < xs.length
  · rw [if_pos hl, List.getElem?_append_left hl]
  · rw [if_neg hl, List.getElem?_append_right (by omega)]

example : Views Cfg.release64 demoMem demoSlice [20, 30, 40] ∧ [20, 30, 40] ≠ [] ∧
    (delayRun Cfg.release64 demoMem (DelayLine.new demoSlice) [1, 2, 3, 4, 5]).map (·.2.2)
      = .ok [20, 30, 40, 1, 2] := ⟨demo_views, by decide, by rfl⟩

/-! ## C16 -/

/-- The calls of the delay-line interface (cells `α`). -/
inductive DelayOp (α : Type) where
  | read
  | readWrappedAt (offset : Int)
  | write (v : α)
  | advance
  | changeBuffer (s : MemorySlice)

/-- One call; results of reads are dropped. -/
def DelayOp.step (c : Cfg) (mem : Mem α) (d : DelayLine) : DelayOp α → M (Mem α × DelayLine)
  | .read => do let _ ← d.read mem; return (mem, d)
  | .readWrappedAt o => do let _ ← d.readWrappedAt c mem o; return (mem, d)
  | .write v => d.writeAndAdvance c mem v
  | .advance => do let d' ← d.advance c; return (mem, d')
  | .changeBuffer s => .ok (mem, d.changeBuffer s)

def runDelayOps (c : Cfg) : Mem α → DelayLine → List (DelayOp α) → M (Mem α × DelayLine)
  | mem, d, [] => .ok (mem, d)
  | mem, d, op :: rest => do let (mem', d') ← op.step c mem d; runDelayOps c mem' d' rest

/-- What C16 allows in a history: new buffers are live and not empty, and offsets do not overflow `isize` together
with any cursor inside the current buffer (of length `n`). -/
def DelayOpsOk (c : Cfg) (mem : Mem α) : Nat → List (DelayOp α) → Prop
  | _, [] => True
  | _, .changeBuffer s :: rest => Live c mem s ∧ 0 < s.length ∧ DelayOpsOk c mem s.length rest
  | n, .readWrappedAt o :: rest => c.isizeMin ≤ o ∧ o + n ≤ c.isizeMax ∧ DelayOpsOk c mem n rest
  | n, _ :: rest => DelayOpsOk c mem n rest

/-- The extra condition of the partial version: no new buffer is shorter than the one it replaces. -/
def BuffersGrow : Nat → List (DelayOp α) → Prop
  | _, [] => True
  | n, .changeBuffer s :: rest => n ≤ s.length ∧ BuffersGrow s.length rest
  | n, _ :: rest => BuffersGrow n rest

theorem DelayOpsOk.congr {mem mem' : Mem α} (hs : ∀ b, (mem' b).map List.length = (mem b).map List.length) :
    ∀ {ops : List (DelayOp α)} {n : Nat}, DelayOpsOk c mem n ops → DelayOpsOk c mem' n ops := by
  intro ops
  induction ops with
  | nil => intro n _; trivial
  | cons op rest ih =>
    intro n h
    cases op with
    | changeBuffer s =>
      obtain ⟨⟨ys, hv⟩, h2, h3⟩ := h
      exact ⟨hv.congr_shape hs, h2, ih h3⟩
    | readWrappedAt o => exact ⟨h.1, h.2.1, ih h.2.2⟩
    | read => exact ih (n := n) h
    | write v => exact ih (n := n) h
    | advance => exact ih (n := n) h

/-- C16 for histories that never switch to a shorter buffer: no panic, no access outside the buffer. -/
theorem C16_stays_inside_partial : ∀ (ops : List (DelayOp α)) {mem : Mem α} {d : DelayLine} {q : List α},
    Holds c mem d q → DelayOpsOk c mem d.buffer.length ops → BuffersGrow d.buffer.length ops →
    ∃ mem' d' q', runDelayOps c mem d ops = .ok (mem', d') ∧ Holds c mem' d' q' := by
  intro ops
  induction ops with
  | nil => intro mem d q h _ _; exact ⟨mem, d, q, rfl, h⟩
  | cons op rest ih =>
    intro mem d q h hok hg
    cases op with
    | read =>
      obtain ⟨m', d', q', e, hh⟩ := ih h hok hg
      refine ⟨m', d', q', ?_, hh⟩
      simp only [runDelayOps, DelayOp.step, h.read, bind, Except.bind, pure, Except.pure]; exact e
    | readWrappedAt o =>
      obtain ⟨h1, h2, h3⟩ := hok
      obtain ⟨m', d', q', e, hh⟩ := ih h h3 hg
      refine ⟨m', d', q', ?_, hh⟩
      have hi := h.idx_lt
      rw [h.length] at hi
      simp only [runDelayOps, DelayOp.step, bind, Except.bind, pure, Except.pure]
      rw [h.readWrappedAt ⟨by omega, by omega⟩]; exact e
    | write v =>
      obtain ⟨m1, d1, e1, hb, hs, hh1⟩ := h.write v
      obtain ⟨m', d', q', e, hh⟩ := ih hh1 (by rw [hb]; exact DelayOpsOk.congr (n := d.buffer.length) hs hok)
        (by rw [hb]; exact hg)
      refine ⟨m', d', q', ?_, hh⟩
      simp only [runDelayOps, DelayOp.step, e1, bind, Except.bind]; exact e
    | advance =>
      obtain ⟨d1, e1, hb, hh1⟩ := h.advance
      obtain ⟨m', d', q', e, hh⟩ := ih hh1 (by rw [hb]; exact hok) (by rw [hb]; exact hg)
      refine ⟨m', d', q', ?_, hh⟩
      simp only [runDelayOps, DelayOp.step, e1, bind, Except.bind, pure, Except.pure]; exact e
    | changeBuffer s =>
      obtain ⟨⟨ys, hv⟩, h2, h3⟩ := hok
      obtain ⟨g1, g2⟩ := hg
      have hi := h.idx_lt
      rw [h.length] at hi
      have hh1 : Holds c mem (d.changeBuffer s) (ys.drop d.index ++ ys.take d.index) :=
        ⟨ys, hv, by rw [← hv.length_eq]; exact lt_of_lt_of_le hi g1, rfl⟩
      obtain ⟨m', d', q', e, hh⟩ := ih hh1 h3 g2
      exact ⟨m', d', q', e, hh⟩

/-- C16's claim: histories allowed by `DelayOpsOk` never fault. -/
def DelayStaysInside (α : Type) (c : Cfg) : Prop :=
  ∀ (mem : Mem α) (d : DelayLine) (q : List α) (ops : List (DelayOp α)), Holds c mem d q →
    DelayOpsOk c mem d.buffer.length ops → ∃ r, runDelayOps c mem d ops = .ok r

/-- C16 is false: after one write on any delay line of two or more cells, switching to any one-cell buffer that is a
whole allocation makes the next read leave the buffer. -/
theorem C16_stays_inside_refuted {mem : Mem α} {d : DelayLine} {q : List α} (h : Holds c mem d q) (v w : α)
    (h0 : d.index = 0) (hlen : 2 ≤ q.length) {b : Nat} (hb : d.buffer.ptr.block ≠ some b) (hmem : mem b = some [w]) :
    DelayOpsOk c mem d.buffer.length [.write v, .changeBuffer (MemorySlice.fromSlice b 0 1), .read] ∧
    runDelayOps c mem d [.write v, .changeBuffer (MemorySlice.fromSlice b 0 1), .read] = .error .ub := by
  have hp := c.pow_pred_ge
  refine ⟨⟨⟨[w], b, [], [], rfl, rfl, by simpa using hmem, ?_⟩, Nat.one_pos, trivial⟩, ?_⟩
  · simp [Cfg.isizeMax]; omega
  obtain ⟨xs, hv, hi, rfl⟩ := h
  obtain ⟨mem', h1, h2, h3⟩ := hv.store hi v
  have hL : xs.length ≠ 1 := by simp at hlen; omega
  have hadv := advance_eq hv hi
  rw [h0] at hadv
  have hmb : mem' b = some [w] := by
    have hl := store_shape h1 b
    have hc := h3 b 0
    rw [if_neg (by simp [hb])] at hc
    unfold cell at hc
    rw [hmem] at hc hl
    cases hm : mem' b with
    | none => rw [hm] at hl; simp at hl
    | some l =>
      rw [hm] at hl hc
      simp at hl hc
      obtain ⟨z, rfl⟩ := List.length_eq_one_iff.1 hl
      simp at hc; rw [hc]
  simp only [runDelayOps, DelayOp.step, DelayLine.writeAndAdvance, MemorySlice.assignUnchecked, h1, hadv, bind,
    Except.bind, pure, Except.pure, DelayLine.changeBuffer, DelayLine.read, MemorySlice.getUnchecked,
    MemorySlice.fromSlice, load, hmb]
  rw [if_neg (by omega)]
  rfl

/-- Two blocks: five cells and one cell. -/
def demoMem2 : Mem Nat := fun b => if b = 0 then some [10, 20, 30, 40, 50] else if b = 1 then some [7] else none

theorem demo_views2 : Views Cfg.debug64 demoMem2 demoSlice [20, 30, 40] := ⟨0, [10], [50], rfl, rfl, rfl, by decide⟩

example : Holds Cfg.debug64 demoMem2 (DelayLine.new demoSlice) [20, 30, 40] ∧
    DelayOpsOk Cfg.debug64 demoMem2 3 [.write 1, .readWrappedAt (-5), .advance, .changeBuffer demoSlice, .read] ∧
    BuffersGrow (α := Nat) 3 [.write 1, .readWrappedAt (-5), .advance, .changeBuffer demoSlice, .read] ∧
    demoMem2 1 = some [7] ∧ demoSlice.ptr.block ≠ some 1 :=
  ⟨holds_new demo_views2 (by decide), ⟨by decide, by decide, ⟨_, demo_views2⟩, by decide, trivial⟩,
    ⟨by decide, trivial⟩, rfl, by decide⟩

theorem C16_not_inside : ¬ DelayStaysInside Nat Cfg.debug64 := by
  intro hall
  obtain ⟨h1, h2⟩ := C16_stays_inside_refuted (c := Cfg.debug64) (mem := demoMem2) (d := DelayLine.new demoSlice)
    (holds_new demo_views2 (by decide)) 1 7 rfl (by decide) (b := 1) (by decide) rfl
  obtain ⟨r, hr⟩ := hall _ _ _ _ (holds_new demo_views2 (by decide)) h1
  rw [h2] at hr
  exact absurd hr (by simp)

/-! ## C17 -/

/-- Write a list of samples. -/
def writeAll (c : Cfg) : Mem α → DelayLine → List α → M (Mem α × DelayLine)
  | mem, d, [] => .ok (mem, d)
  | mem, d, x :: rest => do let (mem', d') ← d.writeAndAdvance c mem x; writeAll c mem' d' rest

theorem writeAll_spec : ∀ (ws : List α) {mem : Mem α} {d : DelayLine} {q : List α}, Holds c mem d q →
    ∃ mem' d', writeAll c mem d ws = .ok (mem', d') ∧ Holds c mem' d' ((q ++ ws).drop ws.length) := by
  intro ws
  induction ws with
  | nil => intro mem d q h; exact ⟨mem, d, by simp [writeAll], by simpa using h⟩
  | cons x rest ih =>
    intro mem d q h
    obtain ⟨mem1, d1, h1, -, -, hq1⟩ := h.write x
    obtain ⟨mem2, d2, h2, hq2⟩ := ih hq1
    obtain ⟨y, ys, rfl⟩ := List.exists_cons_of_ne_nil h.ne_nil
    refine ⟨mem2, d2, ?_, by simpa using hq2⟩
    simp only [writeAll, h1, h2, bind, Except.bind]

/-- C17, general form: `read_wrapped_at(o)` is the cell `o` steps round from the cursor. -/
theorem C17_read_wrapped_at (h : Holds c mem d q) {o : Int} (ho : c.IsIsize (d.index + o)) :
    d.readWrappedAt c mem o = .ok (wrapAt q h.ne_nil o) := h.readWrappedAt ho

/-- C17: after any writes, offset `-k` gives the `k`-th most recent of them (`1 ≤ k ≤ L`, at least `k` writes). -/
theorem C17_recent (h : Holds c mem d q) (ws : List α) {k : Nat} (hk1 : 1 ≤ k) (hkL : k ≤ q.length)
    (hkw : k ≤ ws.length) :
    ∃ mem' d', writeAll c mem d ws = .ok (mem', d') ∧
      d'.readWrappedAt c mem' (-(k : Int)) = .ok (ws[ws.length - k]) := by
  obtain ⟨mem', d', e, hh⟩ := writeAll_spec ws h
  refine ⟨mem', d', e, ?_⟩
  have hlen : ((q ++ ws).drop ws.length).length = q.length := by simp
  have hle : (q.length : Int) ≤ c.isizeMax := by
    obtain ⟨xs, hv, hi, rfl⟩ := h
    have := hv.len_le'
    simp; omega
  have hi := hh.idx_lt
  rw [hlen] at hi
  have hmin : c.isizeMin = - c.isizeMax - 1 := by unfold Cfg.isizeMin Cfg.isizeMax; ring
  rw [hh.readWrappedAt ⟨by omega, by omega⟩]
  congr 1
  unfold wrapAt
  have hm : (-(k : Int)) % (((q ++ ws).drop ws.length).length : Int) = ((q.length - k : Nat) : Int) := by
    rw [hlen, ← Int.add_emod_right, Int.emod_eq_of_lt] <;> omega
  simp only [hm, Int.toNat_natCast, List.getElem_drop]
  rw [List.getElem_append_right (by omega)]
  congr 1
  omega

example : Holds Cfg.debug64 demoMem2 (DelayLine.new demoSlice) [20, 30, 40] ∧
    (writeAll Cfg.debug64 demoMem2 (DelayLine.new demoSlice) [1, 2, 3, 4]).bind
      (fun r => r.2.readWrappedAt Cfg.debug64 r.1 (-2)) = .ok 3 :=
  ⟨holds_new demo_views2 (by decide), by rfl⟩

/-! ## C18, C19 -/

variable {memF : Mem F32} {qF : List F32} {floor : F32 → F32}

theorem cursor_add (c : Cfg) {n : Nat} {off : F32} {o : Int} (hof : off.isFin = true) (hov : off.val = o)
    (hn : n ≤ 2 ^ 23) (ho : |(n : Int) + o| ≤ 2 ^ 23) :
    Moderate (c.u2f n + off) ∧ (c.u2f n + off).val = ((n + o : Int) : ℚ) := by
  have hr : Rep (((n : Int) + o : Int) : ℚ) := rep_int (by omega)
  have := add_exact (c.u2f_fin (n := n) (by omega)) hof (by
    rw [c.u2f_val (by omega), hov]; push_cast at hr; exact hr)
  rw [c.u2f_val (by omega), hov] at this
  have hv : (c.u2f n + off).val = (((n : Int) + o : Int) : ℚ) := by rw [this.2]; push_cast; ring
  refine ⟨⟨this.1, ?_⟩, hv⟩
  rw [hv]
  have : ((|(n : Int) + o| : Int) : ℚ) ≤ ((2 ^ 23 : Int) : ℚ) := by exact_mod_cast ho
  push_cast at this ⊢; exact this

/-- C18: at a whole offset, the interpolated read has the value of the plain read. -/
theorem C18_lerp_read_whole (h : Holds c memF d qF) (hfin : ∀ y ∈ qF, y.isFin = true) (hf : FloorContract floor)
    {off : F32} {o : Int} (hof : off.isFin = true) (hov : off.val = o)
    (hlen : qF.length ≤ 2 ^ 23) (ho : |(d.index : Int) + o| ≤ 2 ^ 23) (hi : c.IsIsize (d.index + o))
    (hi1 : c.IsIsize (d.index + o + 1)) :
    ∃ r r', d.readLerpWrappedAt c floor memF off = .ok r ∧ d.readWrappedAt c memF o = .ok r' ∧
      r.isFin = true ∧ r.val = r'.val := by
  have hidx := h.idx_lt
  obtain ⟨hm, hv⟩ := cursor_add c (n := d.index) hof hov (by omega) ho
  have hrd := h.readWrappedAt hi
  obtain ⟨xs, hvw, hix, rfl⟩ := h
  have hx : xs ≠ [] := by rintro rfl; simp at hix
  obtain ⟨r, r', e1, e2, hrf, hrv⟩ := C10_lerp_wrapped_whole hvw hx (fun y hy => hfin y (by
    have : y ∈ xs.take d.index ++ xs.drop d.index := by rw [List.take_append_drop]; exact hy
    rw [List.mem_append] at this ⊢; exact this.symm)) hf hm hv hi hi1
  refine ⟨r, r', e1, ?_, hrf, hrv⟩
  unfold DelayLine.readWrappedAt
  have := hvw.len_le'
  rw [c.asIsize_eq (by omega), c.iadd_eq hi]
  exact e2

theorem demo_holdsF : Holds Cfg.debug64 demoMemF ⟨demoSliceF, 1⟩ [lit 10, lit 20, lit 30, lit 0] :=
  ⟨demoSamples, demo_viewsF _ (by simp), by decide, rfl⟩

example : Holds Cfg.debug64 demoMemF ⟨demoSliceF, 1⟩ [lit 10, lit 20, lit 30, lit 0] ∧
    (∀ y ∈ [lit 10, lit 20, lit 30, lit 0], F32.isFin y = true) ∧ FloorContract mmFloor ∧
    (lit (-3) : F32).isFin = true ∧ (lit (-3) : F32).val = ((-3 : Int) : ℚ) ∧ Cfg.debug64.IsIsize (1 + -3) ∧
    (⟨demoSliceF, 1⟩ : DelayLine).readLerpWrappedAt Cfg.debug64 mmFloor demoMemF (lit (-3)) = .ok (lit 20) ∧
    (⟨demoSliceF, 1⟩ : DelayLine).readWrappedAt Cfg.debug64 demoMemF (-3) = .ok (lit 20) := by
  refine ⟨demo_holdsF, by decide +kernel, mmFloor_contract, by decide +kernel, by decide +kernel, ?_, by decide +kernel,
    by decide +kernel⟩
  unfold Cfg.IsIsize; decide

/-- C19's claim at a whole offset. -/
def LagrangeReadWhole (c : Cfg) (floor : F32 → F32) (memF : Mem F32) (d : DelayLine) : Prop :=
  ∀ (off : F32) (o : Int), off.isFin = true → off.val = o → |(d.index : Int) + o| ≤ 2 ^ 14 →
    ∃ r r', d.readLagrangeWrappedAt c floor memF off = .ok r ∧ d.readWrappedAt c memF o = .ok r' ∧ r.val = r'.val

/-- What the code does: the Lagrange read at the whole offset `o` has the value of the plain read at `o - 1`, one
sample older. (Whole samples up to `2^17`, where the kernel computes exactly.) -/
theorem C19_lagrange_read_partial (h : Holds c memF d qF)
    (hfin : ∀ y ∈ qF, y.isFin = true ∧ ∃ z : Int, y.val = z ∧ |z| ≤ 2 ^ 17) (hf : FloorContract floor)
    {off : F32} {o : Int} (hof : off.isFin = true) (hov : off.val = o)
    (hlen : qF.length ≤ 2 ^ 23) (ho : |(d.index : Int) + o| ≤ 2 ^ 23)
    (hlo : c.isizeMin ≤ d.index + o - 49) (hhi : d.index + o + 50 ≤ c.isizeMax) :
    ∃ r r', d.readLagrangeWrappedAt c floor memF off = .ok r ∧ d.readWrappedAt c memF (o - 1) = .ok r' ∧
      r.isFin = true ∧ r.val = r'.val := by
  have hidx := h.idx_lt
  obtain ⟨hm, hv⟩ := cursor_add c (n := d.index) hof hov (by omega) ho
  obtain ⟨xs, hvw, hix, rfl⟩ := h
  have hx : xs ≠ [] := by rintro rfl; simp at hix
  obtain ⟨r, e1, hrf, hrv⟩ := C11_through_samples_actual hvw hx (fun y hy => hfin y (by
    have : y ∈ xs.take d.index ++ xs.drop d.index := by rw [List.take_append_drop]; exact hy
    rw [List.mem_append] at this ⊢; exact this.symm)) hf hm hv hlo hhi (w := 5) (by norm_num)
  refine ⟨r, _, e1, ?_, hrf, hrv⟩
  unfold DelayLine.readWrappedAt
  have := hvw.len_le'
  rw [c.asIsize_eq (by omega), c.iadd_eq ⟨by omega, by omega⟩]
  simp only [bind, Except.bind]
  rw [hvw.getWrapped hx]
  congr 2
  norm_num
  ring

/-- C19 is false whenever two neighbouring samples of the queue differ. -/
theorem C19_lagrange_read_refuted (h : Holds c memF d qF)
    (hfin : ∀ y ∈ qF, y.isFin = true ∧ ∃ z : Int, y.val = z ∧ |z| ≤ 2 ^ 17) (hf : FloorContract floor)
    (hlen : qF.length ≤ 2 ^ 14) {o : Int} (ho : |(d.index : Int) + o| ≤ 2 ^ 14)
    (hdiff : (wrapAt qF h.ne_nil (o - 1)).val ≠ (wrapAt qF h.ne_nil o).val) : ¬ LagrangeReadWhole c floor memF d := by
  intro hall
  have hidx := h.idx_lt
  have hp := c.pow_pred_ge
  have ho' := abs_le.1 ho
  have hlo : c.isizeMin ≤ d.index + o - 49 := by unfold Cfg.isizeMin; omega
  have hhi : d.index + o + 50 ≤ c.isizeMax := by unfold Cfg.isizeMax; omega
  have hr := rep_int (n := o) (by rw [abs_le]; constructor <;> omega)
  obtain ⟨r, r', e1, e2, hv⟩ := hall (lit (o : ℚ)) o (lit_fin hr) (lit_val hr) ho
  obtain ⟨s, s', f1, f2, -, hv'⟩ := C19_lagrange_read_partial h hfin hf (lit_fin hr) (lit_val hr) (by omega)
    (by omega) hlo hhi
  rw [h.readWrappedAt ⟨by omega, by omega⟩] at e2
  rw [h.readWrappedAt ⟨by omega, by omega⟩] at f2
  rw [e1] at f1
  injection f1 with f1
  injection e2 with e2
  injection f2 with f2
  subst f1 e2 f2
  exact hdiff (hv'.symm.trans hv)

example : Holds Cfg.debug64 demoMemF ⟨demoSliceF, 1⟩ [lit 10, lit 20, lit 30, lit 0] ∧ |((1 : Nat) : Int) + 1| ≤ 2 ^ 14 ∧
    (wrapAt [lit 10, lit 20, lit 30, lit 0] (by simp) (1 - 1) : F32).val
      ≠ (wrapAt [lit 10, lit 20, lit 30, lit 0] (by simp) 1 : F32).val ∧
    (⟨demoSliceF, 1⟩ : DelayLine).readLagrangeWrappedAt Cfg.debug64 mmFloor demoMemF (lit 1) = .ok (lit 10) ∧
    (⟨demoSliceF, 1⟩ : DelayLine).readWrappedAt Cfg.debug64 demoMemF 1 = .ok (lit 20) :=
  ⟨demo_holdsF, by decide, by decide +kernel, by decide +kernel, by decide +kernel⟩

end Verif
