import Verif.Props.Voice
import Verif.Props.Network

/-! # C152, C153: debug and release builds, 32-bit and 64-bit targets

Tests run in debug builds on a 64-bit host; the library is meant for release builds on 32-bit microcontrollers. -/

namespace Verif

/-! ## C152 -/

/-- The same target without overflow checks. -/
def Cfg.release (c : Cfg) : Cfg := { c with checks := false }

/-- Whatever `a` returns, `b` returns. -/
def Keeps {β : Type} (a b : M β) : Prop := ∀ r, a = .ok r → b = .ok r

namespace Keeps
variable {β γ : Type}

theorem refl (a : M β) : Keeps a a := fun _ h => h

theorem bind {a b : M β} {f g : β → M γ} (h : Keeps a b) (hf : ∀ x, Keeps (f x) (g x)) : Keeps (a >>= f) (b >>= g) := by
  intro r hr
  cases a with
  | error e => cases hr
  | ok x => rw [h x rfl]; exact hf x r hr

theorem ite {p : Prop} [Decidable p] {a b a' b' : M β} (h : Keeps a a') (h' : Keeps b b') :
    Keeps (if p then a else b) (if p then a' else b') := by
  split
  · exact h
  · exact h'

theorem panic {p : Prop} [Decidable p] {a b d : M β} {ch : Bool} :
    Keeps (if p then a else if ch then .error .panic else b) (if p then a else if false then d else b) := by
  intro r hr
  split at hr
  · rw [if_pos ‹p›]; exact hr
  · rw [if_neg ‹¬p›]
    split at hr
    · cases hr
    · simpa using hr

theorem mapM {f g : β → M γ} (h : ∀ x, Keeps (f x) (g x)) (l : List β) : Keeps (l.mapM f) (l.mapM g) := by
  induction l with
  | nil => exact refl _
  | cons x l ih =>
    rw [List.mapM_cons, List.mapM_cons]
    exact (h x).bind fun y => ih.bind fun ys => refl _

theorem foldlM {f g : γ → β → M γ} (h : ∀ y x, Keeps (f y x) (g y x)) (l : List β) :
    ∀ y, Keeps (l.foldlM f y) (l.foldlM g y) := by
  induction l with
  | nil => intro y; exact refl _
  | cons x l ih =>
    intro y
    rw [List.foldlM_cons, List.foldlM_cons]
    exact (h y x).bind fun z => ih z

end Keeps

section
variable (c : Cfg)
theorem release_asIsize : c.release.asIsize = c.asIsize := rfl
theorem release_asUsize : c.release.asUsize = c.asUsize := rfl
theorem release_irem : c.release.irem = c.irem := rfl
theorem release_f2u : c.release.f2u = c.f2u := rfl
theorem release_f2i : c.release.f2i = c.f2i := rfl
theorem release_u2f : c.release.u2f = c.u2f := rfl
theorem release_i2f : c.release.i2f = c.i2f := rfl
theorem release_checks : c.release.checks = false := rfl
end

/-- Take a `do` block apart; the leaves are closed by the given facts or by reflexivity. -/
macro "keeps" "[" ts:term,* "]" : tactic => do
  let es := ts.getElems
  `(tactic|
    (try simp only [release_asIsize, release_asUsize, release_irem, release_f2u, release_f2i, release_u2f, release_i2f,
        release_checks]
     repeat' first
      $[| with_reducible apply $es]*
      | with_reducible exact Keeps.refl _
      | apply Keeps.bind
      | apply Keeps.ite
      | intro _
      | split))

section
variable (c : Cfg) {α : Type} (mem : Mem α) (s : MemorySlice)

theorem keeps_uadd (a b : ℕ) : Keeps (c.uadd a b) (c.release.uadd a b) := Keeps.panic
theorem keeps_usub (a b : ℕ) : Keeps (c.usub a b) (c.release.usub a b) := Keeps.panic
theorem keeps_iadd (a b : ℤ) : Keeps (c.iadd a b) (c.release.iadd a b) := Keeps.panic
theorem keeps_u32add (ch : Bool) (a b : ℕ) : Keeps (U32.add ch a b) (U32.add false a b) := Keeps.panic
theorem keeps_u32shl (ch : Bool) (a b : ℕ) : Keeps (U32.shl ch a b) (U32.shl false a b) := Keeps.panic
theorem keeps_u32shr (ch : Bool) (a b : ℕ) : Keeps (U32.shr ch a b) (U32.shr false a b) := Keeps.panic
theorem keeps_i32 (ch : Bool) (a : ℤ) : Keeps (FixedPoint.i32 ch a) (FixedPoint.i32 false a) := Keeps.panic

theorem keeps_getWrappedUnchecked (i : ℤ) : Keeps (s.getWrappedUnchecked c mem i) (s.getWrappedUnchecked c.release mem i) := by
  unfold MemorySlice.getWrappedUnchecked
  keeps []

theorem keeps_getWrapped (i : ℤ) : Keeps (s.getWrapped c mem i) (s.getWrapped c.release mem i) := by
  unfold MemorySlice.getWrapped
  keeps [keeps_getWrappedUnchecked]

theorem keeps_four (i : ℤ) : Keeps (s.getSliceOfFourWrapped c mem i) (s.getSliceOfFourWrapped c.release mem i) := by
  unfold MemorySlice.getSliceOfFourWrapped
  keeps [keeps_iadd, keeps_getWrappedUnchecked]

/-- C152, slices: every function of a slice that depends on the build, -/
theorem C152_slice (offset n : ℕ) (i : ℤ) :
    Keeps (s.getSubSlice c mem offset n) (s.getSubSlice c.release mem offset n) ∧
    Keeps (s.getWrapped c mem i) (s.getWrapped c.release mem i) ∧
    Keeps (s.getSliceOfFourWrapped c mem i) (s.getSliceOfFourWrapped c.release mem i) := by
  refine ⟨?_, keeps_getWrapped c mem s i, keeps_four c mem s i⟩
  unfold MemorySlice.getSubSlice
  keeps [keeps_uadd]

theorem keeps_lagrange (ys : List F32) (x : F32) : Keeps (Interpolation.lagrange c ys x) (Interpolation.lagrange c.release ys x) := by
  unfold Interpolation.lagrange
  keeps [keeps_usub]

theorem keeps_lagrangeWindow (mem : Mem F32) (i : ℤ) (n : ℕ) : ∀ lo : ℤ,
    Keeps (s.lagrangeWindow c mem i lo n) (s.lagrangeWindow c.release mem i lo n) := by
  induction n with
  | zero => intro lo; exact Keeps.refl _
  | succ n ih =>
    intro lo
    unfold MemorySlice.lagrangeWindow
    keeps [keeps_iadd, keeps_getWrappedUnchecked, ih]

theorem keeps_lerpUnchecked (mem : Mem F32) (x : F32) : Keeps (s.lerpUnchecked c mem x) (s.lerpUnchecked c.release mem x) := by
  unfold MemorySlice.lerpUnchecked
  keeps [keeps_uadd]

theorem keeps_lerpWrapped (mem : Mem F32) (floor : F32 → F32) (x : F32) :
    Keeps (s.lerpWrapped c mem floor x) (s.lerpWrapped c.release mem floor x) := by
  unfold MemorySlice.lerpWrapped
  keeps [keeps_iadd, keeps_getWrapped]

theorem keeps_lagrangeWrapped (mem : Mem F32) (floor : F32 → F32) (x : F32) (n : ℕ) :
    Keeps (s.lagrangeWrapped c mem floor x n) (s.lagrangeWrapped c.release mem floor x n) := by
  unfold MemorySlice.lagrangeWrapped
  keeps [keeps_lagrangeWindow, keeps_lagrange]

/-- C152: ... the interpolating ones, -/
theorem C152_interpolated (mem : Mem F32) (floor : F32 → F32) (x : F32) (n : ℕ) :
    Keeps (s.lerpUnchecked c mem x) (s.lerpUnchecked c.release mem x) ∧
    Keeps (s.lerp c mem x) (s.lerp c.release mem x) ∧
    Keeps (s.lerpWrapped c mem floor x) (s.lerpWrapped c.release mem floor x) ∧
    Keeps (s.lagrangeWrapped c mem floor x n) (s.lagrangeWrapped c.release mem floor x n) ∧
    Keeps (s.lagrangeFourPointsWrapped c mem floor x) (s.lagrangeFourPointsWrapped c.release mem floor x) := by
  refine ⟨keeps_lerpUnchecked c s mem x, ?_, keeps_lerpWrapped c s mem floor x, keeps_lagrangeWrapped c s mem floor x n, ?_⟩
  · unfold MemorySlice.lerp
    simp only [release_f2u, release_u2f]
    refine Keeps.ite (Keeps.refl _) (Keeps.bind (keeps_usub c _ _) fun n1 => Keeps.ite (Keeps.refl _) (Keeps.bind (Keeps.refl _) fun r => ?_))
    cases r with
    | error e => exact Keeps.refl _
    | ok a => exact Keeps.bind (keeps_uadd c _ _) fun i => Keeps.refl _
  · unfold MemorySlice.lagrangeFourPointsWrapped
    keeps [keeps_four]

variable (d : DelayLine)

theorem keeps_advance : Keeps (d.advance c) (d.advance c.release) := by
  unfold DelayLine.advance
  keeps [keeps_usub, keeps_uadd]

theorem keeps_write (v : α) : Keeps (d.writeAndAdvance c mem v) (d.writeAndAdvance c.release mem v) := by
  unfold DelayLine.writeAndAdvance
  keeps [keeps_advance]

/-- C152: ... delay lines, -/
theorem C152_delay (i : ℤ) (v : α) (memF : Mem F32) (floor : F32 → F32) (x : F32) :
    Keeps (d.readWrappedAt c mem i) (d.readWrappedAt c.release mem i) ∧ Keeps (d.advance c) (d.advance c.release) ∧
    Keeps (d.writeAndAdvance c mem v) (d.writeAndAdvance c.release mem v) ∧
    Keeps (d.readLerpWrappedAt c floor memF x) (d.readLerpWrappedAt c.release floor memF x) ∧
    Keeps (d.readLagrangeWrappedAt c floor memF x) (d.readLagrangeWrappedAt c.release floor memF x) := by
  refine ⟨?_, keeps_advance c d, keeps_write c mem d v, ?_, ?_⟩
  · unfold DelayLine.readWrappedAt
    keeps [keeps_iadd, keeps_getWrapped]
  · unfold DelayLine.readLerpWrappedAt
    keeps [keeps_lerpWrapped]
  · unfold DelayLine.readLagrangeWrappedAt
    keeps [keeps_lagrangeWrapped]

theorem keeps_sinLoop (ch : Bool) (z : ℤ) (n : ℕ) : ∀ r, Keeps (FixedPoint.sinLoop ch z n r) (FixedPoint.sinLoop false z n r) := by
  induction n with
  | zero => intro r; exact Keeps.refl _
  | succ n ih =>
    intro r
    unfold FixedPoint.sinLoop
    split
    · exact Keeps.refl _
    · keeps [keeps_i32, ih]

theorem keeps_sinI16 (ch : Bool) (p : ℤ) (n : ℕ) : Keeps (FixedPoint.sinI16Unchecked ch p n) (FixedPoint.sinI16Unchecked false p n) := by
  unfold FixedPoint.sinI16Unchecked
  keeps [keeps_i32, keeps_sinLoop]

theorem keeps_sin (ch : Bool) (rem : F32 → F32 → F32) (x : F32) :
    Keeps (FMath.fixedPointSin ch rem x) (FMath.fixedPointSin false rem x) := by
  unfold FMath.fixedPointSin
  keeps [keeps_sinI16]

theorem keeps_sinc (ch : Bool) (rem : F32 → F32 → F32) (x : F32) : Keeps (FMath.sinc ch rem x) (FMath.sinc false rem x) := by
  unfold FMath.sinc
  keeps [keeps_sin]

/-- C152: ... the functions on numbers, -/
theorem C152_functions (ch : Bool) (rem : F32 → F32 → F32) (x : F32) (p : ℤ) (n : ℕ) (ys : List F32) (table : List ℤ) :
    Keeps (FixedPoint.sinI16 ch p n) (FixedPoint.sinI16 false p n) ∧
    Keeps (FMath.fixedPointSin ch rem x) (FMath.fixedPointSin false rem x) ∧
    Keeps (FMath.fixedPointCos ch rem x) (FMath.fixedPointCos false rem x) ∧
    Keeps (FMath.sinc ch rem x) (FMath.sinc false rem x) ∧ Keeps (FMath.si ch rem x) (FMath.si false rem x) ∧
    Keeps (FMath.lookupSin c rem table x) (FMath.lookupSin c.release rem table x) ∧
    Keeps (FMath.lookupBlRect c x) (FMath.lookupBlRect c.release x) ∧
    Keeps (Interpolation.lagrange c ys x) (Interpolation.lagrange c.release ys x) := by
  refine ⟨?_, keeps_sin ch rem x, keeps_sin ch rem _, keeps_sinc ch rem x, ?_, ?_, ?_, keeps_lagrange c ys x⟩
  · unfold FixedPoint.sinI16
    keeps [keeps_sinI16]
  · unfold FMath.si FMath.simpsonsRule
    keeps [keeps_sinc, (Keeps.mapM fun x => keeps_sinc _ _ x)]
  · unfold FMath.lookupSin
    keeps [keeps_usub, keeps_uadd]
  · unfold FMath.lookupBlRect
    keeps [keeps_usub, keeps_lerpUnchecked]

theorem keeps_toRawWord (ch : Bool) (x : F32) : Keeps (Conversion.toRawWord ch x) (Conversion.toRawWord false x) := by
  unfold Conversion.toRawWord
  exact Keeps.foldlM (fun y b => Keeps.bind (keeps_u32shl ch _ _) fun z => keeps_u32add ch _ _) _ _

theorem keeps_toComponents (ch : Bool) (x : F32) : Keeps (Conversion.toComponents ch x) (Conversion.toComponents false x) := by
  unfold Conversion.toComponents
  keeps [keeps_toRawWord]

theorem keeps_wordFromComponents (ch : Bool) (k : Conversion.F32Components) :
    Keeps (Conversion.wordFromComponents ch k) (Conversion.wordFromComponents false k) := by
  unfold Conversion.wordFromComponents
  keeps [keeps_u32add, keeps_u32shl]

theorem keeps_fromComponents (ch : Bool) (k : Conversion.F32Components) :
    Keeps (Conversion.fromComponents ch k) (Conversion.fromComponents false k) := by
  unfold Conversion.fromComponents
  keeps [keeps_wordFromComponents]

theorem keeps_shift (ch : Bool) (n k : ℕ) : Keeps (BitReduction.shiftBackForth ch n k) (BitReduction.shiftBackForth false n k) := by
  unfold BitReduction.shiftBackForth
  keeps [keeps_u32shl, keeps_u32shr]

/-- C152: ... conversions and bit reducers, -/
theorem C152_bits (ch : Bool) (x : F32) (n : ℕ) (k : Conversion.F32Components) :
    Keeps (Conversion.toRawWord ch x) (Conversion.toRawWord false x) ∧
    Keeps (Conversion.toComponents ch x) (Conversion.toComponents false x) ∧
    Keeps (Conversion.fromComponents ch k) (Conversion.fromComponents false k) ∧
    Keeps (BitReduction.bitReduceUnchecked ch x n) (BitReduction.bitReduceUnchecked false x n) ∧
    Keeps (BitReduction.bitReduce ch x n) (BitReduction.bitReduce false x n) ∧
    Keeps (BitReduction.bitReduceExpUnchecked ch x n) (BitReduction.bitReduceExpUnchecked false x n) ∧
    Keeps (BitReduction.bitReduceExp ch x n) (BitReduction.bitReduceExp false x n) := by
  have h1 : Keeps (BitReduction.bitReduceUnchecked ch x n) (BitReduction.bitReduceUnchecked false x n) := by
    unfold BitReduction.bitReduceUnchecked
    keeps [keeps_shift]
  have h2 : Keeps (BitReduction.bitReduceExpUnchecked ch x n) (BitReduction.bitReduceExpUnchecked false x n) := by
    unfold BitReduction.bitReduceExpUnchecked
    keeps [keeps_shift, keeps_toComponents, keeps_fromComponents]
  refine ⟨keeps_toRawWord ch x, keeps_toComponents ch x, keeps_fromComponents ch k, h1, ?_, h2, ?_⟩
  · unfold BitReduction.bitReduce
    keeps [h1]
  · unfold BitReduction.bitReduceExp
    keeps [h2]

theorem keeps_next (ch : Bool) (floor : F32 → F32) (rem : F32 → F32 → F32) (o : FunctionalOscillator SoftPhaseAccumulator) :
    Keeps (o.next ch floor rem) (o.next false floor rem) := by
  unfold FunctionalOscillator.next FunctionalOscillator.sineOf
  cases o.wave with
  | sine => exact Keeps.bind (keeps_sin ch rem _) fun _ => Keeps.refl _
  | rectangle => exact Keeps.refl _
  | sawtooth => exact Keeps.refl _
  | triangle => exact Keeps.refl _

theorem keeps_runOsc (ch : Bool) (floor : F32 → F32) (rem : F32 → F32 → F32) (o : FunctionalOscillator SoftPhaseAccumulator)
    (ops : List OscOp) : Keeps (runOsc ch floor rem o ops) (runOsc false floor rem o ops) := by
  unfold runOsc
  refine Keeps.foldlM (fun o op => ?_) ops o
  cases op with
  | next => exact Keeps.bind (keeps_next ch floor rem o) fun _ => Keeps.refl _
  | setFreq f => exact Keeps.refl _
  | setSr f => exact Keeps.refl _
  | setShift f => exact Keeps.refl _
  | setWave w => exact Keeps.refl _

theorem keeps_waveNext (mem : Mem F32) (o : WavetableOscillator SoftPhaseAccumulator) :
    Keeps (o.next c mem) (o.next c.release mem) := by
  unfold WavetableOscillator.next
  keeps [keeps_lerpUnchecked]

/-- C152: ... oscillators, over every history of calls. -/
theorem C152_oscillators (ch : Bool) (floor : F32 → F32) (rem : F32 → F32 → F32)
    (o : FunctionalOscillator SoftPhaseAccumulator) (mem : Mem F32) (w : WavetableOscillator SoftPhaseAccumulator)
    (ops : List OscOp) :
    Keeps (o.next ch floor rem) (o.next false floor rem) ∧ Keeps (runOsc ch floor rem o ops) (runOsc false floor rem o ops) ∧
    Keeps (w.next c mem) (w.next c.release mem) ∧ Keeps (runWaveOps c mem w ops) (runWaveOps c.release mem w ops) := by
  refine ⟨keeps_next ch floor rem o, keeps_runOsc ch floor rem o ops, keeps_waveNext c mem w, ?_⟩
  unfold runWaveOps
  refine Keeps.foldlM (fun o op => ?_) ops w
  cases op with
  | next => exact Keeps.bind (keeps_waveNext c mem o) fun _ => Keeps.refl _
  | setFreq f => exact Keeps.refl _
  | setSr f => exact Keeps.refl _
  | setShift f => exact Keeps.refl _
  | setWave w => exact Keeps.refl _

theorem keeps_comb [Add α] [Sub α] [Mul α] [Lit α] (k : Comb α) (x : α) : Keeps (k.tick c mem x) (k.tick c.release mem x) := by
  unfold Comb.tick
  keeps [keeps_write]

theorem keeps_allPass [Add α] [Sub α] [Mul α] [Neg α] [Lit α] (k : AllPass) (x : α) :
    Keeps (k.tick c mem x) (k.tick c.release mem x) := by
  unfold AllPass.tick
  keeps [keeps_write]

section
variable [Add α] [Sub α] [Mul α] [Neg α] [Lit α]

theorem keeps_proc (p : Proc α) (x : α) : Keeps (p.tick c mem x) (p.tick c.release mem x) := by
  cases p with
  | delay d => exact Keeps.bind (Keeps.refl _) fun _ => Keeps.bind (keeps_write c mem d x) fun _ => Keeps.refl _
  | comb k => exact Keeps.bind (keeps_comb c mem k x) fun _ => Keeps.refl _
  | allPass k => exact Keeps.bind (keeps_allPass c mem k x) fun _ => Keeps.refl _

theorem keeps_netTick (x : α) (nds : List (Node α)) : ∀ (mem : Mem α) (os : List α),
    Keeps (Net.tick c x mem os nds) (Net.tick c.release x mem os nds) := by
  induction nds with
  | nil => intro mem os; exact Keeps.refl _
  | cons nd nds ih =>
    intro mem os
    unfold Net.tick
    exact Keeps.bind (keeps_proc c mem _ _) fun r => Keeps.bind (ih r.1 _) fun _ => Keeps.refl _

theorem keeps_netState (nds : List (Node α)) (inp : ℕ → α) (n : ℕ) :
    Keeps (Net.stateAt c mem nds inp n) (Net.stateAt c.release mem nds inp n) := by
  induction n with
  | zero => exact Keeps.refl _
  | succ n ih =>
    unfold Net.stateAt
    exact Keeps.bind ih fun r => Keeps.bind (keeps_netTick c _ _ r.1 _) fun _ => Keeps.refl _

/-- C152: ... and whole networks of delay lines, combs and all-passes, however wired, whatever the memory (live or not), at
every tick. -/
theorem C152_network (nds : List (Node α)) (inp : ℕ → α) (n : ℕ) :
    Keeps (Net.outAt c mem nds inp n) (Net.outAt c.release mem nds inp n) ∧
    Keeps (Net.stateAt c mem nds inp n) (Net.stateAt c.release mem nds inp n) := by
  refine ⟨?_, keeps_netState c mem nds inp n⟩
  unfold Net.outAt
  exact Keeps.bind (keeps_netState c mem nds inp n) fun r => Keeps.bind (keeps_netTick c _ _ r.1 _) fun _ => Keeps.refl _
end

theorem keeps_voiceNext (u : Supplied) (mem : Mem F32) (v : Voice) (t : Touch) :
    Keeps (v.next c u mem t) (v.next c.release u mem t) := by
  unfold Voice.next
  simp only [release_checks]
  exact Keeps.bind (keeps_runOsc _ _ _ _ _) fun o => Keeps.bind (keeps_next _ _ _ _) fun r =>
    Keeps.bind (Keeps.refl _) fun e => Keeps.bind (keeps_comb c mem _ _) fun k => Keeps.refl _

theorem keeps_voiceState (u : Supplied) (mem : Mem F32) (v : Voice) (t : ℕ → Touch) (n : ℕ) :
    Keeps (Voice.stateAt c u mem v t n) (Voice.stateAt c.release u mem v t n) := by
  induction n with
  | zero => exact Keeps.refl _
  | succ n ih =>
    unfold Voice.stateAt
    exact Keeps.bind ih fun r => Keeps.bind (keeps_voiceNext c u r.1 r.2 _) fun _ => Keeps.refl _

/-- C152: a whole voice, played in any way. -/
theorem C152_voice (u : Supplied) (mem : Mem F32) (v : Voice) (t : ℕ → Touch) (n : ℕ) :
    Keeps (Voice.outAt c u mem v t n) (Voice.outAt c.release u mem v t n) := by
  unfold Voice.outAt
  exact Keeps.bind (keeps_voiceState c u mem v t n) fun r => Keeps.bind (keeps_voiceNext c u r.1 r.2 _) fun _ => Keeps.refl _
end

/-- The converse is false: a release build goes on where a debug build stops. -/
example : (MemorySlice.fromSlice 0 0 3).getSubSlice Cfg.debug64 (fun _ => some [lit 0, lit 0, (lit 0 : F32)]) 1 (2 ^ 64 - 1) =
      .error .panic ∧
    (MemorySlice.fromSlice 0 0 3).getSubSlice Cfg.release64 (fun _ => some [lit 0, lit 0, (lit 0 : F32)]) 1 (2 ^ 64 - 1) =
      .ok (.ok ⟨⟨some 0, 1⟩, 2 ^ 64 - 1⟩) := by decide +kernel

/-! ## C153 -/

namespace Cfg
variable {c c' : Cfg}

theorem wide_max (h : 32 ≤ c.w) : 2 ^ 31 - 1 ≤ c.isizeMax ∧ c.isizeMin ≤ -2 ^ 31 ∧ 2 ^ 32 - 1 ≤ c.usizeMax := by
  have h1 : (2 : ℤ) ^ 31 ≤ 2 ^ (c.w - 1) := pow_le_pow_right₀ (by norm_num) (by omega)
  have h2 : (2 : ℕ) ^ 32 ≤ 2 ^ c.w := Nat.pow_le_pow_right (by norm_num) h
  unfold isizeMax isizeMin usizeMax
  omega

theorem wide_asIsize (h : 32 ≤ c.w) {n : ℕ} (hn : n ≤ 2 ^ 29) : c.asIsize n = n :=
  c.asIsize_eq (by have := wide_max h; omega)

theorem wide_asUsize (h : 32 ≤ c.w) {i : ℤ} (h0 : 0 ≤ i) (h1 : i ≤ 2 ^ 31) : c.asUsize i = i.toNat := by
  have h2 : (2 : ℕ) ^ 32 ≤ 2 ^ c.w := Nat.pow_le_pow_right (by norm_num) h
  lift i to ℕ using h0
  rw [c.asUsize_eq (by omega)]; simp

theorem wide_iadd (h : 32 ≤ c.w) {a b : ℤ} (h0 : -2 ^ 31 ≤ a + b) (h1 : a + b < 2 ^ 31) : c.iadd a b = .ok (a + b) :=
  c.iadd_eq (by have := wide_max h; constructor <;> omega)

theorem wide_uadd (h : 32 ≤ c.w) {a b : ℕ} (h1 : a + b < 2 ^ 32) : c.uadd a b = .ok (a + b) := by
  have h2 : (2 : ℕ) ^ 32 ≤ 2 ^ c.w := Nat.pow_le_pow_right (by norm_num) h
  exact c.uadd_eq (by omega)

theorem wide_f2u (h : 32 ≤ c.w) (h' : 32 ≤ c'.w) (x : F32) :
    c.f2u x = c'.f2u x ∨ (2 ^ 31 ≤ c.f2u x ∧ 2 ^ 31 ≤ c'.f2u x) := by
  have := (wide_max h).2.2
  have := (wide_max h').2.2
  unfold f2u F32.toIntSat
  split
  · left; rfl
  · omega

theorem wide_f2i (h : 32 ≤ c.w) (h' : 32 ≤ c'.w) {x : F32} (hx : |x.val| ≤ 2 ^ 30) :
    c.f2i x = c'.f2i x ∧ |c.f2i x| ≤ 2 ^ 30 := by
  have := wide_max h
  have := wide_max h'
  obtain ⟨h0, h1⟩ := abs_le.1 hx
  have t0 : -2 ^ 30 ≤ x.truncInt := by
    unfold F32.truncInt
    split
    · rw [Int.le_ceil_iff]; push_cast; linarith
    · exact Int.le_floor.2 (by push_cast; linarith)
  have t1 : x.truncInt ≤ 2 ^ 30 := by
    unfold F32.truncInt
    split
    · exact Int.ceil_le.2 (by push_cast; linarith)
    · rw [Int.floor_le_iff]; push_cast; linarith
  unfold f2i F32.toIntSat
  split
  · simp
  · rw [abs_le]; omega

end Cfg

/-- All arrays are at most 2^29 samples (2 GiB) long, the most a 32-bit target can have. -/
def Fits {α : Type} (mem : Mem α) : Prop := ∀ b cells, mem b = some cells → cells.length ≤ 2 ^ 29

theorem load_far {α : Type} {mem : Mem α} (hm : Fits mem) (p : Ptr) {i : ℕ} (hi : 2 ^ 29 ≤ i) : load mem p i = .error .ub := by
  unfold load
  split
  · rfl
  · split
    · rfl
    · rename_i b cells hb
      have := hm _ _ hb
      rw [List.getElem?_eq_none (by omega)]

section
variable {c c' : Cfg} {α : Type} {mem : Mem α} {s : MemorySlice}

theorem wide_wrappedUnchecked (h : 32 ≤ c.w) (hs : s.length ≤ 2 ^ 29) (i : ℤ) : s.getWrappedUnchecked c mem i =
    if s.length = 0 then .error .panic else s.getUnchecked mem (i % s.length).toNat := by
  unfold MemorySlice.getWrappedUnchecked Cfg.irem
  rw [Cfg.wide_asIsize h hs]
  by_cases h0 : s.length = 0
  · simp [h0, bind, Except.bind]
  · have e1 : (s.length : ℤ) ≠ 0 := by omega
    have h1 := Int.emod_nonneg i e1
    have h2 := Int.emod_lt_of_pos i (show 0 < (s.length : ℤ) by omega)
    rw [if_neg e1, if_neg (by omega), if_neg h0]
    simp only [bind, Except.bind]
    rw [Cfg.wide_asUsize h h1 (by omega)]

theorem wide_wrapped (h : 32 ≤ c.w) (hs : s.length ≤ 2 ^ 29) (i : ℤ) : s.getWrapped c mem i =
    if i ≥ s.length ∨ i < 0 then (if s.length = 0 then .error .panic else s.getUnchecked mem (i % s.length).toNat)
    else s.getUnchecked mem i.toNat := by
  unfold MemorySlice.getWrapped
  rw [wide_wrappedUnchecked h hs, Cfg.wide_asIsize h hs]
  split
  · rfl
  · rw [Cfg.wide_asUsize h (by omega) (by omega)]

theorem same_four (h : 32 ≤ c.w) (h' : 32 ≤ c'.w) (hs : s.length ≤ 2 ^ 29) {i : ℤ} (hi : |i| ≤ 2 ^ 30) :
    s.getSliceOfFourWrapped c mem i = s.getSliceOfFourWrapped c' mem i := by
  obtain ⟨i0, i1⟩ := abs_le.1 hi
  unfold MemorySlice.getSliceOfFourWrapped
  simp only [Cfg.wide_iadd h (show -2 ^ 31 ≤ i + 0 by omega) (by omega), Cfg.wide_iadd h (show -2 ^ 31 ≤ i + 1 by omega) (by omega),
    Cfg.wide_iadd h (show -2 ^ 31 ≤ i + 2 by omega) (by omega), Cfg.wide_iadd h (show -2 ^ 31 ≤ i + 3 by omega) (by omega),
    Cfg.wide_iadd h' (show -2 ^ 31 ≤ i + 0 by omega) (by omega), Cfg.wide_iadd h' (show -2 ^ 31 ≤ i + 1 by omega) (by omega),
    Cfg.wide_iadd h' (show -2 ^ 31 ≤ i + 2 by omega) (by omega), Cfg.wide_iadd h' (show -2 ^ 31 ≤ i + 3 by omega) (by omega),
    wide_wrappedUnchecked h hs, wide_wrappedUnchecked h' hs, Cfg.wide_asIsize h hs, Cfg.wide_asIsize h' hs, bind, Except.bind]
  split
  · rfl
  · rw [Cfg.wide_asUsize h (by omega) (by omega), Cfg.wide_asUsize h (by omega) (by omega), Cfg.wide_asUsize h (by omega) (by omega),
      Cfg.wide_asUsize h (by omega) (by omega), Cfg.wide_asUsize h' (by omega) (by omega), Cfg.wide_asUsize h' (by omega) (by omega),
      Cfg.wide_asUsize h' (by omega) (by omega), Cfg.wide_asUsize h' (by omega) (by omega)]

/-- C153, what holds: on slices a 32-bit target can have and for indices up to 2^30 in size, every build gives the same
result, faults included: every function of a slice, -/
theorem C153_slice_partial (h : 32 ≤ c.w) (h' : 32 ≤ c'.w) (hs : s.length ≤ 2 ^ 29) {offset n : ℕ} (ho : offset ≤ 2 ^ 30)
    (hn : n ≤ 2 ^ 30) {i : ℤ} (hi : |i| ≤ 2 ^ 30) :
    s.getSubSlice c mem offset n = s.getSubSlice c' mem offset n ∧ s.getWrapped c mem i = s.getWrapped c' mem i ∧
    s.getSliceOfFourWrapped c mem i = s.getSliceOfFourWrapped c' mem i := by
  refine ⟨?_, ?_, same_four h h' hs hi⟩
  · unfold MemorySlice.getSubSlice
    rw [Cfg.wide_uadd h (by omega), Cfg.wide_uadd h' (by omega)]
  · rw [wide_wrapped h hs, wide_wrapped h' hs]

theorem same_lerpUnchecked (h : 32 ≤ c.w) (h' : 32 ≤ c'.w) {mem : Mem F32} (hm : Fits mem) (x : F32) :
    s.lerpUnchecked c mem x = s.lerpUnchecked c' mem x := by
  unfold MemorySlice.lerpUnchecked MemorySlice.getUnchecked
  rcases Cfg.wide_f2u h h' x with e | ⟨e, e'⟩
  · rw [e]
    by_cases hk : c'.f2u x < 2 ^ 29
    · rw [Cfg.wide_uadd h (by omega), Cfg.wide_uadd h' (by omega)]; rfl
    · rw [load_far hm _ (by omega)]; rfl
  · rw [load_far hm _ (by omega), load_far hm _ (by omega)]; rfl

theorem same_lerp (h : 32 ≤ c.w) (h' : 32 ≤ c'.w) {mem : Mem F32} (hm : Fits mem) (h0 : 0 < s.length) (hs : s.length ≤ 2 ^ 29) (x : F32) :
    s.lerp c mem x = s.lerp c' mem x := by
  unfold MemorySlice.lerp
  rw [c.usub_eq h0, c'.usub_eq h0]
  have hu : c.u2f = c'.u2f := rfl
  rw [hu]
  refine if_congr Iff.rfl rfl ?_
  simp only [bind, Except.bind]
  have hg : s.getUnchecked mem (c.f2u x) = s.getUnchecked mem (c'.f2u x) := by
    rcases Cfg.wide_f2u h h' x with e | ⟨e, e'⟩
    · rw [e]
    · unfold MemorySlice.getUnchecked
      rw [load_far hm _ (by omega), load_far hm _ (by omega)]
  rw [hg]
  refine if_congr Iff.rfl rfl ?_
  by_cases hk : c.f2u x < s.length
  · have e : c.f2u x = c'.f2u x := by
      rcases Cfg.wide_f2u h h' x with e | ⟨e, e'⟩
      · exact e
      · omega
    rw [← e, Cfg.wide_uadd h (by omega), Cfg.wide_uadd h' (by omega)]
  · have hk' : ¬ c'.f2u x < s.length := by
      rcases Cfg.wide_f2u h h' x with e | ⟨e, e'⟩
      · omega
      · omega
    unfold MemorySlice.get
    rw [if_pos (by omega), if_pos (by omega)]
    rfl

theorem same_lerpWrapped (h : 32 ≤ c.w) (h' : 32 ≤ c'.w) {mem : Mem F32} (hs : s.length ≤ 2 ^ 29) (floor : F32 → F32) {x : F32}
    (hx : |(floor x).val| ≤ 2 ^ 30) : s.lerpWrapped c mem floor x = s.lerpWrapped c' mem floor x := by
  obtain ⟨e, b⟩ := Cfg.wide_f2i h h' hx
  obtain ⟨b0, b1⟩ := abs_le.1 b
  have hu : c.i2f = c'.i2f := rfl
  unfold MemorySlice.lerpWrapped
  rw [hu, e] at *
  simp only [wide_wrapped h hs, wide_wrapped h' hs, Cfg.wide_iadd h (show -2 ^ 31 ≤ c'.f2i (floor x) + 1 by omega) (by omega),
    Cfg.wide_iadd h' (show -2 ^ 31 ≤ c'.f2i (floor x) + 1 by omega) (by omega)]

theorem same_window (h : 32 ≤ c.w) (h' : 32 ≤ c'.w) {mem : Mem F32} (hs : s.length ≤ 2 ^ 29) (i : ℤ) (n : ℕ) : ∀ lo : ℤ,
    -2 ^ 31 ≤ i + lo → i + lo + n < 2 ^ 31 → s.lagrangeWindow c mem i lo n = s.lagrangeWindow c' mem i lo n := by
  induction n with
  | zero => intro lo _ _; rfl
  | succ n ih =>
    intro lo h0 h1
    unfold MemorySlice.lagrangeWindow
    rw [Cfg.wide_iadd h h0 (by omega), Cfg.wide_iadd h' h0 (by omega), ih (lo + 1) (by omega) (by omega)]
    simp only [bind, Except.bind, wide_wrappedUnchecked h hs, wide_wrappedUnchecked h' hs]

theorem same_lagrange {ys : List F32} (hy : ys ≠ []) (x : F32) : Interpolation.lagrange c ys x = Interpolation.lagrange c' ys x := by
  have := List.length_pos_iff.2 hy
  unfold Interpolation.lagrange
  rw [c.usub_eq (by omega), c'.usub_eq (by omega)]
  rfl

theorem same_lagrangeWrapped (h : 32 ≤ c.w) (h' : 32 ≤ c'.w) {mem : Mem F32} (hs : s.length ≤ 2 ^ 29) (floor : F32 → F32) {x : F32}
    (hx : |(floor x).val| ≤ 2 ^ 30) {n : ℕ} (hn : 0 < n) :
    s.lagrangeWrapped c mem floor x n = s.lagrangeWrapped c' mem floor x n := by
  obtain ⟨e, b⟩ := Cfg.wide_f2i h h' hx
  obtain ⟨b0, b1⟩ := abs_le.1 b
  have hu : c.i2f = c'.i2f := rfl
  unfold MemorySlice.lagrangeWrapped
  rw [hu, e] at *
  have hw : (if n > 100 then 100 else n) ≤ 100 ∧ 0 < (if n > 100 then 100 else n) := by split <;> omega
  generalize (if n > 100 then 100 else n) = w at hw ⊢
  simp only
  rw [same_window h h' hs _ _ _ (by omega) (by push_cast; omega)]
  cases hr : s.lagrangeWindow c' mem (c'.f2i (floor x)) (-((w / 2 : ℕ) : ℤ) + 1) (2 * (w / 2)) with
  | error e => rfl
  | ok ys =>
    simp only [bind, Except.bind]
    apply same_lagrange
    intro he
    have hl : ∀ (n : ℕ) (i lo : ℤ) (ys : List F32), s.lagrangeWindow c' mem i lo n = .ok ys → ys.length = n := by
      intro n
      induction n with
      | zero => intro i lo ys hy; cases hy; rfl
      | succ n ih =>
        intro i lo ys hy
        unfold MemorySlice.lagrangeWindow at hy
        cases h1 : c'.iadd i lo with
        | error e => rw [h1] at hy; cases hy
        | ok k =>
          cases h2 : s.getWrappedUnchecked c' mem k with
          | error e => rw [h1] at hy; simp only [bind, Except.bind, h2] at hy; cases hy
          | ok v =>
            cases h3 : s.lagrangeWindow c' mem i (lo + 1) n with
            | error e => rw [h1] at hy; simp only [bind, Except.bind, h2, h3] at hy; cases hy
            | ok zs =>
              rw [h1] at hy; simp only [bind, Except.bind, h2, h3, pure, Except.pure] at hy
              cases hy
              simp [ih i (lo + 1) zs h3]
    have := hl _ _ _ _ hr
    have hz := congrArg List.length he
    rw [List.length_append, List.length_replicate, List.length_nil] at hz
    omega

/-- C153: ... the interpolating ones (not wrapping: for every float), -/
theorem C153_interpolated_partial (h : 32 ≤ c.w) (h' : 32 ≤ c'.w) {mem : Mem F32} (hm : Fits mem) (h0 : 0 < s.length)
    (hs : s.length ≤ 2 ^ 29) (floor : F32 → F32) (x : F32) :
    s.lerpUnchecked c mem x = s.lerpUnchecked c' mem x ∧ s.lerp c mem x = s.lerp c' mem x ∧
    (|(floor x).val| ≤ 2 ^ 30 → s.lerpWrapped c mem floor x = s.lerpWrapped c' mem floor x ∧
      (∀ n, 0 < n → s.lagrangeWrapped c mem floor x n = s.lagrangeWrapped c' mem floor x n) ∧
      s.lagrangeFourPointsWrapped c mem floor x = s.lagrangeFourPointsWrapped c' mem floor x) := by
  refine ⟨same_lerpUnchecked h h' hm x, same_lerp h h' hm h0 hs x, fun hx =>
    ⟨same_lerpWrapped h h' hs floor hx, fun n hn => same_lagrangeWrapped h h' hs floor hx hn, ?_⟩⟩
  obtain ⟨e, b⟩ := Cfg.wide_f2i h h' hx
  unfold MemorySlice.lagrangeFourPointsWrapped
  rw [← e, same_four h h' hs b]

/-- A delay line whose cursor is in its buffer, and a buffer a 32-bit target can have. -/
def SmallLine (d : DelayLine) : Prop := d.index < d.buffer.length ∧ d.buffer.length ≤ 2 ^ 29

variable {d : DelayLine}

theorem wide_advance (h : 32 ≤ c.w) (hd : SmallLine d) : d.advance c =
    .ok { d with index := if d.index = d.buffer.length - 1 then 0 else d.index + 1 } := by
  obtain ⟨h0, h1⟩ := hd
  unfold DelayLine.advance MemorySlice.len
  rw [c.usub_eq (by omega), Cfg.wide_uadd h (by omega)]
  simp only [bind, Except.bind]
  split <;> rfl

theorem same_write (h : 32 ≤ c.w) (h' : 32 ≤ c'.w) (hd : SmallLine d) (v : α) :
    d.writeAndAdvance c mem v = d.writeAndAdvance c' mem v ∧
    ∀ r, d.writeAndAdvance c mem v = .ok r → SmallLine r.2 := by
  obtain ⟨h0, h1⟩ := id hd
  unfold DelayLine.writeAndAdvance
  rw [wide_advance h hd, wide_advance h' hd]
  refine ⟨rfl, fun r hr => ?_⟩
  cases ha : d.buffer.assignUnchecked mem d.index v with
  | error e => rw [ha] at hr; cases hr
  | ok m =>
    rw [ha] at hr
    simp only [bind, Except.bind, pure, Except.pure] at hr
    cases hr
    refine ⟨?_, h1⟩
    simp only
    split <;> omega

/-- C153: ... delay lines, -/
theorem C153_delay_partial (h : 32 ≤ c.w) (h' : 32 ≤ c'.w) (hd : SmallLine d) {i : ℤ} (hi : |i| ≤ 2 ^ 30) (v : α)
    {memF : Mem F32} {floor : F32 → F32} {x : F32} (hx : |(floor (c.u2f d.index + x)).val| ≤ 2 ^ 30) :
    d.readWrappedAt c mem i = d.readWrappedAt c' mem i ∧ d.advance c = d.advance c' ∧
    d.writeAndAdvance c mem v = d.writeAndAdvance c' mem v ∧
    d.readLerpWrappedAt c floor memF x = d.readLerpWrappedAt c' floor memF x ∧
    d.readLagrangeWrappedAt c floor memF x = d.readLagrangeWrappedAt c' floor memF x := by
  obtain ⟨h0, h1⟩ := id hd
  obtain ⟨i0, i1⟩ := abs_le.1 hi
  refine ⟨?_, by rw [wide_advance h hd, wide_advance h' hd], (same_write h h' hd v).1, same_lerpWrapped h h' h1 floor hx,
    same_lagrangeWrapped h h' h1 floor hx (by norm_num)⟩
  unfold DelayLine.readWrappedAt
  rw [Cfg.wide_asIsize h (by omega), Cfg.wide_asIsize h' (by omega), Cfg.wide_iadd h (by omega) (by omega),
    Cfg.wide_iadd h' (by omega) (by omega)]
  simp only [bind, Except.bind, wide_wrapped h h1, wide_wrapped h' h1]

/-- The same result, with a property if it is a value. -/
def Both {β : Type} (P : β → Prop) (a b : M β) : Prop := a = b ∧ ∀ r, a = .ok r → P r

theorem Both.bind {β γ : Type} {P : β → Prop} {Q : γ → Prop} {a b : M β} {f g : β → M γ} (h : Both P a b)
    (hf : ∀ x, P x → Both Q (f x) (g x)) : Both Q (a >>= f) (b >>= g) := by
  obtain ⟨rfl, h⟩ := h
  cases a with
  | error e => exact ⟨rfl, fun r hr => by cases hr⟩
  | ok x => exact hf x (h x rfl)

theorem Both.refl {β : Type} (a : M β) : Both (fun _ => True) a a := ⟨rfl, fun _ _ => trivial⟩

theorem Both.ok {β : Type} {P : β → Prop} {a : β} (h : P a) : Both P (.ok a : M β) (.ok a) :=
  ⟨rfl, fun r hr => by cases hr; exact h⟩

theorem both_comb [Add α] [Sub α] [Mul α] [Lit α] (h : 32 ≤ c.w) (h' : 32 ≤ c'.w) {k : Comb α} (hk : SmallLine k.delayLine) (x : α) :
    Both (fun r => SmallLine r.2.1.delayLine) (k.tick c mem x) (k.tick c' mem x) := by
  unfold Comb.tick
  exact (Both.refl _).bind fun o _ => Both.bind (same_write h h' hk _) fun r hr => Both.ok hr

theorem both_allPass [Add α] [Sub α] [Mul α] [Neg α] [Lit α] (h : 32 ≤ c.w) (h' : 32 ≤ c'.w) {k : AllPass} (hk : SmallLine k.delayLine)
    (x : α) : Both (fun r => SmallLine r.2.1.delayLine) (k.tick c mem x) (k.tick c' mem x) := by
  unfold AllPass.tick
  exact (Both.refl _).bind fun o _ => Both.bind (same_write h h' hk _) fun r hr => Both.ok hr

section
variable [Add α] [Sub α] [Mul α] [Neg α] [Lit α]

theorem both_proc (h : 32 ≤ c.w) (h' : 32 ≤ c'.w) {p : Proc α} (hp : SmallLine p.line) (x : α) :
    Both (fun r => SmallLine r.2.1.line) (p.tick c mem x) (p.tick c' mem x) := by
  cases p with
  | delay d => exact (Both.refl _).bind fun o _ => Both.bind (same_write h h' hp _) fun r hr => Both.ok hr
  | comb k => exact (both_comb h h' hp x).bind fun r hr => Both.ok hr
  | allPass k => exact (both_allPass h h' hp x).bind fun r hr => Both.ok hr

theorem both_netTick (h : 32 ≤ c.w) (h' : 32 ≤ c'.w) (x : α) (nds : List (Node α)) : ∀ (mem : Mem α) (os : List α),
    (∀ nd ∈ nds, SmallLine nd.proc.line) →
    Both (fun r => ∀ nd ∈ r.2.1, SmallLine nd.proc.line) (Net.tick c x mem os nds) (Net.tick c' x mem os nds) := by
  induction nds with
  | nil => intro mem os _; exact Both.ok (by simp)
  | cons nd nds ih =>
    intro mem os hn
    unfold Net.tick
    refine (both_proc h h' (hn nd (by simp)) _).bind fun r hr =>
      (ih r.1 _ fun nd hm => hn nd (by simp [hm])).bind fun q hq => Both.ok ?_
    intro nd hm
    rcases List.mem_cons.1 hm with rfl | hm
    · exact hr
    · exact hq nd hm

theorem both_netState (h : 32 ≤ c.w) (h' : 32 ≤ c'.w) {nds : List (Node α)} (hn : ∀ nd ∈ nds, SmallLine nd.proc.line) (inp : ℕ → α)
    (n : ℕ) : Both (fun r => ∀ nd ∈ r.2, SmallLine nd.proc.line) (Net.stateAt c mem nds inp n) (Net.stateAt c' mem nds inp n) := by
  induction n with
  | zero => exact Both.ok hn
  | succ n ih =>
    unfold Net.stateAt
    exact ih.bind fun r hr => (both_netTick h h' _ _ r.1 _ hr).bind fun q hq => Both.ok hq

/-- C153: ... networks of any size and wiring, at every tick, -/
theorem C153_network_partial (h : 32 ≤ c.w) (h' : 32 ≤ c'.w) {nds : List (Node α)} (hn : ∀ nd ∈ nds, SmallLine nd.proc.line)
    (inp : ℕ → α) (n : ℕ) : Net.outAt c mem nds inp n = Net.outAt c' mem nds inp n := by
  unfold Net.outAt
  exact ((both_netState h h' hn inp n).bind fun r hr => (both_netTick h h' _ _ r.1 _ hr).bind fun q _ => Both.refl _).1
end

theorem both_voiceNext (h : 32 ≤ c.w) (h' : 32 ≤ c'.w) (hc : c.checks = c'.checks) (u : Supplied) (mem : Mem F32) {v : Voice}
    (hv : SmallLine v.comb.delayLine) (t : Touch) :
    Both (fun r => SmallLine r.2.1.comb.delayLine) (v.next c u mem t) (v.next c' u mem t) := by
  unfold Voice.next
  rw [hc]
  refine (Both.refl _).bind fun o _ => (Both.refl _).bind fun r _ => (Both.refl _).bind fun e _ =>
    (both_comb h h' (k := (v.comb.setFeedback t.feedback).setDampening t.dampening) hv _).bind fun k hk =>
      (Both.refl _).bind fun q _ => Both.ok hk

/-- C153: ... and whole voices. -/
theorem C153_voice_partial (h : 32 ≤ c.w) (h' : 32 ≤ c'.w) (hc : c.checks = c'.checks) (u : Supplied) (mem : Mem F32) {v : Voice}
    (hv : SmallLine v.comb.delayLine) (t : ℕ → Touch) (n : ℕ) : Voice.outAt c u mem v t n = Voice.outAt c' u mem v t n := by
  have hs : Both (fun r => SmallLine r.2.comb.delayLine) (Voice.stateAt c u mem v t n) (Voice.stateAt c' u mem v t n) := by
    induction n with
    | zero => exact Both.ok hv
    | succ n ih =>
      unfold Voice.stateAt
      exact ih.bind fun r hr => (both_voiceNext h h' hc u r.1 hr _).bind fun q hq => Both.ok hq
  unfold Voice.outAt
  exact (hs.bind fun r hr => (both_voiceNext h h' hc u r.1 hr _).bind fun q _ => Both.refl _).1

/-- C153: ... wavetable oscillators and the two table lookups. -/
theorem C153_tables_partial (h : 32 ≤ c.w) (h' : 32 ≤ c'.w) {mem : Mem F32} (hm : Fits mem) (o : WavetableOscillator SoftPhaseAccumulator)
    (rem : F32 → F32 → F32) {table : List ℤ} (h0 : 0 < table.length) (h1 : table.length ≤ 2 ^ 29) (x : F32) :
    o.next c mem = o.next c' mem ∧ FMath.lookupSin c rem table x = FMath.lookupSin c' rem table x ∧
    FMath.lookupBlRect c x = FMath.lookupBlRect c' x := by
  refine ⟨?_, ?_, ?_⟩
  · unfold WavetableOscillator.next
    simp only [same_lerpUnchecked h h' hm]; rfl
  · unfold FMath.lookupSin
    rw [c.usub_eq (show 1 ≤ table.length by omega), c'.usub_eq (show 1 ≤ table.length by omega)]
    have hu : c.u2f = c'.u2f := rfl
    rw [hu]
    simp only [bind, Except.bind]
    generalize c'.u2f (table.length - 1) * ((FMath.normalizedRads rem x).abs / lit 2) = i
    rcases Cfg.wide_f2u h h' i with e | ⟨e, e'⟩
    · rw [e]
      by_cases hk : c'.f2u i < 2 ^ 30
      · rw [Cfg.wide_uadd h (by omega), Cfg.wide_uadd h' (by omega)]
      · rw [if_pos (by omega), if_pos (by omega)]
        unfold FMath.tableGet
        rw [List.getElem?_eq_none (by omega)]
    · rw [if_pos (by omega), if_pos (by omega)]
      unfold FMath.tableGet
      rw [List.getElem?_eq_none (by omega), List.getElem?_eq_none (by omega)]
  · have hf : Fits FMath.blRectMem := by
      intro b cells hb
      unfold FMath.blRectMem at hb
      split at hb
      · cases hb
        rw [show FMath.blRectTable.length = 5075 by decide +kernel]
        norm_num
      · cases hb
    unfold FMath.lookupBlRect
    have hl : 1 ≤ (MemorySlice.fromSlice 0 0 FMath.blRectTable.length).len := by
      show 1 ≤ FMath.blRectTable.length
      rw [show FMath.blRectTable.length = 5075 by decide +kernel]; norm_num
    simp only [c.usub_eq hl, c'.usub_eq hl, same_lerpUnchecked h h' hf]
    rfl

/-- The property at full strength: every build for every target gives the same result. -/
def C153_full : Prop := ∀ (c c' : Cfg), 32 ≤ c.w → 32 ≤ c'.w → c.checks = c'.checks → ∀ (floor : F32 → F32), FloorContract floor →
    ∀ (mem : Mem F32) (s : MemorySlice) (xs : List F32), Views c mem s xs → Views c' mem s xs → ∀ x : F32, x.isFin = true →
      s.lerpWrapped c mem floor x = s.lerpWrapped c' mem floor x

/-- C153 fails: beyond 2^31 the index saturates on the 32-bit target, and something else is read. -/
theorem C153_refuted : ¬ C153_full := by
  intro hall
  have h := hall Cfg.release64 Cfg.release32 (by decide) (by decide) rfl stdFloor stdFloor_contract
    (fun b => if b = 0 then some [lit 1, lit 2, lit 3] else none) ⟨⟨some 0, 0⟩, 3⟩ [lit 1, lit 2, lit 3]
    ⟨0, [], [], rfl, rfl, rfl, by decide⟩ ⟨0, [], [], rfl, rfl, rfl, by decide⟩ (lit (2 ^ 33)) (by decide +kernel)
  revert h
  decide +kernel
end

/-- The values behind `C153_refuted`: the sample 3.0 on a 64-bit target; on a 32-bit one the position is
far from the saturated index, and rounding leaves 0.0. -/
example : (⟨⟨some 0, 0⟩, 3⟩ : MemorySlice).lerpWrapped Cfg.release64
      (fun b => if b = 0 then some [lit 1, lit 2, lit 3] else none) stdFloor (lit (2 ^ 33)) = .ok (lit 3) ∧
    (⟨⟨some 0, 0⟩, 3⟩ : MemorySlice).lerpWrapped Cfg.release32
      (fun b => if b = 0 then some [lit 1, lit 2, lit 3] else none) stdFloor (lit (2 ^ 33)) = .ok (lit 0) := by
  constructor
  · decide +kernel
  · decide +kernel

/-- Two lines of 44100 samples, one feeding the other: the same on both targets. -/
example (mem : Mem F32) (inp : ℕ → F32) (n : ℕ) (w : F32 → List F32 → F32) :
    Net.outAt Cfg.release64 mem [⟨w, .delay ⟨⟨⟨some 0, 0⟩, 44100⟩, 0⟩⟩, ⟨w, .delay ⟨⟨⟨some 1, 0⟩, 44100⟩, 7⟩⟩] inp n =
    Net.outAt Cfg.release32 mem [⟨w, .delay ⟨⟨⟨some 0, 0⟩, 44100⟩, 0⟩⟩, ⟨w, .delay ⟨⟨⟨some 1, 0⟩, 44100⟩, 7⟩⟩] inp n :=
  C153_network_partial (by decide) (by decide) (by
    intro nd hn
    rcases List.mem_cons.1 hn with rfl | hn
    · exact ⟨by simp [Proc.line], by simp [Proc.line]⟩
    · rw [List.mem_singleton.1 hn]; exact ⟨by simp [Proc.line], by simp [Proc.line]⟩) inp n
end Verif
