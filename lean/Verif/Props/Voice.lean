import Verif.Props.OscHistory
import Verif.Props.Envelope
import Verif.Props.CombFloat
import Verif.Props.BassFloat
import Verif.Props.Rack
import Verif.Props.Level

/-! # C139: a whole voice

The crate is a toolbox; what a user builds from it is a chain like the one here: an oscillator shaped by an envelope, an
echo (comb), a filter, a clipper and a panner, with every setting open to change before every sample. The chain itself is
not in /repo, every link is (`next`, `tick`, `process`, `digital_clip`, `mono_pan_unchecked`). -/

namespace Verif
open F32 FunctionalOscillator Butterworth

/-! ## The chain -/

/-- What a voice keeps between samples. -/
structure Voice where
  osc : FunctionalOscillator SoftPhaseAccumulator
  env : AudioRateADSR
  comb : Comb F32
  filter : Biquad F32

/-- What the player does before a sample: any calls on the oscillator and on the envelope, the comb's settings, the
position in the stereo field. -/
structure Touch where
  osc : List OscOp
  env : List EnvOp
  feedback : F32
  dampening : F32
  pan : F32

/-- The functions micromath supplies. -/
structure Supplied where
  floor : F32 → F32
  rem : F32 → F32 → F32
  powf : F32 → F32 → F32

/-- One stereo sample. -/
def Voice.next (c : Cfg) (u : Supplied) (mem : Mem F32) (v : Voice) (t : Touch) : M (Mem F32 × Voice × (F32 × F32)) := do
  let osc ← runOsc c.checks u.floor u.rem v.osc t.osc
  let (osc, x) ← osc.next c.checks u.floor u.rem
  let (env, _) ← runEnv u.powf v.env t.env
  let (env, g) := env.tick u.powf
  let (mem, comb, y) ← ((v.comb.setFeedback t.feedback).setDampening t.dampening).tick c mem (x * g)
  let (filter, z) := v.filter.process y
  let s ← Clipping.digitalClip z
  return (mem, ⟨osc, env, comb, filter⟩, Stereo.monoPanUnchecked t.pan s)

/-- Memory and voice before sample `n`. -/
def Voice.stateAt (c : Cfg) (u : Supplied) (mem : Mem F32) (v : Voice) (t : ℕ → Touch) : ℕ → M (Mem F32 × Voice)
  | 0 => .ok (mem, v)
  | n + 1 => do
    let (m, v') ← Voice.stateAt c u mem v t n
    let (m', v'', _) ← v'.next c u m (t n)
    return (m', v'')

/-- Sample `n`. -/
def Voice.outAt (c : Cfg) (u : Supplied) (mem : Mem F32) (v : Voice) (t : ℕ → Touch) (n : ℕ) : M (F32 × F32) := do
  let (m, v') ← Voice.stateAt c u mem v t n
  let (_, _, o) ← v'.next c u m (t n)
  return o

/-- Settings the claim is about: envelope calls with moderate arguments at the rate `sr`, feedback of size 13/16 or less,
dampening from 0 to 1, pan from -1 to 1. Oscillator calls are free. -/
structure Touch.Sane (sr : F32) (t : Touch) : Prop where
  env : ∀ o ∈ t.env, o.Moderate sr ∧ ∀ x, o ≠ .setSr x
  fb : t.feedback.isFin = true ∧ |t.feedback.val| ≤ 13 / 16
  damp : t.dampening.isFin = true ∧ 0 ≤ t.dampening.val ∧ t.dampening.val ≤ 1
  pan : -1 ≤ t.pan.val ∧ t.pan.val ≤ 1

/-! ## The links -/

variable {c : Cfg} {u : Supplied}

/-- Any oscillator, any waveform, any state: the next sample is a number up to 3 (the rectangle reaches 3). -/
theorem osc_next_bounded {checks : Bool} {floor : F32 → F32} {rem : F32 → F32 → F32} (hfl : FloorContract floor)
    (o : FunctionalOscillator SoftPhaseAccumulator) :
    ∃ o' x, o.next checks floor rem = .ok (o', x) ∧ x.isFin = true ∧ |x.val| ≤ 3 := by
  rcases wave_cases o with hw | hw | hw | hw
  · obtain ⟨r, z, h1, h2, h3, h4, -⟩ := C60_range_partial checks rem
      (Interpolation.lerpUnchecked (lit 0) (lit FMath.tauQ) o.acc.nextValueNormalized.2)
    refine ⟨{ o with acc := o.acc.nextValueNormalized.1 }, r, ?_, h2, by rw [abs_le]; constructor <;> linarith⟩
    unfold FunctionalOscillator.next
    rw [hw]
    show (do let s ← sineOf checks rem o.acc.nextValueNormalized.2; return (_, s)) = _
    unfold sineOf
    rw [h1]; rfl
  · have hp := phase_isPhase o.acc
    obtain ⟨f1, h0, h2, -⟩ := saw_add_one hp
    have n0 : 0 ≤ ⌊(sawOf o.acc.nextValueNormalized.2 + lit 1).val⌋ := Int.floor_nonneg.2 h0
    have n2 : ⌊(sawOf o.acc.nextValueNormalized.2 + lit 1).val⌋ ≤ 2 := by
      have := Int.floor_le_floor h2
      rwa [show ⌊(2:ℚ)⌋ = 2 by norm_num] at this
    have e := rect_of_floor hfl hp n0 n2 rfl
    have q0 : (0:ℚ) ≤ ⌊(sawOf o.acc.nextValueNormalized.2 + lit 1).val⌋ := by exact_mod_cast n0
    have q2 : (⌊(sawOf o.acc.nextValueNormalized.2 + lit 1).val⌋ : ℚ) ≤ 2 := by exact_mod_cast n2
    have b : |(rectOf floor o.acc.nextValueNormalized.2).val| ≤ 3 := by
      rw [e, abs_le]; constructor <;> linarith
    exact ⟨_, _, next_rect checks floor rem o hw, fin_of_val (lt_of_le_of_lt b (by norm_num)), b⟩
  · obtain ⟨o', x, h1, h2, h3, h4⟩ := C68_range (checks := checks) (floor := floor) (rem := rem) o (.inl hw)
    exact ⟨o', x, h1, h2, by rw [abs_le]; constructor <;> linarith⟩
  · obtain ⟨o', x, h1, h2, h3, h4⟩ := C68_range (checks := checks) (floor := floor) (rem := rem) o (.inr hw)
    exact ⟨o', x, h1, h2, by rw [abs_le]; constructor <;> linarith⟩

/-- Calls that do not change the rate keep it and the envelope's invariant. -/
theorem env_calls {powf : F32 → F32 → F32} (hp : PowfModerate powf) : ∀ (ops : List EnvOp) {e : AudioRateADSR}, EnvInv e →
    (∀ o ∈ ops, o.Moderate e.sr ∧ ∀ x, o ≠ .setSr x) → ∃ e' xs, runEnv powf e ops = .ok (e', xs) ∧ EnvInv e' ∧ e'.sr = e.sr
  | [], e, h, _ => ⟨e, [], rfl, h, rfl⟩
  | o :: os, e, h, ho => by
    obtain ⟨e1, x, h1, h2, h3, -⟩ := apply_inv hp h (ho o (by simp)).1
    have hr : o.rate e.sr = e.sr := by
      have := (ho o (by simp)).2
      cases o <;> first | rfl | exact absurd rfl (this _)
    rw [hr] at h3
    obtain ⟨e2, xs, h5, h6, h7⟩ := env_calls hp os h2 (by rw [h3]; exact fun o' ho' => ho o' (by simp [ho']))
    refine ⟨e2, x.toList ++ xs, ?_, h6, h7.trans h3⟩
    unfold runEnv; rw [h1, ok_bind]; dsimp only; rw [h5]; rfl

theorem env_tick {powf : F32 → F32 → F32} (hp : PowfModerate powf) {e : AudioRateADSR} (h : EnvInv e) :
    EnvInv (e.tick powf).1 ∧ (e.tick powf).1.sr = e.sr ∧ Unit01 (e.tick powf).2 := by
  obtain ⟨e', x, h1, h2, h3, h4⟩ := apply_inv hp h (o := .tick) trivial
  have : e' = (e.tick powf).1 ∧ x = some (e.tick powf).2 := by
    have := Except.ok.inj h1
    exact ⟨(congrArg Prod.fst this).symm, (congrArg Prod.snd this).symm⟩
  rw [this.1] at h2 h3
  exact ⟨h2, h3, h4 _ (by rw [this.2]; rfl)⟩

/-- Product of a number up to 3 with a number of `[0,1]`. -/
theorem shaped {x g : F32} (hx : x.isFin = true) (hb : |x.val| ≤ 3) (hg : Unit01 g) :
    (x * g).isFin = true ∧ |(x * g).val| ≤ 3 := by
  have gf : g.isFin = true := fin_of_val (by rw [abs_of_nonneg hg.2.1]; exact lt_of_le_of_lt hg.2.2 (by norm_num))
  have r3 : Rep (3:ℚ) := by have := rep_int (n := 3) (by norm_num); exact_mod_cast this
  obtain ⟨z, zf, zv⟩ := r3
  have k : |x.val * g.val| ≤ |z.val| := by
    rw [zv, abs_mul, abs_of_nonneg hg.2.1, abs_of_pos (by norm_num : (0:ℚ) < 3)]
    nlinarith [hg.2.1, hg.2.2, abs_nonneg x.val]
  rw [mul_fin hx gf]
  refine ⟨rnd_fin zf k, ?_⟩
  have := rnd_abs_le (s := x.neg != g.neg) k
  rwa [zv, abs_of_pos (by norm_num : (0:ℚ) < 3)] at this

/-- Panning a number of `[-1,1]`. -/
theorem panned {a s : F32} (h0 : -1 ≤ a.val) (h1 : a.val ≤ 1) (hs : s.isFin = true) (hb : |s.val| ≤ 1) :
    let o := Stereo.monoPanUnchecked a s
    o.1.isFin = true ∧ |o.1.val| ≤ 1 ∧ o.2.isFin = true ∧ |o.2.val| ≤ 1 := by
  obtain ⟨p1, p2, p3, p4, -, e⟩ := C75_gains h0 h1
  have one : ∀ g : F32, 0 ≤ g.val → g.val ≤ 1 → (s * g).isFin = true ∧ |(s * g).val| ≤ 1 := by
    intro g g0 g1
    have gf : g.isFin = true := fin_of_val (by rw [abs_of_nonneg g0]; exact lt_of_le_of_lt g1 (by norm_num))
    have k : |s.val * g.val| ≤ |(lit 1 : F32).val| := by
      rw [lit1_val, abs_mul, abs_of_nonneg g0, abs_one]
      nlinarith [abs_nonneg s.val]
    rw [mul_fin hs gf]
    refine ⟨rnd_fin lit1_fin k, ?_⟩
    have := rnd_abs_le (s := s.neg != g.neg) k
    rwa [lit1_val, abs_one] at this
  rw [e s]
  exact ⟨(one _ p1 p2).1, (one _ p1 p2).2, (one _ p3 p4).1, (one _ p3 p4).2⟩

/-- A comb with settings changed before every tick never leaves its buffer and touches nothing else. -/
theorem Comb.stateUnder_frame {mem : Mem F32} {k : Comb F32} {q : List F32} (h : Holds c mem k.delayLine q) (fb damp inp : ℕ → F32)
    (n : ℕ) : ∃ m k' q', Comb.stateUnder c mem k fb damp inp n = .ok (m, k') ∧ Holds c m k'.delayLine q' ∧
      k'.delayLine.buffer = k.delayLine.buffer ∧ (∀ b, (m b).map List.length = (mem b).map List.length) ∧
      ∀ b j, ¬ InSlice k.delayLine.buffer b j → cell m b j = cell mem b j := by
  induction n with
  | zero => exact ⟨mem, k, q, rfl, h, rfl, fun _ => rfl, fun _ _ _ => rfl⟩
  | succ n ih =>
    obtain ⟨m, k', q', h1, h2, h3, h4, h5⟩ := ih
    obtain ⟨p, o, v, b1, b2⟩ := Proc.tick_frame (c := c) (p := .comb ((k'.setFeedback (fb n)).setDampening (damp n))) h2.ne_nil (inp n)
    obtain ⟨m', t1, t2, t3, t4⟩ := b2 m h2
    obtain ⟨m2, k2, o2, e⟩ : ∃ m2 k2 o2, ((k'.setFeedback (fb n)).setDampening (damp n)).tick c m (inp n) = .ok (m2, k2, o2) := by
      obtain ⟨m2, dl, e, -⟩ := Comb.tick_spec (k := (k'.setFeedback (fb n)).setDampening (damp n)) h2 (inp n)
      exact ⟨_, _, _, e⟩
    have ep : m2 = m' ∧ Proc.comb k2 = p := by
      unfold Proc.tick at t1
      dsimp only at t1
      rw [e, ok_bind] at t1
      have := Except.ok.inj t1
      exact ⟨congrArg Prod.fst this, congrArg (fun x => x.2.1) this⟩
    obtain ⟨rfl, rfl⟩ := ep
    refine ⟨m2, k2, _, ?_, t2, b1.trans h3, fun b => (t3 b).trans (h4 b), fun b j hn => ?_⟩
    · unfold Comb.stateUnder
      rw [h1, ok_bind]
      show (do let (m', k'', _) ← ((k'.setFeedback (fb n)).setDampening (damp n)).tick c m (inp n); return (m', k'')) = _
      rw [e]; rfl
    · rw [t4 b j (by rw [show (Proc.comb ((k'.setFeedback (fb n)).setDampening (damp n))).line.buffer = k.delayLine.buffer from h3]; exact hn)]
      exact h5 b j hn

/-! ## C139 -/

/-- C139: a voice with a low-pass, high-pass, all-pass or notch as its filter, played with any sane touches for any length
of time, never fails, never leaves its echo buffer, writes nothing outside it, and every sample on both channels is a
number of `[-1,1]`. -/
theorem C139_voice (hfl : FloorContract u.floor) (hrem : RemContract u.rem) (hpf : PowfModerate u.powf)
    {mem : Mem F32} {s : MemorySlice} {L : ℕ} (hL : 0 < L) (hv : Views c mem s (List.replicate L (lit 0)))
    (osc : FunctionalOscillator SoftPhaseAccumulator)
    {a d su r sl sr : F32} (ha : AtLeastOneSample a sr) (hd : AtLeastOneSample d sr) (hs : su.isNaN = false)
    (hr : AtLeastOneSample r sr) (hsl : Pos sl) (h20 : sl.val ≤ 20) (hf : sr.isFin = true)
    {powi : F32 → ℕ → F32} (hp : PowiNear powi) {fc q : F32} (s0 : 1 ≤ sr.val) (s1 : sr.val ≤ 2 ^ 30)
    (r0 : 1 / 2400 ≤ fc.val / sr.val) (r1 : fc.val / sr.val ≤ 318 / 1000) (q0 : 3 / 5 ≤ q.val) (q1 : q.val ≤ 2)
    {co : BiquadCoeffs F32} (hco : co ∈ [lowpass powi fc q sr, highpass powi fc q sr, allpass powi fc q sr, notch powi fc q sr])
    {t : ℕ → Touch} (ht : ∀ n, (t n).Sane sr) :
    ∃ env, AudioRateADSR.new a d su r sl sr = .ok env ∧ ∀ n,
      (∃ m v', Voice.stateAt c u mem ⟨osc, env, Comb.new s, Biquad.new co⟩ t n = .ok (m, v') ∧
        (∀ b, (m b).map List.length = (mem b).map List.length) ∧ ∀ b j, ¬ InSlice s b j → cell m b j = cell mem b j) ∧
      ∃ o, Voice.outAt c u mem ⟨osc, env, Comb.new s, Biquad.new co⟩ t n = .ok o ∧
        o.1.isFin = true ∧ |o.1.val| ≤ 1 ∧ o.2.isFin = true ∧ |o.2.val| ≤ 1 := by
  obtain ⟨env, he, hi, hsr, -⟩ := new_inv ha hd hs hr hsl h20 hf (by linarith)
  refine ⟨env, he, ?_⟩
  -- the oscillator and the envelope as streams
  have ho : ∀ (o : FunctionalOscillator SoftPhaseAccumulator) (ops : List OscOp), ∃ p : _ × _ × F32,
      runOsc c.checks u.floor u.rem o ops = .ok p.1 ∧ p.1.next c.checks u.floor u.rem = .ok (p.2.1, p.2.2) ∧
        p.2.2.isFin = true ∧ |p.2.2.val| ≤ 3 := by
    intro o ops
    obtain ⟨o', x, h1, h2, h3⟩ := osc_next_bounded (checks := c.checks) (rem := u.rem) hfl
      ⟨runPhase o.acc (ops.filterMap OscOp.toPhase), waveInForce o.wave ops⟩
    exact ⟨(_, o', x), C96_state hrem o ops, h1, h2, h3⟩
  choose fo fo1 fo2 fo3 fo4 using ho
  have hev : ∀ (e : {e : AudioRateADSR // EnvInv e ∧ e.sr = sr}) (n : ℕ), ∃ p : AudioRateADSR × List F32,
      runEnv u.powf e.1 (t n).env = .ok p ∧ EnvInv p.1 ∧ p.1.sr = sr := by
    intro e n
    obtain ⟨e', xs, h1, h2, h3⟩ := env_calls hpf (t n).env e.2.1 (by rw [e.2.2]; exact (ht n).env)
    exact ⟨(e', xs), h1, h2, h3.trans e.2.2⟩
  choose fe fe1 fe2 fe3 using hev
  let O : ℕ → FunctionalOscillator SoftPhaseAccumulator := fun n => Nat.rec osc (fun n o => (fo o (t n).osc).2.1) n
  let E : ℕ → {e : AudioRateADSR // EnvInv e ∧ e.sr = sr} := fun n => Nat.rec ⟨env, hi, hsr⟩
    (fun n e => ⟨((fe e n).1.tick u.powf).1, (env_tick hpf (fe2 e n)).1, (env_tick hpf (fe2 e n)).2.1.trans (fe3 e n)⟩) n
  let X : ℕ → F32 := fun n => (fo (O n) (t n).osc).2.2 * ((fe (E n) n).1.tick u.powf).2
  have hX : ∀ n, (X n).isFin = true ∧ |(X n).val| ≤ 3 := fun n =>
    shaped (fo3 _ _) (fo4 _ _) (env_tick hpf (fe2 (E n) n)).2.2
  -- the comb
  have hne : List.replicate L (lit 0 : F32) ≠ [] := by
    intro h0; have := congrArg List.length h0; simp at this; omega
  have hh : Holds c mem (Comb.new s : Comb F32).delayLine (List.replicate L (lit 0)) := holds_new hv hne
  have hq : ∀ x ∈ List.replicate L (lit 0 : F32), x.isFin = true ∧ |x.val| ≤ 2 ^ 4 := by
    intro x hx
    rw [List.eq_of_mem_replicate hx, lit0_val]; exact ⟨lit0_fin, by norm_num⟩
  have hy := C122_bounded hh (fb := fun n => (t n).feedback) (damp := fun n => (t n).dampening) (inp := X) (e := 4) (by norm_num) hq
    (by show (lit 0 : F32).isFin = true ∧ |(lit 0 : F32).val| ≤ 2 ^ 4; rw [lit0_val]; exact ⟨lit0_fin, by norm_num⟩)
    (fun n => (ht n).damp) (fun n => (ht n).fb.1) (fun n => (hX n).1)
    (fun n => by have := (ht n).fb.2; have := (hX n).2; norm_num at *; linarith)
  choose Y hY1 hY2 hY3 using hy
  -- the filter
  have hz := C118_bass hp s0 s1 r0 r1 q0 q1 hco (x := Y) (m := 16) (by norm_num) (by norm_num)
    (fun n => ⟨hY2 n, (hY3 n).trans (by norm_num)⟩)
  have hst := Comb.stateUnder_frame hh (fun n => (t n).feedback) (fun n => (t n).dampening) X
  choose M K Q hs1 hs2 hs3 hs4 hs5 using hst
  have hclip : ∀ n, ∃ g, Clipping.digitalClip ((Biquad.new co).outAt Y n) = .ok g ∧ g.isFin = true ∧ |g.val| ≤ 1 := by
    intro n
    obtain ⟨g, h1, -, h2, -⟩ := C78_clip ((Biquad.new co).outAt Y n)
    obtain ⟨h3, -, h4, h5, -⟩ := h2 (isFin.not_nan (hz n).1)
    exact ⟨g, h1, h3, abs_le.2 ⟨h4, h5⟩⟩
  choose G hG1 hG2 hG3 using hclip
  have hstep : ∀ n, (⟨O n, (E n).1, K n, (Biquad.new co).stateAt Y n⟩ : Voice).next c u (M n) (t n) =
      .ok (M (n + 1), ⟨O (n + 1), (E (n + 1)).1, K (n + 1), (Biquad.new co).stateAt Y (n + 1)⟩,
        Stereo.monoPanUnchecked (t n).pan (G n)) := by
    intro n
    have ht1 := hs1 (n + 1)
    unfold Comb.stateUnder at ht1
    rw [hs1 n, ok_bind] at ht1
    have ho1 := hY1 n
    unfold Comb.outUnder at ho1
    rw [hs1 n, ok_bind] at ho1
    have htick : (((K n).setFeedback (t n).feedback).setDampening (t n).dampening).tick c (M n) (X n) =
        .ok (M (n + 1), K (n + 1), Y n) := by
      obtain ⟨m2, dl, e, -⟩ := Comb.tick_spec (k := ((K n).setFeedback (t n).feedback).setDampening (t n).dampening) (hs2 n) (X n)
      dsimp only at ht1 ho1
      rw [e] at ht1 ho1 ⊢
      have e1 := Except.ok.inj ht1
      have e2 := Except.ok.inj ho1
      dsimp only at e1 e2
      rw [Prod.mk.injEq] at e1
      rw [← e1.1, ← e1.2, ← e2]
    unfold Voice.next
    simp only [fo1 (O n), ok_bind, fo2 (O n), fe1 (E n)]
    change (do
      let (mem, comb, y) ← (((K n).setFeedback (t n).feedback).setDampening (t n).dampening).tick c (M n) (X n)
      let (filter, z) := ((Biquad.new co).stateAt Y n).process y
      let s ← Clipping.digitalClip z
      return (mem, (⟨O (n + 1), (E (n + 1)).1, comb, filter⟩ : Voice), Stereo.monoPanUnchecked (t n).pan s)) = _
    rw [htick, ok_bind]
    change (do
      let s ← Clipping.digitalClip ((Biquad.new co).outAt Y n)
      return (M (n + 1), (⟨O (n + 1), (E (n + 1)).1, K (n + 1), (Biquad.new co).stateAt Y (n + 1)⟩ : Voice),
        Stereo.monoPanUnchecked (t n).pan s)) = _
    rw [hG1 n]; rfl
  have h00 : M 0 = mem ∧ K 0 = Comb.new s := by
    have := Except.ok.inj (hs1 0)
    rw [Prod.mk.injEq] at this
    exact ⟨this.1.symm, this.2.symm⟩
  have hrun : ∀ n, Voice.stateAt c u mem ⟨osc, env, Comb.new s, Biquad.new co⟩ t n =
      .ok (M n, ⟨O n, (E n).1, K n, (Biquad.new co).stateAt Y n⟩) := by
    intro n
    induction n with
    | zero => unfold Voice.stateAt; rw [h00.1, h00.2]; rfl
    | succ n ih =>
      unfold Voice.stateAt
      rw [ih, ok_bind]
      dsimp only
      rw [hstep n]; rfl
  intro n
  refine ⟨⟨_, _, hrun n, hs4 n, hs5 n⟩, Stereo.monoPanUnchecked (t n).pan (G n), ?_, panned (ht n).pan.1 (ht n).pan.2 (hG2 n) (hG3 n)⟩
  unfold Voice.outAt
  rw [hrun n, ok_bind]
  dsimp only
  rw [hstep n]; rfl

/-! ## Silence -/

/-- Plus or minus zero. -/
def IsZ (x : F32) : Prop := x.isFin = true ∧ x.val = 0

theorem rnd_zero_isZ {s : Bool} {q : ℚ} (h : q = 0) : IsZ (rnd s q) := by
  subst h
  have r : Rep (0:ℚ) := ⟨lit 0, lit0_fin, lit0_val⟩
  exact ⟨r.rnd_fin _, r.rnd_val _⟩

theorem IsZ.add {x y : F32} (hx : IsZ x) (hy : IsZ y) : IsZ (x + y) := by
  rw [add_fin hx.1 hy.1]; exact rnd_zero_isZ (by rw [hx.2, hy.2, add_zero])
theorem IsZ.sub {x y : F32} (hx : IsZ x) (hy : IsZ y) : IsZ (x - y) := by
  rw [sub_fin hx.1 hy.1]; exact rnd_zero_isZ (by rw [hx.2, hy.2, sub_zero])
theorem IsZ.mul_right {x y : F32} (hx : IsZ x) (hy : y.isFin = true) : IsZ (x * y) := by
  rw [mul_fin hx.1 hy]; exact rnd_zero_isZ (by rw [hx.2, zero_mul])
theorem IsZ.mul_left {x y : F32} (hx : x.isFin = true) (hy : IsZ y) : IsZ (x * y) := by
  rw [mul_fin hx hy.1]; exact rnd_zero_isZ (by rw [hy.2, mul_zero])
theorem IsZ.lit0 : IsZ (lit 0) := ⟨lit0_fin, lit0_val⟩

/-- An idle envelope stays idle as long as nobody presses a key, whatever else is called. -/
theorem idle_calls {powf : F32 → F32 → F32} : ∀ (ops : List EnvOp) {e e' : AudioRateADSR} {xs : List F32},
    runEnv powf e ops = .ok (e', xs) → e.state = .idle → .on ∉ ops → e'.state = .idle
  | [], e, e', xs, h, hi, _ => by
    have := Except.ok.inj h
    rw [← (Prod.mk.inj this).1]; exact hi
  | o :: os, e, e', xs, h, hi, hn => by
    unfold runEnv at h
    cases h1 : applyEnv powf e o with
    | error f => rw [h1] at h; cases h
    | ok p =>
      obtain ⟨e1, x⟩ := p
      rw [h1, ok_bind] at h
      dsimp only at h
      cases h2 : runEnv powf e1 os with
      | error f => rw [h2] at h; cases h
      | ok p2 =>
        obtain ⟨e2, ys⟩ := p2
        rw [h2, ok_bind] at h
        have he : e2 = e' := congrArg Prod.fst (Except.ok.inj h)
        subst he
        have g := (C83_state_graph h1).1
        rw [hi] at g
        simp only [List.mem_cons, not_or] at hn
        have i1 : e1.state = .idle := by
          cases o <;> simp_all [adsrGraph]
        exact idle_calls os h2 i1 hn.2

/-- C139, silence: with the filter's coefficients finite but otherwise arbitrary, a voice on which no key has been pressed
gives exact zeros (of either sign) on both channels for ever. -/
theorem C139_silence (hfl : FloorContract u.floor) (hrem : RemContract u.rem) (hpf : PowfModerate u.powf)
    {mem : Mem F32} {s : MemorySlice} {L : ℕ} (hL : 0 < L) (hv : Views c mem s (List.replicate L (lit 0)))
    (osc : FunctionalOscillator SoftPhaseAccumulator)
    {a d su r sl sr : F32} (ha : AtLeastOneSample a sr) (hd : AtLeastOneSample d sr) (hs : su.isNaN = false)
    (hr : AtLeastOneSample r sr) (hsl : Pos sl) (h20 : sl.val ≤ 20) (hf : sr.isFin = true) (s0 : 1 / 2 ≤ sr.val)
    {co : BiquadCoeffs F32} (hco : co.Fin) {t : ℕ → Touch} (ht : ∀ n, (t n).Sane sr) (hon : ∀ n, .on ∉ (t n).env) :
    ∃ env, AudioRateADSR.new a d su r sl sr = .ok env ∧ ∀ n, ∃ l r,
      Voice.outAt c u mem ⟨osc, env, Comb.new s, Biquad.new co⟩ t n = .ok (l, r) ∧
        (l = lit 0 ∨ l = -lit 0) ∧ (r = lit 0 ∨ r = -lit 0) := by
  obtain ⟨env, he, hi, hsr, hidle, -⟩ := new_inv ha hd hs hr hsl h20 hf s0
  refine ⟨env, he, ?_⟩
  have hne : List.replicate L (lit 0 : F32) ≠ [] := by
    intro h0; have := congrArg List.length h0; simp at this; omega
  -- what stays true
  let Inv : Mem F32 → Voice → Prop := fun m v => EnvInv v.env ∧ v.env.sr = sr ∧ v.env.state = .idle ∧
    (∃ q, Holds c m v.comb.delayLine q ∧ ∀ x ∈ q, IsZ x) ∧ IsZ v.comb.filterState ∧ IsZ v.filter.z1 ∧ IsZ v.filter.z2 ∧ v.filter.coeffs = co
  have step : ∀ m v, Inv m v → ∀ t : Touch, t.Sane sr → .on ∉ t.env →
      ∃ m' v' o, v.next c u m t = .ok (m', v', o) ∧ Inv m' v' ∧ IsZ o.1 ∧ IsZ o.2 := by
    intro m v ⟨i1, i2, i3, ⟨q, i4, i5⟩, i6, i7, i8, i9⟩ t hs hon
    obtain ⟨o', x, o1, o2, o3⟩ := osc_next_bounded (checks := c.checks) (rem := u.rem) hfl
      ⟨runPhase v.osc.acc (t.osc.filterMap OscOp.toPhase), waveInForce v.osc.wave t.osc⟩
    obtain ⟨e', xs, e1, e2, e3⟩ := env_calls hpf t.env i1 (by rw [i2]; exact hs.env)
    have e4 := idle_calls t.env e1 i3 hon
    have e5 : e'.tick u.powf = (e', lit 0) := by unfold AudioRateADSR.tick; rw [e4]
    have xg : IsZ (x * lit 0) := IsZ.mul_left o2 .lit0
    obtain ⟨m', dl, k1, k2⟩ := Comb.tick_spec (k := (v.comb.setFeedback t.feedback).setDampening t.dampening) i4 (x * lit 0)
    have hd0 : IsZ (q.head i4.ne_nil) := i5 _ (List.head_mem _)
    have df : (lit 1 - t.dampening : F32).isFin = true := by
      rw [sub_fin lit1_fin hs.damp.1, lit1_val]
      refine rnd_fin lit1_fin ?_
      rw [lit1_val, abs_one, abs_le]; constructor <;> linarith [hs.damp.2.1, hs.damp.2.2]
    have fz : IsZ (q.head i4.ne_nil * (lit 1 - t.dampening) + v.comb.filterState * t.dampening) :=
      (hd0.mul_right df).add (i6.mul_right hs.damp.1)
    obtain ⟨c0, c1, c2, c3, c4⟩ := hco
    rw [← i9] at c0 c1 c2 c3 c4
    have out0 : IsZ (v.filter.coeffs.b0 * q.head i4.ne_nil + v.filter.z1) := (IsZ.mul_left c0 hd0).add i7
    obtain ⟨g, g1, -, g2, -⟩ := C78_clip (v.filter.coeffs.b0 * q.head i4.ne_nil + v.filter.z1)
    obtain ⟨-, -, -, -, g3⟩ := g2 (isFin.not_nan out0.1)
    have g4 := g3 (by rw [out0.2]; norm_num) (by rw [out0.2]; norm_num)
    rw [g4] at g1
    obtain ⟨p1, p2, p3, p4, -, pe⟩ := C75_gains hs.pan.1 hs.pan.2
    have gf : ∀ y : F32, 0 ≤ y.val → y.val ≤ 1 → y.isFin = true := fun y h0 h1 =>
      fin_of_val (by rw [abs_of_nonneg h0]; exact lt_of_le_of_lt h1 (by norm_num))
    refine ⟨m', ⟨o', e', { (v.comb.setFeedback t.feedback).setDampening t.dampening with
        delayLine := dl, filterState := q.head i4.ne_nil * (lit 1 - t.dampening) + v.comb.filterState * t.dampening },
        (v.filter.process (q.head i4.ne_nil)).1⟩, Stereo.monoPanUnchecked t.pan (v.filter.coeffs.b0 * q.head i4.ne_nil + v.filter.z1),
      ?_, ⟨e2, e3.trans i2, e4, ⟨_, k2, ?_⟩, fz, ?_, ?_, i9⟩, ?_⟩
    · unfold Voice.next
      rw [C96_state hrem v.osc t.osc, ok_bind, o1, ok_bind]
      dsimp only
      rw [e1, ok_bind]
      dsimp only
      rw [e5]
      dsimp only
      rw [k1, ok_bind]
      change (do let s ← Clipping.digitalClip (v.filter.coeffs.b0 * q.head i4.ne_nil + v.filter.z1); return _) = _
      rw [g1]; rfl
    · intro z hz
      rcases List.mem_append.1 hz with hz | hz
      · exact i5 z (List.mem_of_mem_tail hz)
      · rw [List.mem_singleton.1 hz]
        exact xg.add (fz.mul_right hs.fb.1)
    · exact ((IsZ.mul_left c1 hd0).add i8).sub (IsZ.mul_left c3 out0)
    · exact (IsZ.mul_left c2 hd0).sub (IsZ.mul_left c4 out0)
    · rw [pe]
      exact ⟨out0.mul_right (gf _ p1 p2), out0.mul_right (gf _ p3 p4)⟩
  have run : ∀ n, ∃ m v, Voice.stateAt c u mem ⟨osc, env, Comb.new s, Biquad.new co⟩ t n = .ok (m, v) ∧ Inv m v := by
    intro n
    induction n with
    | zero => exact ⟨_, _, rfl, hi, hsr, hidle, ⟨_, holds_new hv hne, fun x hx => by
        rw [List.eq_of_mem_replicate hx]; exact .lit0⟩, .lit0, .lit0, .lit0, rfl⟩
    | succ n ih =>
      obtain ⟨m, v, h1, h2⟩ := ih
      obtain ⟨m', v', o, h3, h4, -⟩ := step m v h2 (t n) (ht n) (hon n)
      refine ⟨m', v', ?_, h4⟩
      unfold Voice.stateAt
      rw [h1, ok_bind]; dsimp only; rw [h3]; rfl
  intro n
  obtain ⟨m, v, h1, h2⟩ := run n
  obtain ⟨m', v', o, h3, -, h5, h6⟩ := step m v h2 (t n) (ht n) (hon n)
  have signed : ∀ z, IsZ z → z = lit 0 ∨ z = -lit 0 := fun z hz => by
    have h0 := val_eq_zero.1 hz.2
    cases h : z.neg with
    | false => left; exact ext_neg_mag (by rw [h]; decide +kernel) (by rw [h0]; decide +kernel)
    | true => right; exact ext_neg_mag (by rw [h]; decide +kernel) (by rw [h0]; decide +kernel)
  refine ⟨o.1, o.2, ?_, signed _ h5, signed _ h6⟩
  unfold Voice.outAt
  rw [h1, ok_bind]; dsimp only; rw [h3]; rfl

/-! A voice at 48 kHz: 10 ms attack, 100 ms decay, sustain 1/2, half a second of release, a low-pass at 1 kHz and q = 1, an
echo of two samples; a key goes down before sample 0 and up before sample 9, the pan moves from side to side. -/

/-- two samples of silence -/
def voiceMem : Mem F32 := fun b => if b = 0 then some [lit 0, lit 0] else none

def voiceTouch (n : ℕ) : Touch :=
  { osc := if n = 0 then [.setWave .rectangle, .setFreq (lit 440)] else [.setShift (lit (1/4))]
    env := if n = 0 then [.on] else if n = 9 then [.off] else []
    feedback := lit (13/16), dampening := lit (1/5), pan := if n % 2 = 0 then lit (-1) else lit 1 }

example : Views Cfg.debug64 voiceMem (MemorySlice.fromSlice 0 0 2) (List.replicate 2 (lit 0)) ∧
    AtLeastOneSample (lit (1/100)) (lit 48000) ∧ AtLeastOneSample (lit (1/10)) (lit 48000) ∧
    AtLeastOneSample (lit (1/2)) (lit 48000) ∧ Pos (lit 2) ∧ (lit 2 : F32).val ≤ 20 ∧
    (1:ℚ) ≤ (lit 48000 : F32).val ∧ (lit 48000 : F32).val ≤ 2 ^ 30 ∧ 1 / 2400 ≤ (lit 1000 : F32).val / (lit 48000 : F32).val ∧
    (lit 1000 : F32).val / (lit 48000 : F32).val ≤ 318 / 1000 ∧ 3 / 5 ≤ (lit 1 : F32).val ∧ (lit 1 : F32).val ≤ 2 ∧
    ∀ n, (voiceTouch n).Sane (lit 48000) := by
  refine ⟨⟨0, [], [], rfl, rfl, rfl, by decide⟩, by unfold AtLeastOneSample Pos; decide +kernel,
    by unfold AtLeastOneSample Pos; decide +kernel, by unfold AtLeastOneSample Pos; decide +kernel, by unfold Pos; decide +kernel,
    by decide +kernel, by decide +kernel, by decide +kernel, by decide +kernel, by decide +kernel, by decide +kernel, by decide +kernel,
    fun n => ⟨?_, by unfold voiceTouch; dsimp only; decide +kernel, by unfold voiceTouch; dsimp only; decide +kernel, ?_⟩⟩
  · intro o ho
    unfold voiceTouch at ho
    dsimp only at ho
    split_ifs at ho <;> simp at ho <;> subst ho <;> exact ⟨trivial, by simp⟩
  · unfold voiceTouch
    dsimp only
    split_ifs <;> decide +kernel

end Verif
