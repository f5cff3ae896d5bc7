import Verif.Props.Voice
import Verif.Props.OctaveFloat

/-! # C197: a synthesiser with a filter that follows the envelope

Oscillator, filter, amplifier, as in every analogue synthesiser: the envelope drives both the level and the cutoff, which it moves over one
octave. As for C139 the chain is the user's, its links (`next`, `tick`, the designs, `process`) are the crate's. The coefficients are
computed anew before every sample, and everything is in float arithmetic. -/

namespace Verif
open F32 FunctionalOscillator Butterworth

/-- What the synthesiser keeps between samples. -/
structure Synth where
  osc : FunctionalOscillator SoftPhaseAccumulator
  env : AudioRateADSR
  filter : Biquad F32

/-- What the player does before a sample: any calls on the oscillator and on the envelope, and the choice of a filter, given as a function
of the cutoff. -/
structure SynthTouch where
  osc : List OscOp
  env : List EnvOp
  shape : F32 → BiquadCoeffs F32

/-- One sample, with the cutoff at `f * (1 + envelope)` as one writes it to save a multiplication by a constant. -/
def Synth.next (checks : Bool) (u : Supplied) (f : F32) (v : Synth) (t : SynthTouch) : M (Synth × F32) := do
  let osc ← runOsc checks u.floor u.rem v.osc t.osc
  let (osc, x) ← osc.next checks u.floor u.rem
  let (env, _) ← runEnv u.powf v.env t.env
  let (env, g) := env.tick u.powf
  let (filter, z) := { v.filter with coeffs := t.shape (f + f * g) }.process x
  return (⟨osc, env, filter⟩, z * g)

/-- The synthesiser before sample `n`. -/
def Synth.stateAt (checks : Bool) (u : Supplied) (f : F32) (v : Synth) (t : ℕ → SynthTouch) : ℕ → M Synth
  | 0 => .ok v
  | n + 1 => do
    let v' ← Synth.stateAt checks u f v t n
    let (v'', _) ← v'.next checks u f (t n)
    return v''

/-- Sample `n`. -/
def Synth.outAt (checks : Bool) (u : Supplied) (f : F32) (v : Synth) (t : ℕ → SynthTouch) (n : ℕ) : M F32 := do
  let v' ← Synth.stateAt checks u f v t n
  let (_, o) ← v'.next checks u f (t n)
  return o

/-- Moderate envelope calls at the rate `sr`; any of six designs with q from 1/8 to 1 and, where there is one, a gain up to 64. Oscillator
calls are free. -/
structure SynthTouch.Sane (powi : F32 → ℕ → F32) (sqrt : F32 → F32) (sr : F32) (t : SynthTouch) : Prop where
  env : ∀ o ∈ t.env, o.Moderate sr ∧ ∀ x, o ≠ .setSr x
  shape : ∃ q gain : F32, 1 / 8 ≤ q.val ∧ q.val ≤ 1 ∧ BoostGain gain ∧
    t.shape ∈ [fun fc => lowpass powi fc q sr, fun fc => highpass powi fc q sr, fun fc => allpass powi fc q sr,
      fun fc => notch powi fc q sr, fun fc => bellBoost powi fc q gain sr, fun fc => lowShelfBoost powi sqrt fc q gain sr]

/-- `f + f * g` in floats lies in the octave above `f`, ends included. -/
theorem octave_of_unit {f g : F32} (hf : f.isFin = true) (f0 : 0 < f.val) (f1 : f.val ≤ 2 ^ 30) (hg : Unit01 g) :
    f.val ≤ (f + f * g).val ∧ (f + f * g).val ≤ 2 * f.val := by
  have gf : g.isFin = true := fin_of_val (by rw [abs_of_nonneg hg.2.1]; exact lt_of_le_of_lt hg.2.2 (by norm_num))
  have p0 : 0 ≤ f.val * g.val := mul_nonneg f0.le hg.2.1
  have p1 : f.val * g.val ≤ f.val := mul_le_of_le_one_right f0.le hg.2.2
  have m1 : (f * g).val ≤ f.val := by
    rw [mul_fin hf gf]; exact rnd_le (isFin.not_nan hf) p1
  have m0 : 0 ≤ (f * g).val := by
    rw [mul_fin hf gf, ← lit0_val]
    exact le_rnd (q := f.val * g.val) (isFin.not_nan lit0_fin) (by rw [lit0_val]; exact p0)
  have mf : (f * g).isFin = true := by
    rw [mul_fin hf gf]; exact rnd_fin hf (by rw [abs_of_nonneg p0, abs_of_pos f0]; exact p1)
  obtain ⟨d1, d2, -⟩ := double_val hf (by rw [abs_of_pos f0]; norm_num at f1 ⊢; linarith)
  constructor
  · rw [add_fin hf mf]
    exact le_rnd (q := f.val + (f * g).val) (isFin.not_nan hf) (by linarith)
  · rw [add_fin hf mf, show 2 * f.val = (f * lit 2).val by rw [d2]]
    exact rnd_le (isFin.not_nan d1) (by rw [d2]; linarith)

/-- The coefficients a filter starts with do not matter if they are replaced before every sample. -/
theorem stateAtVar_new (a b : BiquadCoeffs F32) (h : ℕ → BiquadCoeffs F32 × F32) (n : ℕ) (c : BiquadCoeffs F32) :
    ({ (Biquad.new a).stateAtVar h n with coeffs := c } : Biquad F32) = { (Biquad.new b).stateAtVar h n with coeffs := c } := by
  cases n with
  | zero => rfl
  | succ n =>
    unfold Biquad.stateAtVar
    rw [stateAtVar_new a b h n]

variable {checks : Bool} {u : Supplied}

/-- The run, link by link: what the envelope, the oscillator and the filter do at sample `n`. -/
theorem synth_run (hfl : FloorContract u.floor) (hrem : RemContract u.rem) (hpf : PowfModerate u.powf)
    (osc : FunctionalOscillator SoftPhaseAccumulator) {env : AudioRateADSR} {sr : F32} (hi : EnvInv env) (hsr : env.sr = sr)
    {powi : F32 → ℕ → F32} (hp : PowiNear powi) {sqrt : F32 → F32} (hs : SqrtWithin (1 / 4) sqrt) {f : F32}
    (s0 : 1 ≤ sr.val) (s1 : sr.val ≤ 2 ^ 30) (f0 : sr.val / 275 ≤ f.val) (f1 : 2 * f.val ≤ sr.val / 4) (co : BiquadCoeffs F32)
    {t : ℕ → SynthTouch} (ht : ∀ n, (t n).Sane powi sqrt sr) (n : ℕ) :
    ∃ v e z, Synth.stateAt checks u f ⟨osc, env, Biquad.new co⟩ t n = .ok v ∧ EnvInv v.env ∧ v.env.sr = sr ∧
      (∃ xs, runEnv u.powf v.env (t n).env = .ok (e, xs)) ∧ Unit01 (e.tick u.powf).2 ∧
      (∃ v', v.next checks u f (t n) = .ok (v', z * (e.tick u.powf).2) ∧ v'.env = (e.tick u.powf).1) ∧
      z.isFin = true ∧ |z.val| ≤ 2 ^ 33 := by
  have ho : ∀ (o : FunctionalOscillator SoftPhaseAccumulator) (ops : List OscOp), ∃ p : _ × _ × F32,
      runOsc checks u.floor u.rem o ops = .ok p.1 ∧ p.1.next checks u.floor u.rem = .ok (p.2.1, p.2.2) ∧
        p.2.2.isFin = true ∧ |p.2.2.val| ≤ 3 := by
    intro o ops
    obtain ⟨o', x, h1, h2, h3⟩ := osc_next_bounded (checks := checks) (rem := u.rem) hfl
      ⟨runPhase o.acc (ops.filterMap OscOp.toPhase), waveInForce o.wave ops⟩
    exact ⟨(_, o', x), C96_state hrem o ops, h1, h2, h3⟩
  choose fo fo1 fo2 fo3 fo4 using ho
  have hev : ∀ (e : {e : AudioRateADSR // EnvInv e ∧ e.sr = sr}) (n : ℕ), ∃ p : AudioRateADSR × List F32,
      runEnv u.powf e.1 (t n).env = .ok p ∧ EnvInv p.1 ∧ p.1.sr = sr := by
    intro e n
    obtain ⟨e', xs, h1, h2, h3⟩ := env_calls hpf (t n).env e.2.1 (by rw [e.2.2]; exact (ht n).env)
    exact ⟨(e', xs), h1, h2, h3.trans e.2.2⟩
  choose fe fe1 fe2 fe3 using hev
  let O : ℕ → FunctionalOscillator SoftPhaseAccumulator := fun n => Nat.rec osc (fun n o => (fo o (t n).osc).2.1) n
  let E : ℕ → {e : AudioRateADSR // EnvInv e ∧ e.sr = sr} := fun n => Nat.rec ⟨env, hi, hsr⟩
    (fun n e => ⟨((fe e n).1.tick u.powf).1, (env_tick hpf (fe2 e n)).1, (env_tick hpf (fe2 e n)).2.1.trans (fe3 e n)⟩) n
  let g : ℕ → F32 := fun n => ((fe (E n) n).1.tick u.powf).2
  let X : ℕ → F32 := fun n => (fo (O n) (t n).osc).2.2
  let C : ℕ → BiquadCoeffs F32 := fun n => (t n).shape (f + f * g n)
  have hg : ∀ n, Unit01 (g n) := fun n => (env_tick hpf (fe2 (E n) n)).2.2
  have fp : 0 < f.val := by linarith
  have fB : f.val ≤ 2 ^ 30 := by linarith
  have ff : f.isFin = true := fin_of_val (by rw [abs_of_pos fp]; norm_num at fB ⊢; linarith)
  have hC : ∀ n, MovedF powi sqrt f sr (C n) := by
    intro n
    obtain ⟨q, gain, q0, q1, hgain, hsh⟩ := (ht n).shape
    obtain ⟨c0, c1⟩ := octave_of_unit ff fp fB (hg n)
    refine ⟨f + f * g n, q, gain, c0, c1, q0, q1, hgain, ?_⟩
    show (t n).shape (f + f * g n) ∈ _
    simp only [List.mem_cons, List.not_mem_nil, or_false] at hsh ⊢
    rcases hsh with h | h | h | h | h | h <;> rw [h] <;> simp
  have hz := C179_float_designs hp hs s0 s1 f0 f1 hC (x := X) (m := 3) (by norm_num) (by norm_num) (fun n => ⟨fo3 _ _, fo4 _ _⟩)
  let F : ℕ → Biquad F32 := (Biquad.new co).stateAtVar (fun n => (C n, X n))
  have hstep : ∀ n, (⟨O n, (E n).1, F n⟩ : Synth).next checks u f (t n) =
      .ok (⟨O (n + 1), (E (n + 1)).1, F (n + 1)⟩, (Biquad.new (C 0)).outAtVar (fun n => (C n, X n)) n * g n) := by
    intro n
    unfold Synth.next
    simp only [fo1 (O n), ok_bind, fo2 (O n), fe1 (E n)]
    have : (Biquad.new (C 0)).outAtVar (fun n => (C n, X n)) n = ({ F n with coeffs := C n }.process (X n)).2 := by
      unfold Biquad.outAtVar
      rw [stateAtVar_new (C 0) co]
    rw [this]; rfl
  have hrun : ∀ n, Synth.stateAt checks u f ⟨osc, env, Biquad.new co⟩ t n = .ok ⟨O n, (E n).1, F n⟩ := by
    intro n
    induction n with
    | zero => rfl
    | succ n ih =>
      unfold Synth.stateAt
      rw [ih, ok_bind, hstep n]; rfl
  refine ⟨_, (fe (E n) n).1, _, hrun n, (E n).2.1, (E n).2.2, ⟨(fe (E n) n).2, fe1 (E n) n⟩, hg n, ⟨_, hstep n, rfl⟩, (hz n).1, (hz n).2.trans (by norm_num)⟩

/-- C197: whatever is played, the synthesiser never fails; every sample is a number up to 2^33 in size, and the clipper after it gives a
number of `[-1,1]`. -/
theorem C197_synth (hfl : FloorContract u.floor) (hrem : RemContract u.rem) (hpf : PowfModerate u.powf)
    (osc : FunctionalOscillator SoftPhaseAccumulator)
    {a d su r sl sr : F32} (ha : AtLeastOneSample a sr) (hd : AtLeastOneSample d sr) (hsu : su.isNaN = false)
    (hr : AtLeastOneSample r sr) (hsl : Pos sl) (h20 : sl.val ≤ 20) (hf : sr.isFin = true)
    {powi : F32 → ℕ → F32} (hp : PowiNear powi) {sqrt : F32 → F32} (hs : SqrtWithin (1 / 4) sqrt) {f : F32}
    (s0 : 1 ≤ sr.val) (s1 : sr.val ≤ 2 ^ 30) (f0 : sr.val / 275 ≤ f.val) (f1 : 2 * f.val ≤ sr.val / 4) (co : BiquadCoeffs F32)
    {t : ℕ → SynthTouch} (ht : ∀ n, (t n).Sane powi sqrt sr) :
    ∃ env, AudioRateADSR.new a d su r sl sr = .ok env ∧ ∀ n, ∃ y s,
      Synth.outAt checks u f ⟨osc, env, Biquad.new co⟩ t n = .ok y ∧ y.isFin = true ∧ |y.val| ≤ 2 ^ 33 ∧
      Clipping.digitalClip y = .ok s ∧ s.isFin = true ∧ |s.val| ≤ 1 := by
  obtain ⟨env, he, hi, hsr, -⟩ := new_inv ha hd hsu hr hsl h20 hf (by linarith)
  refine ⟨env, he, fun n => ?_⟩
  obtain ⟨v, e, z, h1, -, -, -, hg, ⟨v', h2, -⟩, hz, hb⟩ := synth_run (checks := checks) hfl hrem hpf osc hi hsr hp hs s0 s1 f0 f1 co ht n
  generalize (e.tick u.powf).2 = g at *
  have gf : g.isFin = true := fin_of_val (by rw [abs_of_nonneg hg.2.1]; exact lt_of_le_of_lt hg.2.2 (by norm_num))
  have k : |z.val * g.val| ≤ |z.val| := by
    rw [abs_mul, abs_of_nonneg hg.2.1]; exact mul_le_of_le_one_right (abs_nonneg _) hg.2.2
  have yf : (z * g).isFin = true := by rw [mul_fin hz gf]; exact rnd_fin hz k
  have yb : |(z * g).val| ≤ 2 ^ 33 := by
    rw [mul_fin hz gf]; exact (rnd_abs_le (s := z.neg != g.neg) k).trans hb
  obtain ⟨s, c1, -, c2, -⟩ := C78_clip (z * g)
  obtain ⟨c3, -, c4, c5, -⟩ := c2 (isFin.not_nan yf)
  refine ⟨_, s, ?_, yf, yb, c1, c3, abs_le.2 ⟨c4, c5⟩⟩
  unfold Synth.outAt
  rw [h1, ok_bind, h2]; rfl

/-- C197, silence: until a key is pressed every sample is a zero of either sign, though the oscillator runs and the filter is fed. -/
theorem C197_silence (hfl : FloorContract u.floor) (hrem : RemContract u.rem) (hpf : PowfModerate u.powf)
    (osc : FunctionalOscillator SoftPhaseAccumulator)
    {a d su r sl sr : F32} (ha : AtLeastOneSample a sr) (hd : AtLeastOneSample d sr) (hsu : su.isNaN = false)
    (hr : AtLeastOneSample r sr) (hsl : Pos sl) (h20 : sl.val ≤ 20) (hf : sr.isFin = true)
    {powi : F32 → ℕ → F32} (hp : PowiNear powi) {sqrt : F32 → F32} (hs : SqrtWithin (1 / 4) sqrt) {f : F32}
    (s0 : 1 ≤ sr.val) (s1 : sr.val ≤ 2 ^ 30) (f0 : sr.val / 275 ≤ f.val) (f1 : 2 * f.val ≤ sr.val / 4) (co : BiquadCoeffs F32)
    {t : ℕ → SynthTouch} (ht : ∀ n, (t n).Sane powi sqrt sr) {k : ℕ} (hon : ∀ n ≤ k, .on ∉ (t n).env) :
    ∃ env, AudioRateADSR.new a d su r sl sr = .ok env ∧ ∀ n ≤ k, ∃ y,
      Synth.outAt checks u f ⟨osc, env, Biquad.new co⟩ t n = .ok y ∧ y.isFin = true ∧ y.val = 0 := by
  obtain ⟨env, he, hi, hsr, hidle, -⟩ := new_inv ha hd hsu hr hsl h20 hf (by linarith)
  refine ⟨env, he, ?_⟩
  have run := synth_run (checks := checks) hfl hrem hpf osc hi hsr hp hs s0 s1 f0 f1 co ht
  have idle : ∀ n ≤ k, ∃ v, Synth.stateAt checks u f ⟨osc, env, Biquad.new co⟩ t n = .ok v ∧ v.env.state = .idle := by
    intro n
    induction n with
    | zero => exact fun _ => ⟨_, rfl, hidle⟩
    | succ n ih =>
      intro hn
      obtain ⟨v, h1, h2⟩ := ih (by omega)
      obtain ⟨w, e, z, g1, -, -, ⟨xs, g2⟩, -, ⟨v', g3, g4⟩, -⟩ := run n
      obtain rfl : v = w := Except.ok.inj (h1.symm.trans g1)
      have e4 := idle_calls _ g2 h2 (hon n (by omega))
      refine ⟨v', ?_, ?_⟩
      · unfold Synth.stateAt
        rw [h1, ok_bind, g3]; rfl
      · rw [g4, show e.tick u.powf = (e, lit 0) by unfold AudioRateADSR.tick; rw [e4]]
        exact e4
  intro n hn
  obtain ⟨v, h1, h2⟩ := idle n hn
  obtain ⟨w, e, z, g1, -, -, ⟨xs, g2⟩, -, ⟨v', g3, g4⟩, hz, -⟩ := run n
  obtain rfl : v = w := Except.ok.inj (h1.symm.trans g1)
  have e4 := idle_calls _ g2 h2 (hon n hn)
  have e5 : e.tick u.powf = (e, lit 0) := by unfold AudioRateADSR.tick; rw [e4]
  rw [e5] at g3
  have zz := IsZ.mul_left hz .lit0
  refine ⟨_, ?_, zz.1, zz.2⟩
  unfold Synth.outAt
  rw [h1, ok_bind, g3]; rfl

/-! At 48 kHz: a sweep from 1 to 2 kHz, a low-pass turning into a high-pass every other sample; a key down before sample 3. -/

def synthTurn (n : ℕ) : SynthTouch :=
  { osc := if n = 0 then [.setWave .rectangle, .setFreq (lit 440)] else []
    env := if n = 3 then [.on] else if n = 9 then [.off] else []
    shape := if n % 2 = 0 then fun fc => lowpass powiMul fc (lit (7 / 10)) (lit 48000) else fun fc => highpass powiMul fc (lit (1 / 2)) (lit 48000) }

example : (∀ n, (synthTurn n).Sane powiMul mmSqrt (lit 48000)) ∧ (∀ n ≤ 2, .on ∉ (synthTurn n).env) ∧
    (lit 48000 : F32).val / 275 ≤ (lit 1000 : F32).val ∧ 2 * (lit 1000 : F32).val ≤ (lit 48000 : F32).val / 4 ∧
    1 ≤ (lit 48000 : F32).val ∧ (lit 48000 : F32).val ≤ 2 ^ 30 := by
  refine ⟨fun n => ⟨?_, ?_⟩, ?_, by decide +kernel, by decide +kernel, by decide +kernel, by decide +kernel⟩
  · intro o ho
    unfold synthTurn at ho
    dsimp only at ho
    split_ifs at ho <;> simp at ho <;> subst ho <;> exact ⟨trivial, by simp⟩
  · unfold synthTurn
    dsimp only
    split_ifs
    · exact ⟨lit (7 / 10), lit 1, by decide +kernel, by decide +kernel, by unfold BoostGain; decide +kernel, List.mem_cons_self ..⟩
    · exact ⟨lit (1 / 2), lit 1, by decide +kernel, by decide +kernel, by unfold BoostGain; decide +kernel,
        List.mem_cons_of_mem _ (List.mem_cons_self ..)⟩
  · intro n hn
    unfold synthTurn
    dsimp only
    rw [if_neg (by omega), if_neg (by omega)]
    simp

end Verif
