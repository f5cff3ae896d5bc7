import Verif.Props.Impulse
import Verif.Props.Butterworth

/-! # C203: effects lose nothing

In exact arithmetic. Each stage that is not a filter of zeros answers a click with something; so, power series having no zero divisors, it answers
two different signals differently, however long it takes to show. -/

namespace Verif

section
variable {K : Type} [Field K]
open PowerSeries

/-- The stage is not a biquad whose feed-forward coefficients are all zero (which is silent whatever it is fed with). -/
def Stage.Passes : Stage K → Prop
  | .filter f => ¬ (f.coeffs.b0 = 0 ∧ f.coeffs.b1 = 0 ∧ f.coeffs.b2 = 0)
  | .effect _ _ => True

/-- A silent stage that passes something answers a click. -/
theorem Stage.answers {c : Cfg} {s : Stage K} (hs : s.Silent c) (hp : s.Passes) {h : ℕ → K} (hh : s.Gives c impulse h) : ∃ n, h n ≠ 0 := by
  by_contra hc
  push Not at hc
  cases s with
  | filter f =>
    obtain ⟨z1, z2⟩ := hs
    have h0 := hh 0
    have h1 := hh 1
    have h2 := hh 2
    simp only [Biquad.outAt, Biquad.stateAt, Biquad.process, impulse, hc, z1, z2] at h0 h1 h2
    have e0 : f.coeffs.b0 = 0 := by simpa using h0
    have e1 : f.coeffs.b1 = 0 := by simpa [e0] using h1
    exact hp ⟨e0, e1, by simpa [e0, e1] using h2⟩
  | effect mem p =>
    obtain ⟨⟨L, hL⟩, hk⟩ := hs
    have hL0 : 0 < L := by
      rcases Nat.eq_zero_or_pos L with h | h
      · subst h; exact absurd rfl (hL.ne_nil)
      · exact h
    cases p with
    | delay d =>
      obtain ⟨w, -, h2, h3⟩ := delay_orbit (d := d) hL impulse
      have := (h3 (0 + L)).symm.trans (hh (0 + L))
      simp only [List.length_replicate] at h2
      rw [h2, hc] at this
      injection this with this
      simp [impulse] at this
    | comb k =>
      obtain ⟨w, f, h1, hf0, hf, h2, h3⟩ := C20_comb (k := k) hL impulse
      simp only [List.length_replicate, List.getElem_replicate] at h1 h2
      have := hh (0 + L)
      rw [Proc.outAt_comb, h3, h2, hf, hf0, hk k rfl, h1 0 hL0, hc] at this
      injection this with this
      simp [impulse] at this
    | allPass k =>
      obtain ⟨w, h1, h2, h3⟩ := C24_all_pass (k := k) hL impulse
      simp only [List.length_replicate, List.getElem_replicate] at h1
      have := hh 0
      rw [Proc.outAt_allPass, h3, h1 0 hL0, hc] at this
      injection this with this
      simp [impulse] at this

theorem Stage.injective {c : Cfg} {s : Stage K} (hs : s.Silent c) (hp : s.Passes) {x x' y : ℕ → K} (h : s.Gives c x y) (h' : s.Gives c x' y) :
    x = x' := by
  obtain ⟨hall, D, N, hD, hN⟩ := s.series hs
  obtain ⟨i, hi⟩ := hall impulse
  have hN0 : N ≠ 0 := by
    intro h0
    obtain ⟨n, hn⟩ := s.answers hs hp hi
    have e := hN _ _ hi
    rw [h0, zero_mul, mul_eq_zero] at e
    exact hn (by simpa using congrArg (coeff n) (e.resolve_left hD))
  have e := (hN _ _ h).symm.trans (hN _ _ h')
  exact funext fun n => series_eq (mul_left_cancel₀ hN0 e) n

/-- C203: two signals of which a chain of silent stages makes the same are the same. -/
theorem C203_lossless {c : Cfg} : ∀ {l : List (Stage K)} (_ : ∀ s ∈ l, s.Silent c) (_ : ∀ s ∈ l, s.Passes) {x x' y : ℕ → K},
    InSeries c l x y → InSeries c l x' y → x = x'
  | [], _, _, _, _, _, h, h' => h.symm.trans h'
  | s :: l, hs, hp, x, x', y, ⟨w, hw, h⟩, ⟨w', hw', h'⟩ => by
    have := C203_lossless (fun s h => hs s (List.mem_cons_of_mem _ h)) (fun s h => hp s (List.mem_cons_of_mem _ h)) h h'
    subst this
    exact s.injective (hs s List.mem_cons_self) (hp s List.mem_cons_self) hw hw'

/-- C203: the condition is needed: a biquad without feed-forward makes silence of everything. -/
theorem C203_needed {f : Biquad K} (h1 : f.z1 = 0) (h2 : f.z2 = 0) (hp : ¬ (Stage.filter f).Passes) (x : ℕ → K) (n : ℕ) : f.outAt x n = 0 := by
  obtain ⟨b0, b1, b2⟩ := not_not.1 hp
  have st : ∀ n, f.stateAt x n = f := by
    intro n
    induction n with
    | zero => rfl
    | succ n ih =>
      rw [Biquad.stateAt, ih]
      obtain ⟨z1, z2, co⟩ := f
      simp only at h1 h2 b0 b1 b2
      simp [Biquad.process, h1, h2, b0, b1, b2]
  rw [Biquad.outAt, st]
  simp [Biquad.process, h1, b0]

end

/-- C203: every design passes the condition, whatever the cutoff, q and gain (positive ones). -/
theorem C203_designs {powi : ℝ → ℕ → ℝ} (hp : PowiExact powi) {fc q sr gain : ℝ} (hfc : 0 < fc) (hq : 0 < q) (hsr : 0 < sr) (hg : 0 < gain)
    {sqrt : ℝ → ℝ} (h0 : ∀ x, 0 ≤ sqrt x) :
    ∀ co ∈ [Butterworth.lowpass powi fc q sr, Butterworth.highpass powi fc q sr, Butterworth.allpass powi fc q sr, Butterworth.notch powi fc q sr,
      Butterworth.bellBoost powi fc q gain sr, Butterworth.bellCut powi fc q (-gain) sr, Butterworth.lowShelfBoost powi sqrt fc q gain sr,
      Butterworth.lowShelfCut powi sqrt fc q (-gain) sr], (Stage.filter (Biquad.new co)).Passes := by
  have k0 := warp_pos hp hfc hsr
  have kq : 0 < warp powi fc sr / q := by positivity
  have k2 : 0 < warp powi fc sr ^ 2 := by positivity
  have s0 := h0 (gain * 2 * warp powi fc sr ^ 2)
  intro co hco
  rintro ⟨e0, -, e2⟩
  simp only [Biquad.new] at e0 e2
  simp only [List.mem_cons, List.not_mem_nil, or_false] at hco
  rcases hco with rfl | rfl | rfl | rfl | rfl | rfl | rfl | rfl
  · simp only [Butterworth.lowpass, setup_eq, Butterworth.lowpassOf, Lit.lit, Rat.cast_one] at e0
    exact absurd e0 (by positivity)
  · simp only [Butterworth.highpass, setup_eq, Butterworth.highpassOf, Lit.lit, Rat.cast_one] at e0
    exact absurd e0 (by positivity)
  · simp only [Butterworth.allpass, setup_eq, Butterworth.allpassOf, Lit.lit, Rat.cast_one] at e2
    exact absurd e2 one_ne_zero
  · simp only [Butterworth.notch, setup_eq, Butterworth.notchOf, Lit.lit, Rat.cast_one] at e0
    exact absurd e0 (by positivity)
  · simp only [Butterworth.bellBoost, setup_eq, Butterworth.bellBoostOf, Lit.lit, Rat.cast_one] at e0
    exact absurd e0 (by positivity)
  · simp only [Butterworth.bellCut, setup_eq, Butterworth.bellCutOf, Lit.lit, Rat.cast_one, neg_neg] at e0
    exact absurd e0 (by positivity)
  · simp only [Butterworth.lowShelfBoost, setup_eq, Butterworth.lowShelfBoostOf, Lit.lit, Rat.cast_one, Rat.cast_ofNat] at e0
    exact absurd e0 (by positivity)
  · simp only [Butterworth.lowShelfCut, setup_eq, Butterworth.lowShelfCutOf, Lit.lit, Rat.cast_one, Rat.cast_ofNat, neg_neg] at e0
    exact absurd e0 (by positivity)

/-- C203: a biquad with `b0` other than zero is undone by another biquad, sample for sample. -/
theorem C203_undo {K : Type} [Field K] {co : BiquadCoeffs K} (h : co.b0 ≠ 0) (x : ℕ → K) (n : ℕ) :
    (Biquad.new ⟨1 / co.b0, co.a1 / co.b0, co.a2 / co.b0, co.b1 / co.b0, co.b2 / co.b0⟩).outAt ((Biquad.new co).outAt x) n = x n := by
  apply inverse_filter <;> field_simp

/-- A click, and a click followed by something very small. -/
def clickF (t : F32) (n : ℕ) : F32 := if n = 0 then lit 1 else if n = 1 then t else lit 0

/-- C203 is about exact arithmetic: an all-pass run in floats makes the same of two different signals. -/
theorem C203_float_loses : ∃ (c : Cfg) (mem : Mem F32) (k : AllPass) (x x' : ℕ → F32), Holds c mem k.delayLine [lit 0] ∧
    (∃ n, (x n).val ≠ (x' n).val) ∧ ∀ n, ∃ y, AllPass.outAt c mem k x n = .ok y ∧ AllPass.outAt c mem k x' n = .ok y := by
  have hv : Views Cfg.release32 (fun b => if b = 0 then some [lit 0] else none : Mem F32) ⟨⟨some 0, 0⟩, 1⟩ [lit 0] :=
    ⟨0, [], [], rfl, rfl, rfl, by decide⟩
  have h : Holds Cfg.release32 _ (AllPass.new ⟨⟨some 0, 0⟩, 1⟩).delayLine [lit 0] := holds_new hv (by simp)
  refine ⟨_, _, AllPass.new ⟨⟨some 0, 0⟩, 1⟩, clickF (lit (1 / 2 ^ 60)), clickF (lit 0), h, ⟨1, by decide +kernel⟩, ?_⟩
  obtain ⟨w, a1, a2, a3⟩ := C24_all_pass h (clickF (lit (1 / 2 ^ 60)))
  obtain ⟨w', b1, b2, b3⟩ := C24_all_pass h (clickF (lit 0))
  simp only [List.length_singleton] at a1 a2 b1 b2
  have w0 : w 0 = lit 0 := a1 0 (by norm_num)
  have w0' : w' 0 = lit 0 := b1 0 (by norm_num)
  have w1 : w 1 = lit 1 + lit 0 * lit (1/2) := by rw [← w0]; exact a2 0
  have w1' : w' 1 = lit 1 + lit 0 * lit (1/2) := by rw [← w0']; exact b2 0
  have later : ∀ n, w (n + 2) = w' (n + 2) := by
    intro n
    induction n with
    | zero =>
      have e := a2 1
      have e' := b2 1
      rw [w1] at e
      rw [w1'] at e'
      refine e.trans (Eq.trans ?_ e'.symm)
      show (lit (1 / 2 ^ 60) : F32) + _ = lit 0 + _
      decide +kernel
    | succ n ih =>
      have e := a2 (n + 2)
      have e' := b2 (n + 2)
      rw [ih] at e
      exact e.trans e'.symm
  intro n
  refine ⟨_, a3 n, (b3 n).trans (congrArg _ ?_)⟩
  match n with
  | 0 => rw [w0, w0']; rfl
  | 1 =>
    rw [w1, w1']
    show -(lit 0 : F32) + _ = -(lit (1 / 2 ^ 60) : F32) + _
    decide +kernel
  | n + 2 => rw [later n]; rfl

/-- Two signals that differ in one sample only are told apart by a biquad with nothing but a two-sample delay in it, and undone where `b0` is not
zero. -/
example : ∃ n, (Biquad.new ⟨0, 0, 1, 1/2, 0⟩ : Biquad ℚ).outAt impulse n ≠ (Biquad.new ⟨0, 0, 1, 1/2, 0⟩ : Biquad ℚ).outAt (fun _ => 0) n := by
  by_contra hc
  push Not at hc
  have := C203_lossless (c := Cfg.debug64) (l := [.filter (Biquad.new (⟨0, 0, 1, 1/2, 0⟩ : BiquadCoeffs ℚ))]) (x := impulse) (x' := fun _ => 0)
    (fun s hs => by rw [List.mem_singleton.1 hs]; exact ⟨by simp [Biquad.new, Lit.lit], by simp [Biquad.new, Lit.lit]⟩)
    (fun s hs => by rw [List.mem_singleton.1 hs]; simp [Stage.Passes, Biquad.new])
    ⟨_, fun n => rfl, rfl⟩ ⟨_, fun n => (hc n).symm, rfl⟩
  exact absurd (congrFun this 0) (by simp [impulse])

end Verif
