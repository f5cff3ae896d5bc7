import Verif.Props.HighCutoff
import Verif.Props.PeriodicInput

/-! # C198: how late the filters are

A control value or a slow signal sent through a filter comes out later. For a value moving at a constant speed the lateness is exact: after the
start has been forgotten the low-pass is `1 / (2 k q)` samples behind, `k` being the warped cutoff. -/

namespace Verif
open Butterworth FMath

/-- A value moving at a constant speed: `a` at the start, `b` more with every sample. -/
def moving (a b : ℝ) (n : ℕ) : ℝ := a + b * n

/-- The output comes to follow what the input was `d` samples before, times `g`. -/
def FollowsLate (co : BiquadCoeffs ℝ) (g d : ℝ) : Prop :=
  ∀ a b z1 z2 : ℝ, Filter.Tendsto (fun n : ℕ => Biquad.outAt ⟨z1, z2, co⟩ (moving a b) n - g * (a + b * ((n : ℝ) - d))) Filter.atTop (nhds 0)

/-- The lateness of a stable filter, by its coefficients. -/
theorem follows_late {co : BiquadCoeffs ℝ} (hs : co.Stable) {g d : ℝ} (hg : co.b0 + co.b1 + co.b2 = g * (1 + co.a1 + co.a2))
    (hd : co.b1 + 2 * co.b2 = g * (co.a1 + 2 * co.a2) + g * d * (1 + co.a1 + co.a2)) : FollowsLate co g d := by
  intro a b z1 z2
  obtain ⟨u, v, hp⟩ := stable_poles hs
  obtain ⟨-, -, M0, M1, -⟩ := hp.facts
  have r0 : 0 < 1 - circleMargin u v / 4 := by linarith
  have r1 : 1 - circleMargin u v / 4 < 1 := by linarith
  have key : ∀ n : ℕ, Biquad.stateAt ⟨g * (a + b * (0 - d)) - co.b0 * a, co.b2 * (a - b) - co.a2 * (g * (a + b * (0 - 1 - d))), co⟩ (moving a b) n =
      ⟨g * (a + b * (n - d)) - co.b0 * (a + b * n), co.b2 * (a + b * (n - 1)) - co.a2 * (g * (a + b * (n - 1 - d))), co⟩ := by
    intro n
    induction n with
    | zero => simp [Biquad.stateAt, sub_eq_add_neg]
    | succ n ih =>
      simp only [Biquad.stateAt, ih, Biquad.process, moving, Biquad.mk.injEq, and_true]
      push_cast
      constructor
      · linear_combination (a + b * (n + 1)) * hg - b * hd
      · ring
  have out : ∀ n : ℕ, Biquad.outAt ⟨g * (a + b * (0 - d)) - co.b0 * a, co.b2 * (a - b) - co.a2 * (g * (a + b * (0 - 1 - d))), co⟩ (moving a b) n =
      g * (a + b * (n - d)) := by
    intro n
    simp only [Biquad.outAt, key, Biquad.process, moving]
    ring
  have h := fun n => C167_forgets hp z1 z2 (g * (a + b * (0 - d)) - co.b0 * a) (co.b2 * (a - b) - co.a2 * (g * (a + b * (0 - 1 - d)))) (moving a b) n
  simp only [out] at h
  refine squeeze_zero_norm h ?_
  have := (tendsto_pow_atTop_nhds_zero_of_lt_one r0.le r1).mul_const
    (2 * (|z1 - (g * (a + b * (0 - d)) - co.b0 * a)| + |z2 - (co.b2 * (a - b) - co.a2 * (g * (a + b * (0 - 1 - d))))|) / circleMargin u v)
  rwa [zero_mul] at this

section
variable {powi : ℝ → ℕ → ℝ} {sqrt : ℝ → ℝ} {fc q gain sr : ℝ}

/-- C198: the low-pass and the notch follow a moving value `1 / (2 k q)` samples late, the all-pass twice as late, and what a moving value
leaves after the high-pass is silence. -/
theorem C198_filters (hp : PowiExact powi) (hfc : 0 < fc) (hq : 0 < q) (hsr : 0 < sr) :
    FollowsLate (lowpass powi fc q sr) 1 (1 / (2 * warp powi fc sr * q)) ∧
    FollowsLate (notch powi fc q sr) 1 (1 / (2 * warp powi fc sr * q)) ∧
    FollowsLate (allpass powi fc q sr) 1 (1 / (warp powi fc sr * q)) ∧
    ∀ a b z1 z2 : ℝ, Filter.Tendsto (Biquad.outAt ⟨z1, z2, highpass powi fc q sr⟩ (moving a b)) Filter.atTop (nhds 0) := by
  obtain ⟨h1, h2, h3, h4, -⟩ := C35_stable (sqrt := fun x => x) (gain := 1) hp hfc hq hsr
  have hk := warp_pos hp hfc hsr
  have hn : 1 + warp powi fc sr / q + warp powi fc sr ^ 2 ≠ 0 := nondegenerate hq hk
  have hn' : q + warp powi fc sr + warp powi fc sr ^ 2 * q ≠ 0 := by positivity
  refine ⟨follows_late h1 ?_ ?_, follows_late h4 ?_ ?_, follows_late h3 ?_ ?_, fun a b z1 z2 => ?_⟩
  · simp only [lowpass, setup_eq, lowpassOf, Lit.lit]; push_cast; field_simp; ring
  · simp only [lowpass, setup_eq, lowpassOf, Lit.lit]; push_cast; field_simp; ring
  · simp only [notch, setup_eq, notchOf, Lit.lit]; push_cast; field_simp; ring
  · simp only [notch, setup_eq, notchOf, Lit.lit]; push_cast; field_simp; ring
  · simp only [allpass, setup_eq, allpassOf, Lit.lit]; push_cast; field_simp; ring
  · simp only [allpass, setup_eq, allpassOf, Lit.lit]; push_cast; field_simp; ring
  · have := follows_late h2 (g := 0) (d := 0) (by simp only [highpass, setup_eq, highpassOf, Lit.lit]; push_cast; ring)
      (by simp only [highpass, setup_eq, highpassOf, Lit.lit]; push_cast; ring) a b z1 z2
    simpa using this

/-- C198: a bell that boosts runs ahead of a moving value (for `gain` above 1), one that cuts lags behind it; a shelf raises or lowers it by the
gain and shifts it by what the middle coefficients differ. -/
theorem C198_equalisers (hp : PowiExact powi) (hfc : 0 < fc) (hq : 0 < q) (hsr : 0 < sr) :
    FollowsLate (bellBoost powi fc q gain sr) 1 ((1 - gain) / (2 * warp powi fc sr * q)) ∧
    (gain < 0 → FollowsLate (bellCut powi fc q gain sr) 1 ((-gain - 1) / (2 * warp powi fc sr * q))) ∧
    (0 < gain → FollowsLate (lowShelfBoost powi sqrt fc q gain sr) gain
      (1 / (2 * warp powi fc sr * q) - sqrt (gain * 2 * warp powi fc sr ^ 2) / (2 * gain * warp powi fc sr ^ 2))) ∧
    (gain < 0 → 0 < sqrt (-gain * 2 * warp powi fc sr ^ 2) → FollowsLate (lowShelfCut powi sqrt fc q gain sr) (1 / -gain)
      (sqrt (-gain * 2 * warp powi fc sr ^ 2) / (2 * -gain * warp powi fc sr ^ 2) - 1 / (2 * warp powi fc sr * q))) := by
  obtain ⟨-, -, -, -, h1, h2, h3, h4⟩ := C35_stable (sqrt := sqrt) (gain := gain) hp hfc hq hsr
  have hk := warp_pos hp hfc hsr
  have hn : 1 + warp powi fc sr / q + warp powi fc sr ^ 2 ≠ 0 := nondegenerate hq hk
  have hn' : q + warp powi fc sr + warp powi fc sr ^ 2 * q ≠ 0 := by positivity
  refine ⟨follows_late h1 ?_ ?_, fun hg => follows_late (h3 hg) ?_ ?_, fun hg => follows_late h2 ?_ ?_, fun hg hs => follows_late (h4 hg hs) ?_ ?_⟩
  · simp only [bellBoost, setup_eq, bellBoostOf, Lit.lit]; push_cast; field_simp; ring
  · simp only [bellBoost, setup_eq, bellBoostOf, Lit.lit]; push_cast; field_simp; ring
  · obtain ⟨h, rfl⟩ : ∃ h, gain = -h := ⟨-gain, (neg_neg _).symm⟩
    have h0 : 0 < h := by linarith
    have h5 : q + h * warp powi fc sr + warp powi fc sr ^ 2 * q ≠ 0 := by positivity
    simp only [bellCut, setup_eq, bellCutOf, Lit.lit, neg_neg]; push_cast; field_simp; ring
  · obtain ⟨h, rfl⟩ : ∃ h, gain = -h := ⟨-gain, (neg_neg _).symm⟩
    have h0 : 0 < h := by linarith
    have h5 : q + h * warp powi fc sr + warp powi fc sr ^ 2 * q ≠ 0 := by positivity
    simp only [bellCut, setup_eq, bellCutOf, Lit.lit, neg_neg]; push_cast; field_simp; ring
  · simp only [lowShelfBoost, setup_eq, lowShelfBoostOf, Lit.lit]; push_cast; generalize sqrt _ = t; field_simp; ring
  · simp only [lowShelfBoost, setup_eq, lowShelfBoostOf, Lit.lit]; push_cast
    generalize sqrt _ = t
    field_simp; ring
  · obtain ⟨h, rfl⟩ : ∃ h, gain = -h := ⟨-gain, (neg_neg _).symm⟩
    have h0 : 0 < h := by linarith
    simp only [lowShelfCut, setup_eq, lowShelfCutOf, Lit.lit, neg_neg] at hs ⊢
    push_cast at hs ⊢
    generalize sqrt _ = t at hs ⊢
    have h5 : 1 + t + h * warp powi fc sr ^ 2 ≠ 0 := by positivity
    field_simp; ring
  · obtain ⟨h, rfl⟩ : ∃ h, gain = -h := ⟨-gain, (neg_neg _).symm⟩
    have h0 : 0 < h := by linarith
    simp only [lowShelfCut, setup_eq, lowShelfCutOf, Lit.lit, neg_neg] at hs ⊢
    push_cast at hs ⊢
    generalize sqrt _ = t at hs ⊢
    have h5 : 1 + t + h * warp powi fc sr ^ 2 ≠ 0 := by positivity
    field_simp; ring

/-- C198: the lateness in samples is never above that of the analogue filter, `1 / (2 π fc q)` seconds, and for cutoffs up to a 40th of the
sample rate not a 400th below it. -/
theorem C198_time (hp : PowiExact powi) (hfc : 0 < fc) (hq : 0 < q) (hsr : 0 < sr) :
    1 / (2 * warp powi fc sr * q) ≤ sr / (2 * (piQ : ℚ) * fc * q) ∧
    (fc ≤ sr / 40 → 399 / 400 * (sr / (2 * (piQ : ℚ) * fc * q)) ≤ 1 / (2 * warp powi fc sr * q)) := by
  have hpi : (0:ℝ) < (piQ : ℚ) := by exact_mod_cast (by norm_num [piQ] : (0:ℚ) < piQ)
  have hpi' : ((piQ : ℚ) : ℝ) < 315 / 100 := by norm_num [piQ]
  have hk := warp_pos hp hfc hsr
  have hx : 0 < (piQ : ℚ) * fc / sr := by positivity
  have e : sr / (2 * (piQ : ℚ) * fc * q) = 1 / (2 * ((piQ : ℚ) * fc / sr) * q) := by field_simp
  rw [e]
  have hw : warp powi fc sr = tanPoly ((piQ : ℚ) * fc / sr) := warp_poly hp
  have hu : (piQ : ℚ) * fc / sr ≤ warp powi fc sr := by
    rw [hw]; unfold tanPoly
    have : ∀ x : ℝ, 0 < x → x ≤ x + 1/3 * x^3 + 2/15 * x^5 + 17/315 * x^7 + 62/2835 * x^9 + 1382/155925 * x^11 + 21844/6081075 * x^13 +
      929569/638512875 * x^15 := fun x h => by
        have : 0 ≤ 1/3 * x^3 + 2/15 * x^5 + 17/315 * x^7 + 62/2835 * x^9 + 1382/155925 * x^11 + 21844/6081075 * x^13 + 929569/638512875 * x^15 := by
          positivity
        linarith
    exact this _ hx
  refine ⟨one_div_le_one_div_of_le (by positivity) (by gcongr), fun hf => ?_⟩
  have hx1 : (piQ : ℚ) * fc / sr ≤ 79 / 1000 := by
    rw [div_le_iff₀ hsr]
    nlinarith
  have hu' : warp powi fc sr ≤ 400 / 399 * ((piQ : ℚ) * fc / sr) := by
    rw [hw]
    generalize ((piQ : ℚ) : ℝ) * fc / sr = x at hx hx1
    have y1 : x ^ 2 ≤ 1 / 160 := by nlinarith
    have y0 : 0 ≤ x ^ 2 := by positivity
    unfold tanPoly
    have : x + 1/3 * x^3 + 2/15 * x^5 + 17/315 * x^7 + 62/2835 * x^9 + 1382/155925 * x^11 + 21844/6081075 * x^13 + 929569/638512875 * x^15 =
        x * (1 + x ^ 2 * (1/3 + x ^ 2 * (2/15 + 17/315 * x^2 + 62/2835 * (x^2)^2 + 1382/155925 * (x^2)^3 + 21844/6081075 * (x^2)^4 +
          929569/638512875 * (x^2)^5))) := by ring
    rw [this, mul_comm (400 / 399 : ℝ)]
    refine mul_le_mul_of_nonneg_left ?_ hx.le
    generalize x ^ 2 = y at *
    have p2 : y ^ 2 ≤ 1 := pow_le_one₀ y0 (by linarith)
    have p3 : y ^ 3 ≤ 1 := pow_le_one₀ y0 (by linarith)
    have p4 : y ^ 4 ≤ 1 := pow_le_one₀ y0 (by linarith)
    have p5 : y ^ 5 ≤ 1 := pow_le_one₀ y0 (by linarith)
    have : y * (2/15 + 17/315 * y + 62/2835 * y^2 + 1382/155925 * y^3 + 21844/6081075 * y^4 + 929569/638512875 * y^5) ≤ y * (1/4) :=
      mul_le_mul_of_nonneg_left (by linarith) y0
    have : y * (1/3 + y * (2/15 + 17/315 * y + 62/2835 * y^2 + 1382/155925 * y^3 + 21844/6081075 * y^4 + 929569/638512875 * y^5)) ≤ y * (2/5) :=
      mul_le_mul_of_nonneg_left (by linarith) y0
    linarith
  rw [div_mul_div_comm, div_le_div_iff₀ (by positivity) (by positivity)]
  nlinarith [mul_le_mul_of_nonneg_left hu' hq.le]

end

/-- C198: a comb with feedback `g` and dampening `d`, whatever is in it, follows a moving value raised by `1 / (1 - g)` and
`(L + g d / (1 - d)) / (1 - g)` samples late. -/
theorem C198_comb {c : Cfg} {mem : Mem ℝ} {k : Comb ℝ} {q : List ℝ} (h : Holds c mem k.delayLine q) (hd : k.dampeningInverse = 1 - k.dampening)
    (d0 : 0 ≤ k.dampening) (d1 : k.dampening < 1) (hfb : |k.feedback| < 1) (a b : ℝ) :
    ∃ y : ℕ → ℝ, (∀ n, Comb.outAt c mem k (moving a b) n = .ok (y n)) ∧ Filter.Tendsto (fun n : ℕ => y n - 1 / (1 - k.feedback) *
      (a + b * ((n : ℝ) - (q.length + k.feedback * (k.dampening / (1 - k.dampening))) / (1 - k.feedback)))) Filter.atTop (nhds 0) := by
  have h1 : 1 - k.feedback ≠ 0 := by have := (abs_lt.1 hfb).2; linarith
  have h2 : 1 - k.dampening ≠ 0 := by linarith
  refine comb_follows h hd d0 d1 hfb (f' := fun n => 1 / (1 - k.feedback) * (a + b * ((n : ℝ) - 1 -
    (q.length + k.feedback * (k.dampening / (1 - k.dampening))) / (1 - k.feedback) - k.dampening / (1 - k.dampening)))) (fun n => ?_) (fun n => ?_)
  · push_cast; field_simp; ring
  · unfold moving; push_cast; field_simp; ring

/-- C198: the all-pass of the library follows a moving value four buffers late. -/
theorem C198_all_pass {c : Cfg} {mem : Mem ℝ} {k : AllPass} {q : List ℝ} (h : Holds c mem k.delayLine q) (a b : ℝ) :
    ∃ y : ℕ → ℝ, (∀ n, AllPass.outAt c mem k (moving a b) n = .ok (y n)) ∧
      Filter.Tendsto (fun n : ℕ => y n - (a + b * ((n : ℝ) - 4 * q.length))) Filter.atTop (nhds 0) := by
  obtain ⟨w, -, hw, hout⟩ := C24_all_pass h (moving a b)
  refine ⟨_, hout, ?_⟩
  have := comb_free (w := fun n => w n - 2 * (a + b * ((n : ℝ) - 2 * q.length)))
    (f := fun n => if n = 0 then 0 else w (n - 1) - 2 * (a + b * (((n - 1 : ℕ) : ℝ) - 2 * q.length))) (fb := 1 / 2) (d := 0)
    (List.length_pos_iff.2 h.ne_nil) (by rw [abs_of_pos] <;> norm_num) le_rfl one_pos (fun n => by simp) (fun n => by
      simp only [Nat.add_eq_zero_iff, one_ne_zero, and_false, if_false, Nat.add_sub_cancel, hw, moving, Lit.lit]
      push_cast; ring)
  refine this.congr fun n => ?_
  unfold moving; ring

/-- A level smoothed by a low-pass at 100 Hz and `q = 1/2` is 140 to 141 samples behind at 44.1 kHz, whatever it starts from and however fast
it moves. -/
example : ∃ d : ℝ, 140 ≤ d ∧ d ≤ 141 ∧ FollowsLate (lowpass (fun x n => x ^ n) 100 (1 / 2) 44100) 1 d := by
  have h := C198_time (powi := fun x n => x ^ n) (fc := 100) (q := 1 / 2) (sr := 44100) (fun _ _ => rfl) (by norm_num) (by norm_num) (by norm_num)
  refine ⟨_, ?_, ?_, (C198_filters (powi := fun x n => x ^ n) (fc := 100) (q := 1 / 2) (sr := 44100) (fun _ _ => rfl) (by norm_num) (by norm_num)
    (by norm_num)).1⟩
  · refine le_trans ?_ (h.2 (by norm_num))
    norm_num [piQ]
  · refine h.1.trans ?_
    norm_num [piQ]

/-- The all-pass over a silent buffer of 100 samples is 400 samples behind. -/
example : ∃ (mem : Mem ℝ) (k : AllPass) (y : ℕ → ℝ), (∀ n, AllPass.outAt Cfg.debug64 mem k (moving 0 1) n = .ok (y n)) ∧
    Filter.Tendsto (fun n : ℕ => y n - ((n : ℝ) - 400)) Filter.atTop (nhds 0) := by
  have h : Holds Cfg.debug64 (fun b => if b = 0 then some (List.replicate 100 0) else none) (AllPass.new (MemorySlice.fromSlice 0 0 100)).delayLine
      (List.replicate 100 (0 : ℝ)) := holds_new ⟨0, [], [], by simp [MemorySlice.fromSlice], by simp [MemorySlice.fromSlice], by simp, by decide⟩ (by simp)
  obtain ⟨y, h1, h2⟩ := C198_all_pass h 0 1
  refine ⟨_, _, y, h1, h2.congr fun n => ?_⟩
  rw [List.length_replicate]; push_cast; ring

end Verif
