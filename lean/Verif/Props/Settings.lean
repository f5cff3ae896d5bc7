import Verif.Props.Knobs
import Verif.Props.Impulse

/-! # C202: different settings make different filters

In exact arithmetic the first three samples of the answer to a click already tell the cutoff, the q and (for a bell) the gain. The one exception
is the bell of gain one, which does nothing whatever its cutoff and q. -/

namespace Verif
open Butterworth

section
/-- What a fresh biquad answers to a click, three samples of it. -/
noncomputable def firstThree (co : BiquadCoeffs ℝ) : List ℝ := (List.range 3).map ((Biquad.new co).outAt impulse)

theorem firstThree_eq (co : BiquadCoeffs ℝ) : firstThree co =
    [co.b0, co.b1 - co.a1 * co.b0, co.b2 - co.a1 * (co.b1 - co.a1 * co.b0) - co.a2 * co.b0] := by
  simp only [firstThree, List.range_succ, List.range_zero, List.nil_append, List.cons_append, List.map_cons, List.map_nil, Biquad.outAt,
    Biquad.stateAt, Biquad.process, Biquad.new, impulse, Lit.lit]
  simp
  ring

variable {powi : ℝ → ℕ → ℝ} {fc fc' q q' gain gain' sr : ℝ}

/-- Cutoff and q from the two numbers of `setup_coeffs`. -/
theorem settings_of (hp : PowiExact powi) (hfc : 0 < fc) (hfc' : 0 < fc') (hq : 0 < q) (hq' : 0 < q') (hsr : 0 < sr)
    (h2 : warp powi fc sr ^ 2 = warp powi fc' sr ^ 2) (h1 : warp powi fc sr / q = warp powi fc' sr / q') : fc = fc' ∧ q = q' := by
  have k0 := warp_pos hp hfc hsr
  have k0' := warp_pos hp hfc' hsr
  have hk : warp powi fc sr = warp powi fc' sr := (pow_left_inj₀ k0.le k0'.le two_ne_zero).1 h2
  refine ⟨?_, ?_⟩
  · rcases lt_trichotomy fc fc' with h | h | h
    · exact absurd hk (warp_strict hp hsr h).ne
    · exact h
    · exact absurd hk (warp_strict hp hsr h).ne'
  · rw [hk, div_eq_div_iff hq.ne' hq'.ne'] at h1
    exact (mul_left_cancel₀ k0'.ne' h1).symm

/-- The two numbers of `setup_coeffs` from the scale, `a1` and `a2`. -/
theorem den_inj {k m k' m' : ℝ} (hk : 0 < k) (hm : 0 < m) (hk' : 0 < k') (hm' : 0 < m')
    (h1 : 1 / (1 + m + k) * (2 * (k - 1)) = 1 / (1 + m' + k') * (2 * (k' - 1)))
    (h2 : 1 / (1 + m + k) * (1 - m + k) = 1 / (1 + m' + k') * (1 - m' + k')) : k = k' ∧ m = m' := by
  have a : 1 + m + k ≠ 0 := by positivity
  have a' : 1 + m' + k' ≠ 0 := by positivity
  have e : 1 / (1 + m + k) * (1 + m + k) = 1 / (1 + m' + k') * (1 + m' + k') := by
    rw [one_div_mul_cancel a, one_div_mul_cancel a']
  have n : 1 / (1 + m + k) = 1 / (1 + m' + k') := by linarith
  have n0 : 1 / (1 + m' + k') ≠ 0 := one_div_ne_zero a'
  rw [n] at h1 h2 e
  have e1 := mul_left_cancel₀ n0 h1
  have e2 := mul_left_cancel₀ n0 h2
  constructor <;> linarith

theorem same_den {β γ b a1 a2 a1' a2' : ℝ} (hb : b ≠ 0) (h1 : β * b - a1 * b = β * b - a1' * b)
    (h2 : γ * b - a1 * (β * b - a1 * b) - a2 * b = γ * b - a1' * (β * b - a1' * b) - a2' * b) : a1 = a1' ∧ a2 = a2' := by
  have e1 : a1 = a1' := mul_right_cancel₀ hb (by linarith)
  subst e1
  exact ⟨rfl, mul_right_cancel₀ hb (by linarith)⟩

theorem bell_inj {n k v w n' k' v' w' : ℝ} (n0 : 0 < n) (hv : n * (1 + k) + v = 1) (hv' : n' * (1 + k') + v' = 1) (hne : w ≠ v)
    (h0 : n * (1 + k) + w = n' * (1 + k') + w')
    (h1 : n * (2 * (k - 1)) - n * (2 * (k - 1)) * (n * (1 + k) + w) = n' * (2 * (k' - 1)) - n' * (2 * (k' - 1)) * (n' * (1 + k') + w'))
    (h2 : n * (1 + k) - w - n * (2 * (k - 1)) * (n * (2 * (k - 1)) - n * (2 * (k - 1)) * (n * (1 + k) + w)) -
        (n * (1 + k) - v) * (n * (1 + k) + w) =
      n' * (1 + k') - w' - n' * (2 * (k' - 1)) * (n' * (2 * (k' - 1)) - n' * (2 * (k' - 1)) * (n' * (1 + k') + w')) -
        (n' * (1 + k') - v') * (n' * (1 + k') + w')) : n = n' ∧ k = k' ∧ v = v' ∧ w = w' := by
  have hu : n * (1 + k) = 1 - v := by linarith
  have hu' : n' * (1 + k') = 1 - v' := by linarith
  rw [hu, hu'] at h0 h1 h2
  obtain ⟨A, hA⟩ : ∃ A, A = n * (2 * (k - 1)) := ⟨_, rfl⟩
  obtain ⟨A', hA'⟩ : ∃ A', A' = n' * (2 * (k' - 1)) := ⟨_, rfl⟩
  rw [← hA, ← hA'] at h1 h2
  have he : w' - v' = w - v := by linarith
  have hz : w - v ≠ 0 := sub_ne_zero.2 hne
  obtain rfl : A = A' := mul_right_cancel₀ hz (by linear_combination -h1 + A' * he)
  obtain rfl : w' = w - v + v' := by linarith
  have ev : v = v' := mul_right_cancel₀ hz (by linear_combination (1/2) * h2)
  subst ev
  have en : n = n' := by linarith
  subst en
  exact ⟨rfl, by have := mul_left_cancel₀ n0.ne' (hu.trans hu'.symm); linarith, rfl, by ring⟩

/-- C202: three samples of the answer to a click tell cutoff and q. -/
theorem C202_settings (hp : PowiExact powi) (hfc : 0 < fc) (hfc' : 0 < fc') (hq : 0 < q) (hq' : 0 < q') (hsr : 0 < sr) :
    (firstThree (lowpass powi fc q sr) = firstThree (lowpass powi fc' q' sr) → fc = fc' ∧ q = q') ∧
    (firstThree (highpass powi fc q sr) = firstThree (highpass powi fc' q' sr) → fc = fc' ∧ q = q') ∧
    (firstThree (allpass powi fc q sr) = firstThree (allpass powi fc' q' sr) → fc = fc' ∧ q = q') ∧
    (firstThree (notch powi fc q sr) = firstThree (notch powi fc' q' sr) → fc = fc' ∧ q = q') := by
  have k0 := warp_pos hp hfc hsr
  have k0' := warp_pos hp hfc' hsr
  have hk : 0 < warp powi fc sr ^ 2 := by positivity
  have hk' : 0 < warp powi fc' sr ^ 2 := by positivity
  have hm : 0 < warp powi fc sr / q := by positivity
  have hm' : 0 < warp powi fc' sr / q' := by positivity
  have fin : warp powi fc sr ^ 2 = warp powi fc' sr ^ 2 ∧ warp powi fc sr / q = warp powi fc' sr / q' → fc = fc' ∧ q = q' :=
    fun h => settings_of hp hfc hfc' hq hq' hsr h.1 h.2
  simp only [firstThree_eq, lowpass, highpass, allpass, notch, setup_eq, lowpassOf, highpassOf, allpassOf, notchOf, Lit.lit, List.cons.injEq,
    and_true, Rat.cast_one, Rat.cast_ofNat, Rat.cast_neg]
  generalize warp powi fc sr ^ 2 = k at *
  generalize warp powi fc' sr ^ 2 = k' at *
  generalize warp powi fc sr / q = m at *
  generalize warp powi fc' sr / q' = m' at *
  have key := den_inj hk hm hk' hm'
  have n0 : 0 < 1 / (1 + m + k) := by positivity
  have n0' : 0 < 1 / (1 + m' + k') := by positivity
  have nn : 1 / (1 + m + k) * (1 + m + k) = 1 := one_div_mul_cancel (by positivity)
  have nn' : 1 / (1 + m' + k') * (1 + m' + k') = 1 := one_div_mul_cancel (by positivity)
  generalize 1 / (1 + m + k) = n at *
  generalize 1 / (1 + m' + k') = n' at *
  refine ⟨?_, ?_, ?_, ?_⟩ <;> rintro ⟨h0, h1, h2⟩ <;> apply fin
  · have b0 : n' * k' ≠ 0 := by positivity
    obtain ⟨e1, e2⟩ := same_den (β := 2) (γ := 1) b0 (a1 := n * 2 * (k - 1)) (a1' := n' * 2 * (k' - 1)) (a2 := n * (1 - m + k))
      (a2' := n' * (1 - m' + k')) (by rw [← h0]; linear_combination h1 + (n' * 2 * (k' - 1) - 2) * h0)
      (by rw [← h0]; linear_combination h2 + (n' * 2 * (k' - 1) * (2 - n' * 2 * (k' - 1)) - 1 + n' * (1 - m' + k')) * h0)
    exact key (by linarith) e2
  · obtain ⟨e1, e2⟩ := same_den (β := -2) (γ := 1) n0'.ne' (a1 := n * (2 * (k - 1))) (a1' := n' * (2 * (k' - 1))) (a2 := n * (1 - m + k))
      (a2' := n' * (1 - m' + k')) (by rw [← h0] at h1 ⊢; linear_combination h1) (by rw [← h0] at h2 ⊢; linear_combination h2)
    exact key e1 e2
  · refine key ?_ h0
    have b1 : 1 - n' * (1 - m' + k') ≠ 0 := by
      have : 1 - n' * (1 - m' + k') = 2 * n' * m' := by linear_combination -nn'
      rw [this]; positivity
    refine mul_right_cancel₀ b1 ?_
    rw [h0] at h1
    linear_combination h1
  · have b1 : 1 - n' * (1 + k') ≠ 0 := by
      have : 1 - n' * (1 + k') = n' * m' := by linear_combination -nn'
      rw [this]; positivity
    have b0 : n' * (1 + k') ≠ 0 := by positivity
    rw [h0] at h1 h2
    have e1 : n * (2 * (k - 1)) = n' * (2 * (k' - 1)) := by
      refine mul_right_cancel₀ b1 ?_
      linear_combination h1
    refine key e1 (mul_right_cancel₀ b0 ?_)
    rw [e1] at h2
    linear_combination -h2

/-- C202: for a bell of a gain other than one they tell cutoff, q and gain. -/
theorem C202_bell (hp : PowiExact powi) (hfc : 0 < fc) (hfc' : 0 < fc') (hq : 0 < q) (hq' : 0 < q') (hsr : 0 < sr) :
    (0 < gain → 0 < gain' → gain ≠ 1 → firstThree (bellBoost powi fc q gain sr) = firstThree (bellBoost powi fc' q' gain' sr) →
      fc = fc' ∧ q = q' ∧ gain = gain') ∧
    (gain < 0 → gain' < 0 → gain ≠ -1 → firstThree (bellCut powi fc q gain sr) = firstThree (bellCut powi fc' q' gain' sr) →
      fc = fc' ∧ q = q' ∧ gain = gain') := by
  have k0 := warp_pos hp hfc hsr
  have k0' := warp_pos hp hfc' hsr
  have hk : 0 < warp powi fc sr ^ 2 := by positivity
  have hk' : 0 < warp powi fc' sr ^ 2 := by positivity
  have hm : 0 < warp powi fc sr / q := by positivity
  have hm' : 0 < warp powi fc' sr / q' := by positivity
  have fin : warp powi fc sr ^ 2 = warp powi fc' sr ^ 2 ∧ warp powi fc sr / q = warp powi fc' sr / q' → fc = fc' ∧ q = q' :=
    fun h => settings_of hp hfc hfc' hq hq' hsr h.1 h.2
  simp only [firstThree_eq, bellBoost, bellCut, setup_eq, bellBoostOf, bellCutOf, Lit.lit, List.cons.injEq,
    and_true, Rat.cast_one, Rat.cast_ofNat]
  generalize warp powi fc sr ^ 2 = k at *
  generalize warp powi fc' sr ^ 2 = k' at *
  generalize warp powi fc sr / q = m at *
  generalize warp powi fc' sr / q' = m' at *
  constructor
  · rintro g0 g0' g1 ⟨h0, h1, h2⟩
    have n0 : 0 < 1 / (1 + m + k) := by positivity
    have n0' : 0 < 1 / (1 + m' + k') := by positivity
    have nn : 1 / (1 + m + k) * (1 + m + k) = 1 := one_div_mul_cancel (by positivity)
    have nn' : 1 / (1 + m' + k') * (1 + m' + k') = 1 := one_div_mul_cancel (by positivity)
    generalize 1 / (1 + m + k) = n at *
    generalize 1 / (1 + m' + k') = n' at *
    obtain ⟨en, ek, ev, ew⟩ := bell_inj (n := n) (n' := n') (k := k) (k' := k') (v := n * m) (v' := n' * m') (w := n * (gain * m))
      (w' := n' * (gain' * m')) n0 (by linear_combination nn) (by linear_combination nn')
      (by intro h; exact g1 (mul_right_cancel₀ (mul_pos n0 hm).ne' (by linear_combination h)))
      (by linear_combination h0) (by linear_combination h1) (by linear_combination h2)
    subst en
    have em := mul_left_cancel₀ n0.ne' ev
    subst em
    obtain ⟨f1, f2⟩ := fin ⟨ek, rfl⟩
    exact ⟨f1, f2, mul_right_cancel₀ hm.ne' (mul_left_cancel₀ n0.ne' ew)⟩
  · intro g0 g0' g1
    obtain ⟨G, rfl⟩ : ∃ G, gain = -G := ⟨-gain, by ring⟩
    obtain ⟨G', rfl⟩ : ∃ G', gain' = -G' := ⟨-gain', by ring⟩
    rw [neg_neg, neg_neg]
    have p : 0 < G := by linarith
    have p' : 0 < G' := by linarith
    rintro ⟨h0, h1, h2⟩
    have n0 : 0 < 1 / (1 + G * m + k) := by positivity
    have n0' : 0 < 1 / (1 + G' * m' + k') := by positivity
    have nn : 1 / (1 + G * m + k) * (1 + G * m + k) = 1 := one_div_mul_cancel (by positivity)
    have nn' : 1 / (1 + G' * m' + k') * (1 + G' * m' + k') = 1 := one_div_mul_cancel (by positivity)
    generalize 1 / (1 + G * m + k) = n at *
    generalize 1 / (1 + G' * m' + k') = n' at *
    obtain ⟨en, ek, ev, ew⟩ := bell_inj (n := n) (n' := n') (k := k) (k' := k') (v := n * (G * m)) (v' := n' * (G' * m')) (w := n * m)
      (w' := n' * m') n0 (by linear_combination nn) (by linear_combination nn')
      (by intro h; exact g1 (by rw [neg_inj]; exact mul_right_cancel₀ (mul_pos n0 hm).ne' (by linear_combination -h)))
      (by linear_combination h0) (by linear_combination h1) (by linear_combination h2)
    subst en
    have em := mul_left_cancel₀ n0.ne' ew
    subst em
    obtain ⟨f1, f2⟩ := fin ⟨ek, rfl⟩
    exact ⟨f1, f2, by rw [mul_right_cancel₀ hm.ne' (mul_left_cancel₀ n0.ne' ev)]⟩

/-- C202: a bell of gain one, up or down, returns what it is fed with, whatever the cutoff and q. -/
theorem C202_flat (hp : PowiExact powi) (hfc : 0 < fc) (hq : 0 < q) (hsr : 0 < sr) (x : ℕ → ℝ) (n : ℕ) :
    (Biquad.new (bellBoost powi fc q 1 sr)).outAt x n = x n ∧ (Biquad.new (bellCut powi fc q (-1) sr)).outAt x n = x n := by
  have k0 := warp_pos hp hfc hsr
  have h1 : 1 / (1 + warp powi fc sr / q + warp powi fc sr ^ 2) * (1 + warp powi fc sr / q + warp powi fc sr ^ 2) = 1 :=
    one_div_mul_cancel (by positivity)
  have flat : ∀ co : BiquadCoeffs ℝ, co.b0 = 1 → co.b1 = co.a1 → co.b2 = co.a2 → (Biquad.new co).outAt x n = x n := by
    intro co c0 c1 c2
    have st : ∀ n, (Biquad.new co).stateAt x n = Biquad.new co := by
      intro n
      induction n with
      | zero => rfl
      | succ n ih =>
        rw [Biquad.stateAt, ih]
        simp [Biquad.process, Biquad.new, c0, c1, c2, Lit.lit]
    rw [Biquad.outAt, st]
    simp [Biquad.process, Biquad.new, c0, Lit.lit]
  refine ⟨flat _ ?_ rfl ?_, flat _ ?_ rfl ?_⟩ <;>
    simp only [bellBoost, bellCut, setup_eq, bellBoostOf, bellCutOf, Lit.lit, Rat.cast_one, one_mul, neg_neg, h1]

/-- Low-passes of q 1 and 2 at the same cutoff differ within three samples; bells of gain one do not. -/
example : firstThree (lowpass (fun x n => x ^ n) 1000 1 48000) ≠ firstThree (lowpass (fun x n => x ^ n) 1000 2 48000) := fun h => by
  have := ((C202_settings (powi := fun x n => x ^ n) (fun _ _ => rfl) (by norm_num) (by norm_num) (by norm_num) (by norm_num) (by norm_num)).1 h).2
  norm_num at this

example : firstThree (bellBoost (fun x n => x ^ n) 1000 1 1 48000) = firstThree (bellBoost (fun x n => x ^ n) 2000 5 1 48000) := by
  simp only [firstThree]
  refine List.map_congr_left fun n _ => ?_
  rw [(C202_flat (powi := fun x n => x ^ n) (fun _ _ => rfl) (by norm_num) (by norm_num) (by norm_num) impulse n).1,
    (C202_flat (powi := fun x n => x ^ n) (fun _ _ => rfl) (by norm_num) (by norm_num) (by norm_num) impulse n).1]

end
end Verif
