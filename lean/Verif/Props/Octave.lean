import Verif.Props.Sweep
import Verif.Props.Butterworth

/-! # C179: cutoff and quality may be moved at will within an octave

In the coordinates `s = (z1 + z2)/2`, `t = (z2 - z1)/2` the state of a filter with the denominator of the designs is the Cayley transform of
`[[0, K²], [-1, -K/q]]`. One quadratic form shrinks under all of these with `K` in an interval `[k, 5k/2]` and `q` between 1/8 and 1. -/

namespace Verif

open F32 Butterworth

/-- The quadratic form, in the coordinates `s` and `τ = k t`. -/
noncomputable def formV (s τ : ℝ) : ℝ := 4033 / 10000 * s ^ 2 + 2 * (28 / 100) * s * τ + τ ^ 2

/-- What it loses. -/
noncomputable def formQ (κ r s τ : ℝ) : ℝ := 28 / 100 * s ^ 2 - (4033 / 10000 * κ ^ 2 - 28 / 100 * r - 1) * (s * τ) + (r - 28 / 100 * κ ^ 2) * τ ^ 2

/-- The range of the settings: `κ = K/k` and `r = K/(q k)`. -/
def InOctave (κ r : ℝ) : Prop := 1 ≤ κ ∧ κ ≤ 5 / 2 ∧ 99 / 100 * κ ≤ r ∧ r ≤ 81 / 10 * κ

theorem formV_split (s τ : ℝ) : formV s τ = (57 / 100 * s) ^ 2 + (τ + 28 / 100 * s) ^ 2 := by unfold formV; ring

theorem formV_nonneg (s τ : ℝ) : 0 ≤ formV s τ := by rw [formV_split]; positivity

/-- The discriminant at the two ends of the range of `r`. -/
theorem octave_low {κ : ℝ} (h1 : 1 ≤ κ) (h2 : κ ≤ 5 / 2) :
    (4033 / 10000 * κ ^ 2 - 28 / 100 * (99 / 100 * κ) - 1 + 112 / 10000) ^ 2 ≤
      4 * (28 / 100 - 4033 / 500000) * (99 / 100 * κ - 28 / 100 * κ ^ 2 - 1 / 50) := by
  nlinarith [mul_nonneg (sub_nonneg.2 h1) (sub_nonneg.2 h2), mul_nonneg (mul_nonneg (sub_nonneg.2 h1) (sub_nonneg.2 h2)) (sq_nonneg κ),
    mul_nonneg (mul_nonneg (sub_nonneg.2 h1) (sub_nonneg.2 h2)) (sq_nonneg (κ - 3 / 2)), sq_nonneg κ]

theorem octave_high {κ : ℝ} (h1 : 1 ≤ κ) (h2 : κ ≤ 5 / 2) :
    (4033 / 10000 * κ ^ 2 - 28 / 100 * (81 / 10 * κ) - 1 + 112 / 10000) ^ 2 ≤
      4 * (28 / 100 - 4033 / 500000) * (81 / 10 * κ - 28 / 100 * κ ^ 2 - 1 / 50) := by
  nlinarith [mul_nonneg (sub_nonneg.2 h1) (sub_nonneg.2 h2), mul_nonneg (mul_nonneg (sub_nonneg.2 h1) (sub_nonneg.2 h2)) (sq_nonneg κ),
    mul_nonneg (mul_nonneg (sub_nonneg.2 h1) (sub_nonneg.2 h2)) (sq_nonneg (κ - 3 / 2)), sq_nonneg κ]

theorem octave_disc {κ r : ℝ} (h : InOctave κ r) :
    (4033 / 10000 * κ ^ 2 - 28 / 100 * r - 1 + 112 / 10000) ^ 2 ≤ 4 * (28 / 100 - 4033 / 500000) * (r - 28 / 100 * κ ^ 2 - 1 / 50) := by
  obtain ⟨h1, h2, h3, h4⟩ := h
  have l := octave_low h1 h2
  have u := octave_high h1 h2
  generalize hd : 4033 / 10000 * κ ^ 2 - 1 + 112 / 10000 = d
  rw [show 4033 / 10000 * κ ^ 2 - 28 / 100 * (99 / 100 * κ) - 1 + 112 / 10000 = d - 28 / 100 * (99 / 100 * κ) by rw [← hd]; ring] at l
  rw [show 4033 / 10000 * κ ^ 2 - 28 / 100 * (81 / 10 * κ) - 1 + 112 / 10000 = d - 28 / 100 * (81 / 10 * κ) by rw [← hd]; ring] at u
  rw [show 4033 / 10000 * κ ^ 2 - 28 / 100 * r - 1 + 112 / 10000 = d - 28 / 100 * r by rw [← hd]; ring]
  have ul : 0 < 81 / 10 * κ - 99 / 100 * κ := by linarith
  generalize 99 / 100 * κ = a at *
  generalize 81 / 10 * κ = b at *
  refine le_of_mul_le_mul_right (a0 := ul) ?_
  have m1 := mul_le_mul_of_nonneg_right l (sub_nonneg.2 h4)
  have m2 := mul_le_mul_of_nonneg_right u (sub_nonneg.2 h3)
  have m3 := mul_nonneg (mul_nonneg ul.le (sub_nonneg.2 h3)) (sub_nonneg.2 h4)
  nlinarith

theorem formQ_ge {κ r : ℝ} (h : InOctave κ r) (s τ : ℝ) : formV s τ ≤ 50 * formQ κ r s τ := by
  have d := octave_disc h
  unfold formV formQ
  generalize hA : r - 28 / 100 * κ ^ 2 - 1 / 50 = A at d
  generalize hm : 4033 / 10000 * κ ^ 2 - 28 / 100 * r - 1 + 112 / 10000 = m at d
  have e : 50 * (28 / 100 * s ^ 2 - (4033 / 10000 * κ ^ 2 - 28 / 100 * r - 1) * (s * τ) + (r - 28 / 100 * κ ^ 2) * τ ^ 2) -
      (4033 / 10000 * s ^ 2 + 2 * (28 / 100) * s * τ + τ ^ 2) =
      50 * ((28 / 100 - 4033 / 500000) * s ^ 2 - m * (s * τ) + A * τ ^ 2) := by rw [← hA, ← hm]; ring
  have t : 0 ≤ 4 * (28 / 100 - 4033 / 500000) * ((28 / 100 - 4033 / 500000) * s ^ 2 - m * (s * τ) + A * τ ^ 2) := by
    nlinarith [mul_nonneg (sub_nonneg.2 d) (sq_nonneg τ), sq_nonneg (2 * (28 / 100 - 4033 / 500000) * s - m * τ)]
  have : 0 ≤ (28 / 100 - 4033 / 500000) * s ^ 2 - m * (s * τ) + A * τ ^ 2 := by
    by_contra hc
    rw [not_le] at hc
    linarith
  linarith

theorem formV_turn {κ r : ℝ} (h : InOctave κ r) (s τ : ℝ) : formV (κ ^ 2 * τ) (-s - r * τ) ≤ 1300 * formV s τ := by
  obtain ⟨h1, h2, h3, h4⟩ := h
  have k2 : κ ^ 2 ≤ 25 / 4 := by nlinarith
  have r1 : r ≤ 81 / 4 := by linarith
  have r0 : 0 ≤ r := by linarith
  have a : (κ ^ 2 * τ) ^ 2 ≤ 40 * τ ^ 2 := by
    rw [mul_pow]; exact mul_le_mul_of_nonneg_right (by nlinarith [sq_nonneg κ]) (sq_nonneg _)
  have b : (-s - r * τ) ^ 2 ≤ 11 * s ^ 2 + 11 / 10 * (411 * τ ^ 2) := by
    have : r ^ 2 * τ ^ 2 ≤ 411 * τ ^ 2 := mul_le_mul_of_nonneg_right (by nlinarith) (sq_nonneg _)
    nlinarith [sq_nonneg (10 * s - r * τ)]
  have c : formV (κ ^ 2 * τ) (-s - r * τ) ≤ 6 / 5 * ((κ ^ 2 * τ) ^ 2 + (-s - r * τ) ^ 2) := by
    unfold formV
    nlinarith [sq_nonneg ((κ ^ 2 * τ) - (-s - r * τ)), sq_nonneg (κ ^ 2 * τ + (-s - r * τ)), sq_nonneg (3 * (κ ^ 2 * τ) - (-s - r * τ)),
      sq_nonneg (2 * (κ ^ 2 * τ) - (-s - r * τ))]
  have d : 6 / 5 * (40 * τ ^ 2 + (11 * s ^ 2 + 11 / 10 * (411 * τ ^ 2))) ≤ 1300 * formV s τ := by
    unfold formV
    nlinarith [sq_nonneg (s + τ), sq_nonneg (2 * s + 3 * τ), sq_nonneg (3 * s + 4 * τ), sq_nonneg (s + 2 * τ)]
  linarith

/-- What the form loses in one sample. -/
noncomputable def octaveLoss (k : ℝ) : ℝ := k / (13 * (1 + 1300 * k ^ 2))

theorem octaveLoss_pos {k : ℝ} (hk : 0 < k) : 0 < octaveLoss k := by unfold octaveLoss; positivity

theorem octaveLoss_lt {k : ℝ} (hk : 0 < k) : octaveLoss k < 1 := by
  unfold octaveLoss
  rw [div_lt_one (by positivity)]
  nlinarith

theorem form_shrinks {k κ r : ℝ} (hk : 0 < k) (h : InOctave κ r) (s τ : ℝ) :
    formV (s + k * (κ ^ 2 * τ)) (τ + k * (-s - r * τ)) ≤ (1 - octaveLoss k) * formV (s - k * (κ ^ 2 * τ)) (τ - k * (-s - r * τ)) := by
  have q := formQ_ge h s τ
  have t := formV_turn h s τ
  have e : formV (s + k * (κ ^ 2 * τ)) (τ + k * (-s - r * τ)) = formV (s - k * (κ ^ 2 * τ)) (τ - k * (-s - r * τ)) - 4 * k * formQ κ r s τ := by
    unfold formV formQ; ring
  have e' : formV (s - k * (κ ^ 2 * τ)) (τ - k * (-s - r * τ)) =
      formV s τ + 2 * k * formQ κ r s τ + k ^ 2 * formV (κ ^ 2 * τ) (-s - r * τ) := by
    unfold formV formQ; ring
  have v0 := formV_nonneg s τ
  have q0 : 0 ≤ formQ κ r s τ := by linarith
  have b : formV (s - k * (κ ^ 2 * τ)) (τ - k * (-s - r * τ)) ≤ 52 * (1 + 1300 * k ^ 2) * formQ κ r s τ := by
    rw [e']
    have : k ^ 2 * formV (κ ^ 2 * τ) (-s - r * τ) ≤ k ^ 2 * (1300 * (50 * formQ κ r s τ)) :=
      mul_le_mul_of_nonneg_left (t.trans (by linarith)) (sq_nonneg k)
    nlinarith [mul_nonneg (sq_nonneg (k - 1)) q0, mul_nonneg (sq_nonneg k) q0]
  rw [e]
  have hd : octaveLoss k * (52 * (1 + 1300 * k ^ 2)) = 4 * k := by unfold octaveLoss; field_simp; norm_num
  have := mul_le_mul_of_nonneg_left b (octaveLoss_pos hk).le
  rw [← mul_assoc (octaveLoss k) (52 * _), hd] at this
  linarith

/-- Feedback coefficients of the designs with the warped cutoff `K = κ k` and `K/q = r k` in range. -/
def Tuned (k a1 a2 : ℝ) : Prop := ∃ κ r, InOctave κ r ∧ a1 * (1 + k * r + (k * κ) ^ 2) = 2 * ((k * κ) ^ 2 - 1) ∧
  a2 * (1 + k * r + (k * κ) ^ 2) = 1 - k * r + (k * κ) ^ 2

/-- The state as a complex number whose norm is the square root of the form. -/
noncomputable def octModal (k z1 z2 : ℝ) : ℂ := ⟨57 / 100 * ((z1 + z2) / 2), k * ((z2 - z1) / 2) + 28 / 100 * ((z1 + z2) / 2)⟩

theorem octModal_add (k a b c d : ℝ) : octModal k (a + c) (b + d) = octModal k a b + octModal k c d := by
  unfold octModal
  apply Complex.ext
  · simp only [Complex.add_re]; ring
  · simp only [Complex.add_im]; ring

theorem octModal_sq (k z1 z2 : ℝ) : ‖octModal k z1 z2‖ ^ 2 = formV ((z1 + z2) / 2) (k * ((z2 - z1) / 2)) := by
  rw [Complex.sq_norm, Complex.normSq_apply, formV_split]; unfold octModal; ring

theorem octModal_le {k : ℝ} (hk : 0 < k) (d1 d2 : ℝ) : ‖octModal k d1 d2‖ ≤ (32 / 100 + k / 2) * (|d1| + |d2|) := by
  have d := add_nonneg (abs_nonneg d1) (abs_nonneg d2)
  refine abs_le_of_sq_le_sq' (a := ‖octModal k d1 d2‖) ?_ (by positivity) |>.2
  rw [octModal_sq]
  have s : |(d1 + d2) / 2| ≤ (|d1| + |d2|) / 2 := by rw [abs_div, abs_two]; linarith [abs_add_le d1 d2]
  have t : |k * ((d2 - d1) / 2)| ≤ k / 2 * (|d1| + |d2|) := by
    rw [abs_mul, abs_of_pos hk, abs_div, abs_two]; have := abs_sub d2 d1; nlinarith
  generalize (d1 + d2) / 2 = S at *
  generalize k * ((d2 - d1) / 2) = T at *
  generalize |d1| + |d2| = n at *
  have e1 : S ^ 2 ≤ (n / 2) ^ 2 := by rw [← sq_abs S]; exact pow_le_pow_left₀ (abs_nonneg _) s 2
  have e2 : T ^ 2 ≤ (k / 2 * n) ^ 2 := by rw [← sq_abs T]; exact pow_le_pow_left₀ (abs_nonneg _) t 2
  have e3 : S * T ≤ n / 2 * (k / 2 * n) := (le_abs_self _).trans (by rw [abs_mul]; exact mul_le_mul s t (abs_nonneg _) (by positivity))
  unfold formV
  nlinarith [sq_nonneg n, mul_nonneg hk.le (sq_nonneg n)]

theorem octModal_ge {k : ℝ} (hk : 0 < k) (k1 : k ≤ 1) (z1 z2 : ℝ) :
    |z1| ≤ 3 / k * ‖octModal k z1 z2‖ ∧ |z2| ≤ 3 / k * ‖octModal k z1 z2‖ := by
  have h := octModal_sq k z1 z2
  have n0 := norm_nonneg (octModal k z1 z2)
  generalize ‖octModal k z1 z2‖ = n at *
  have hs : |(z1 + z2) / 2| ≤ 176 / 100 * n := by
    refine abs_le_of_sq_le_sq ?_ (by positivity)
    rw [formV_split] at h
    nlinarith [sq_nonneg (k * ((z2 - z1) / 2) + 28 / 100 * ((z1 + z2) / 2))]
  have ht : |k * ((z2 - z1) / 2)| ≤ 112 / 100 * n := by
    refine abs_le_of_sq_le_sq ?_ (by positivity)
    unfold formV at h
    generalize k * ((z2 - z1) / 2) = T at *
    generalize (z1 + z2) / 2 = S at *
    nlinarith [sq_nonneg (4033 / 10000 * S + 28 / 100 * T)]
  rw [abs_mul, abs_of_pos hk] at ht
  have ht' : |(z2 - z1) / 2| ≤ 112 / 100 * n / k := by rw [le_div_iff₀ hk]; linarith
  have e : 3 / k * n = 188 / 100 * (n / k) + 112 / 100 * n / k := by ring
  have : n ≤ n / k := le_div_self n0 hk k1
  obtain ⟨s1, s2⟩ := abs_le.1 hs
  obtain ⟨t1, t2⟩ := abs_le.1 ht'
  rw [e, abs_le, abs_le]
  refine ⟨⟨?_, ?_⟩, ?_, ?_⟩ <;> linarith

/-- One sample without input. -/
theorem tuned_shrinks {k a1 a2 : ℝ} (hk : 0 < k) (h : Tuned k a1 a2) (z1 z2 : ℝ) :
    ‖octModal k (z2 - a1 * z1) (-(a2 * z1))‖ ≤ (1 - octaveLoss k / 2) * ‖octModal k z1 z2‖ := by
  obtain ⟨κ, r, ho, h1, h2⟩ := h
  have r0 : 0 < r := by obtain ⟨g1, -, g3, -⟩ := ho; linarith
  have D0 : 0 < 1 + k * r + (k * κ) ^ 2 := by positivity
  have l1 := octaveLoss_lt hk
  have l0 := octaveLoss_pos hk
  refine abs_le_of_sq_le_sq' (a := ‖octModal k (z2 - a1 * z1) (-(a2 * z1))‖) ?_ (mul_nonneg (by linarith) (norm_nonneg _)) |>.2
  rw [mul_pow, octModal_sq, octModal_sq]
  obtain ⟨s, hs⟩ : ∃ s, s = ((1 + k * r) * ((z1 + z2) / 2) + k * κ ^ 2 * (k * ((z2 - z1) / 2))) / (1 + k * r + (k * κ) ^ 2) := ⟨_, rfl⟩
  obtain ⟨τ, hτ⟩ : ∃ τ, τ = (k * ((z2 - z1) / 2) - k * ((z1 + z2) / 2)) / (1 + k * r + (k * κ) ^ 2) := ⟨_, rfl⟩
  have A1 : a1 = 2 * ((k * κ) ^ 2 - 1) / (1 + k * r + (k * κ) ^ 2) := by rw [eq_div_iff D0.ne', h1]
  have A2 : a2 = (1 - k * r + (k * κ) ^ 2) / (1 + k * r + (k * κ) ^ 2) := by rw [eq_div_iff D0.ne', h2]
  have e1 : (z1 + z2) / 2 = s - k * (κ ^ 2 * τ) := by rw [hs, hτ]; field_simp; ring
  have e2 : k * ((z2 - z1) / 2) = τ - k * (-s - r * τ) := by rw [hs, hτ]; field_simp; ring
  have e3 : (z2 - a1 * z1 + -(a2 * z1)) / 2 = s + k * (κ ^ 2 * τ) := by rw [hs, hτ, A1, A2]; field_simp; ring
  have e4 : k * ((-(a2 * z1) - (z2 - a1 * z1)) / 2) = τ + k * (-s - r * τ) := by rw [hs, hτ, A1, A2]; field_simp; ring
  rw [e3, e4]
  rw [e1, e2]
  refine (form_shrinks hk ho s τ).trans (mul_le_mul_of_nonneg_right ?_ (formV_nonneg _ _))
  nlinarith [sq_nonneg (octaveLoss k)]

theorem Tuned.bounds {k a1 a2 : ℝ} (hk : 0 < k) (h : Tuned k a1 a2) : |a1| ≤ 2 ∧ |a2| ≤ 1 := by
  obtain ⟨κ, r, ho, h1, h2⟩ := h
  have r0 : 0 < r := by obtain ⟨g1, -, g3, -⟩ := ho; linarith
  have kr : 0 < k * r := mul_pos hk r0
  have kk : 0 ≤ (k * κ) ^ 2 := sq_nonneg _
  have D0 : 0 < 1 + k * r + (k * κ) ^ 2 := by linarith
  generalize k * r = u at *
  generalize (k * κ) ^ 2 = v at *
  have A1 : a1 = 2 * (v - 1) / (1 + u + v) := by rw [eq_div_iff D0.ne', h1]
  have A2 : a2 = (1 - u + v) / (1 + u + v) := by rw [eq_div_iff D0.ne', h2]
  constructor
  · rw [A1, abs_div, abs_of_pos D0, div_le_iff₀ D0, abs_le]; constructor <;> linarith
  · rw [A2, abs_div, abs_of_pos D0, div_le_iff₀ D0, abs_le]; constructor <;> linarith

/-! ## Exact arithmetic -/

section Exact
variable {k β m : ℝ} {co : ℕ → BiquadCoeffs ℝ} {x : ℕ → ℝ}

/-- The state after `n` samples. -/
theorem octave_state (hk : 0 < k) (k1 : k ≤ 1) (hT : ∀ n, Tuned k (co n).a1 (co n).a2) (β0 : 0 ≤ β)
    (hb : ∀ n, |(co n).b0| ≤ β ∧ |(co n).b1| ≤ β ∧ |(co n).b2| ≤ β) (m0 : 0 ≤ m) (hx : ∀ n, |x n| ≤ m) (n : ℕ) :
    ‖octModal k ((Biquad.new (co 0)).stateAtVar (fun n => (co n, x n)) n).z1 ((Biquad.new (co 0)).stateAtVar (fun n => (co n, x n)) n).z2‖ ≤
      41 / 5 * (β * m) / octaveLoss k := by
  have l0 := octaveLoss_pos hk
  have l1 := octaveLoss_lt hk
  have bm : 0 ≤ β * m := mul_nonneg β0 m0
  induction n with
  | zero =>
    have : octModal k (Biquad.new (co 0)).z1 (Biquad.new (co 0)).z2 = 0 := by
      unfold octModal Biquad.new; apply Complex.ext <;> simp [Lit.lit]
    rw [Biquad.stateAtVar, this, norm_zero]; positivity
  | succ n ih =>
    rw [Biquad.stateAtVar]
    generalize (Biquad.new (co 0)).stateAtVar (fun n => (co n, x n)) n = f at *
    simp only [Biquad.process]
    have sh := tuned_shrinks hk (hT n) f.z1 f.z2
    obtain ⟨a1, a2⟩ := (hT n).bounds hk
    obtain ⟨b0, b1, b2⟩ := hb n
    have px : ∀ b : ℝ, |b| ≤ β → |b * x n| ≤ β * m := fun b h => by rw [abs_mul]; exact mul_le_mul h (hx n) (abs_nonneg _) β0
    have p0 := px _ b0
    have q1 : |(co n).b1 * x n - (co n).a1 * ((co n).b0 * x n)| ≤ 3 * (β * m) := by
      refine (abs_sub _ _).trans ?_
      rw [abs_mul (co n).a1]
      have := mul_le_mul a1 p0 (abs_nonneg _) (by norm_num)
      linarith [px _ b1]
    have q2 : |(co n).b2 * x n - (co n).a2 * ((co n).b0 * x n)| ≤ 2 * (β * m) := by
      refine (abs_sub _ _).trans ?_
      rw [abs_mul (co n).a2]
      have := mul_le_mul a2 p0 (abs_nonneg _) (by norm_num)
      linarith [px _ b2]
    have e := octModal_add k (f.z2 - (co n).a1 * f.z1) (-((co n).a2 * f.z1)) ((co n).b1 * x n - (co n).a1 * ((co n).b0 * x n))
      ((co n).b2 * x n - (co n).a2 * ((co n).b0 * x n))
    rw [show (co n).b1 * x n + f.z2 - (co n).a1 * ((co n).b0 * x n + f.z1) =
        f.z2 - (co n).a1 * f.z1 + ((co n).b1 * x n - (co n).a1 * ((co n).b0 * x n)) by ring,
      show (co n).b2 * x n - (co n).a2 * ((co n).b0 * x n + f.z1) =
        -((co n).a2 * f.z1) + ((co n).b2 * x n - (co n).a2 * ((co n).b0 * x n)) by ring, e]
    refine (norm_add_le _ _).trans ?_
    have g := octModal_le hk ((co n).b1 * x n - (co n).a1 * ((co n).b0 * x n)) ((co n).b2 * x n - (co n).a2 * ((co n).b0 * x n))
    have g' : (32 / 100 + k / 2) * (|(co n).b1 * x n - (co n).a1 * ((co n).b0 * x n)| + |(co n).b2 * x n - (co n).a2 * ((co n).b0 * x n)|) ≤
        82 / 100 * (5 * (β * m)) := mul_le_mul (by linarith) (by linarith) (by positivity) (by norm_num)
    have h' := mul_le_mul_of_nonneg_left ih (show 0 ≤ 1 - octaveLoss k / 2 by linarith)
    have fin : (1 - octaveLoss k / 2) * (41 / 5 * (β * m) / octaveLoss k) + 82 / 100 * (5 * (β * m)) = 41 / 5 * (β * m) / octaveLoss k := by
      field_simp; ring
    linarith

/-- C179, exact arithmetic: settings replaced before every sample at will. -/
theorem C179_exact (hk : 0 < k) (k1 : k ≤ 1) (hT : ∀ n, Tuned k (co n).a1 (co n).a2) (β0 : 0 ≤ β)
    (hb : ∀ n, |(co n).b0| ≤ β ∧ |(co n).b1| ≤ β ∧ |(co n).b2| ≤ β) (m0 : 0 ≤ m) (hx : ∀ n, |x n| ≤ m) (n : ℕ) :
    |(Biquad.new (co 0)).outAtVar (fun n => (co n, x n)) n| ≤ 340 * (1300 + 1 / k ^ 2) * (β * m) := by
  have h := octave_state hk k1 hT β0 hb m0 hx n
  obtain ⟨z1, -⟩ := octModal_ge hk k1 ((Biquad.new (co 0)).stateAtVar (fun n => (co n, x n)) n).z1
    ((Biquad.new (co 0)).stateAtVar (fun n => (co n, x n)) n).z2
  rw [Biquad.outAtVar]
  generalize (Biquad.new (co 0)).stateAtVar (fun n => (co n, x n)) n = f at *
  simp only [Biquad.process]
  have bm : 0 ≤ β * m := mul_nonneg β0 m0
  have p0 : |(co n).b0 * x n| ≤ β * m := by rw [abs_mul]; exact mul_le_mul (hb n).1 (hx n) (abs_nonneg _) β0
  refine (abs_add_le _ _).trans ?_
  have h' := mul_le_mul_of_nonneg_left h (show 0 ≤ 3 / k by positivity)
  have e : 3 / k * (41 / 5 * (β * m) / octaveLoss k) = 1599 / 5 * (1300 + 1 / k ^ 2) * (β * m) := by
    unfold octaveLoss; field_simp; ring
  have : 0 ≤ 1 / k ^ 2 * (β * m) := by positivity
  rw [e] at h'
  linarith

/-- C179: what the filter held at the start is forgotten, whatever is done to the settings. -/
theorem C179_forgets (hk : 0 < k) (k1 : k ≤ 1) (hT : ∀ n, Tuned k (co n).a1 (co n).a2) (z1 z2 y1 y2 : ℝ) (n : ℕ) :
    |Biquad.outAtVar ⟨z1, z2, co 0⟩ (fun n => (co n, x n)) n - Biquad.outAtVar ⟨y1, y2, co 0⟩ (fun n => (co n, x n)) n| ≤
      3 / k * ((1 - octaveLoss k / 2) ^ n * (|z1 - y1| + |z2 - y2|)) := by
  have l0 := octaveLoss_pos hk
  have l1 := octaveLoss_lt hk
  have st : ∀ n, ‖octModal k ((Biquad.stateAtVar ⟨z1, z2, co 0⟩ (fun n => (co n, x n)) n).z1 -
        (Biquad.stateAtVar ⟨y1, y2, co 0⟩ (fun n => (co n, x n)) n).z1)
      ((Biquad.stateAtVar ⟨z1, z2, co 0⟩ (fun n => (co n, x n)) n).z2 - (Biquad.stateAtVar ⟨y1, y2, co 0⟩ (fun n => (co n, x n)) n).z2)‖ ≤
      (1 - octaveLoss k / 2) ^ n * (|z1 - y1| + |z2 - y2|) := by
    intro n
    induction n with
    | zero =>
      rw [pow_zero, one_mul]
      refine (octModal_le hk _ _).trans ?_
      exact mul_le_of_le_one_left (by positivity) (by linarith)
    | succ n ih =>
      rw [Biquad.stateAtVar, Biquad.stateAtVar]
      generalize Biquad.stateAtVar ⟨z1, z2, co 0⟩ (fun n => (co n, x n)) n = f at *
      generalize Biquad.stateAtVar ⟨y1, y2, co 0⟩ (fun n => (co n, x n)) n = g at *
      simp only [Biquad.process]
      have sh := tuned_shrinks hk (hT n) (f.z1 - g.z1) (f.z2 - g.z2)
      rw [show (co n).b1 * x n + f.z2 - (co n).a1 * ((co n).b0 * x n + f.z1) - ((co n).b1 * x n + g.z2 - (co n).a1 * ((co n).b0 * x n + g.z1)) =
          f.z2 - g.z2 - (co n).a1 * (f.z1 - g.z1) by ring,
        show (co n).b2 * x n - (co n).a2 * ((co n).b0 * x n + f.z1) - ((co n).b2 * x n - (co n).a2 * ((co n).b0 * x n + g.z1)) =
          -((co n).a2 * (f.z1 - g.z1)) by ring]
      refine sh.trans ?_
      rw [pow_succ', mul_assoc]
      exact mul_le_mul_of_nonneg_left ih (by linarith)
  have h := st n
  rw [Biquad.outAtVar, Biquad.outAtVar]
  generalize Biquad.stateAtVar ⟨z1, z2, co 0⟩ (fun n => (co n, x n)) n = f at *
  generalize Biquad.stateAtVar ⟨y1, y2, co 0⟩ (fun n => (co n, x n)) n = g at *
  simp only [Biquad.process]
  rw [show (co n).b0 * x n + f.z1 - ((co n).b0 * x n + g.z1) = f.z1 - g.z1 by ring]
  exact (octModal_ge hk k1 _ _).1.trans (mul_le_mul_of_nonneg_left h (by positivity))

end Exact

/-! ## The designs -/

/-- Doubling the argument multiplies `fast_tan` by 5/2 at most, up to an eighth of a turn. -/
theorem tanPoly_double {x y : ℝ} (h0 : 0 ≤ x) (h1 : x ≤ 393 / 1000) (h : x ≤ y) (h' : y ≤ 2 * x) :
    tanPoly x ≤ tanPoly y ∧ tanPoly y ≤ 242 / 100 * tanPoly x := by
  have y0 : 0 ≤ y := h0.trans h
  constructor
  · unfold tanPoly; gcongr
  · have m : tanPoly y ≤ tanPoly (2 * x) := by unfold tanPoly; gcongr
    refine m.trans ?_
    unfold tanPoly
    have x2 : x ^ 2 ≤ (393 / 1000) ^ 2 := pow_le_pow_left₀ h0 h1 2
    have p : ∀ n, x ^ (2 * n + 1) ≤ ((393 / 1000) ^ 2) ^ n * x := fun n => by
      rw [pow_succ, pow_mul]; exact mul_le_mul_of_nonneg_right (pow_le_pow_left₀ (sq_nonneg x) x2 n) h0
    have p3 := p 1
    have p5 := p 2
    have p7 := p 3
    have p9 := p 4
    have p11 := p 5
    have p13 := p 6
    have p15 := p 7
    simp only [mul_pow]
    norm_num at p3 p5 p7 p9 p11 p13 p15 ⊢
    linarith

theorem warp_octave {powi : ℝ → ℕ → ℝ} (hp : PowiExact powi) {f fc sr : ℝ} (hf : 0 < f) (hsr : 0 < sr) (h : f ≤ fc) (h' : fc ≤ 2 * f)
    (ht : 2 * f ≤ sr / 4) : warp powi f sr ≤ warp powi fc sr ∧ warp powi fc sr ≤ 5 / 2 * warp powi f sr ∧ warp powi f sr ≤ 1 := by
  obtain ⟨c, hc⟩ : ∃ c : ℝ, c = lit FMath.piQ := ⟨_, rfl⟩
  have c0 : 0 < c := by
    rw [hc]; show (0:ℝ) < ((FMath.piQ : ℚ) : ℝ); exact_mod_cast (by norm_num [FMath.piQ] : (0:ℚ) < FMath.piQ)
  have c1 : c ≤ 31416 / 10000 := by
    rw [hc]; show ((FMath.piQ : ℚ) : ℝ) ≤ 31416 / 10000
    have := (Rat.cast_le (K := ℝ)).2 (by norm_num [FMath.piQ] : FMath.piQ ≤ 31416 / 10000)
    push_cast at this; exact this
  have x1 : c * f / sr ≤ 393 / 1000 := by rw [div_le_iff₀ hsr]; nlinarith
  have x0 : 0 ≤ c * f / sr := by positivity
  unfold warp
  rw [fastTan_eq hp, fastTan_eq hp, ← hc]
  have d := tanPoly_double x0 x1 (y := c * fc / sr) (by gcongr) (by
    rw [← mul_div_assoc, div_le_div_iff_of_pos_right hsr]; nlinarith)
  have p0 : 0 ≤ tanPoly (c * f / sr) := by
    generalize c * f / sr = x at *
    unfold tanPoly; positivity
  refine ⟨d.1, d.2.trans (mul_le_mul_of_nonneg_right (by norm_num) p0), ?_⟩
  have : tanPoly (c * f / sr) ≤ tanPoly (393 / 1000) := by
    generalize c * f / sr = x at *
    unfold tanPoly; gcongr
  refine this.trans ?_
  unfold tanPoly; norm_num

/-- The settings: cutoff anywhere from `f` to `2 f`, quality anywhere from 1/8 to 1, any of the designs (the bell with a gain up to `Γ`). -/
def MovedWithin (powi : ℝ → ℕ → ℝ) (f sr Γ : ℝ) (co : BiquadCoeffs ℝ) : Prop := ∃ fc q gain, f ≤ fc ∧ fc ≤ 2 * f ∧ 1 / 8 ≤ q ∧ q ≤ 1 ∧
  0 ≤ gain ∧ gain ≤ Γ ∧
  co ∈ [lowpass powi fc q sr, highpass powi fc q sr, allpass powi fc q sr, notch powi fc q sr, bellBoost powi fc q gain sr]

theorem tuned_of {k K q : ℝ} (hk : 0 < k) (h : k ≤ K) (h' : K ≤ 5 / 2 * k) (q0 : 1 / 8 ≤ q) (q1 : q ≤ 1) :
    InOctave (K / k) (K / q / k) ∧ k * (K / k) = K ∧ k * (K / q / k) = K / q := by
  have qp : 0 < q := by linarith
  have Kp : 0 < K := by linarith
  refine ⟨⟨by rwa [one_le_div hk], by rwa [div_le_iff₀ hk], ?_, ?_⟩, by field_simp, by field_simp⟩
  · rw [← mul_div_assoc]
    refine div_le_div_of_nonneg_right ?_ hk.le
    rw [le_div_iff₀ qp]; nlinarith
  · rw [← mul_div_assoc]
    refine div_le_div_of_nonneg_right ?_ hk.le
    rw [div_le_iff₀ qp]; nlinarith

theorem MovedWithin.tuned {powi : ℝ → ℕ → ℝ} (hp : PowiExact powi) {f sr Γ : ℝ} (hf : 0 < f) (hsr : 0 < sr) (ht : 2 * f ≤ sr / 4) (hΓ : 2 ≤ Γ)
    {co : BiquadCoeffs ℝ} (h : MovedWithin powi f sr Γ co) :
    Tuned (warp powi f sr) co.a1 co.a2 ∧ |co.b0| ≤ Γ ∧ |co.b1| ≤ Γ ∧ |co.b2| ≤ Γ := by
  obtain ⟨fc, q, gain, h1, h2, q0, q1, g0, g1, hco⟩ := h
  obtain ⟨w1, w2, -⟩ := warp_octave hp hf hsr h1 h2 ht
  have kp := warp_pos hp hf hsr
  obtain ⟨io, e1, e2⟩ := tuned_of kp w1 w2 q0 q1
  have qp : 0 < q := by linarith
  have Kp : 0 < warp powi fc sr := by linarith
  simp only [lowpass, highpass, allpass, notch, bellBoost, setup_eq, List.mem_cons, List.not_mem_nil, or_false] at hco
  have up : 0 < warp powi fc sr / q := by positivity
  have vp : 0 < warp powi fc sr ^ 2 := by positivity
  have dp : 0 < 1 + warp powi fc sr / q + warp powi fc sr ^ 2 := by positivity
  have key : ∀ {b : ℝ}, |b| ≤ Γ * (1 + warp powi fc sr / q + warp powi fc sr ^ 2) →
      |1 / (1 + warp powi fc sr / q + warp powi fc sr ^ 2) * b| ≤ Γ := fun h => by
    rwa [one_div_mul_eq_div, abs_div, abs_of_pos dp, div_le_iff₀ dp]
  have hT : Tuned (warp powi f sr) (2 * (warp powi fc sr ^ 2 - 1) / (1 + warp powi fc sr / q + warp powi fc sr ^ 2))
      ((1 - warp powi fc sr / q + warp powi fc sr ^ 2) / (1 + warp powi fc sr / q + warp powi fc sr ^ 2)) :=
    ⟨_, _, io, by rw [e1, e2]; field_simp, by rw [e1, e2]; field_simp⟩
  generalize warp powi fc sr / q = u at *
  generalize warp powi fc sr ^ 2 = v at *
  generalize hD : 1 + u + v = D at *
  have E1 : 1 / D * 2 * (v - 1) = 2 * (v - 1) / D := by ring
  have E1' : 1 / D * (2 * (v - 1)) = 2 * (v - 1) / D := by ring
  have E2 : 1 / D * (1 - u + v) = (1 - u + v) / D := by ring
  have gu : gain * u ≤ Γ * u := mul_le_mul_of_nonneg_right g1 up.le
  have gu0 : 0 ≤ gain * u := mul_nonneg g0 up.le
  have Γ1 : Γ * 1 ≤ Γ * D := mul_le_mul_of_nonneg_left (by linarith) (by linarith)
  have ΓD : Γ * D = Γ + Γ * u + Γ * v := by rw [← hD]; ring
  have Γv : 2 * v ≤ Γ * v := mul_le_mul_of_nonneg_right hΓ vp.le
  have Γu : 2 * u ≤ Γ * u := mul_le_mul_of_nonneg_right hΓ up.le
  have c1 : |1 / D| ≤ Γ := by
    have := key (b := 1) (by rw [abs_one, ΓD]; linarith)
    rwa [mul_one] at this
  have c2 : |1 / D * -2| ≤ Γ := key (by rw [abs_neg, abs_two, ΓD]; linarith)
  have c3 : |1 / D * v| ≤ Γ := key (by rw [abs_of_pos vp, ΓD]; linarith)
  have c4 : |1 / D * 2 * v| ≤ Γ := by rw [mul_assoc]; exact key (by rw [abs_of_pos (by linarith), ΓD]; linarith)
  have c5 : |2 * (v - 1) / D| ≤ Γ := by rw [← E1']; exact key (by rw [ΓD, abs_le]; constructor <;> linarith)
  have c6 : |(1 - u + v) / D| ≤ Γ := by rw [← E2]; exact key (by rw [ΓD, abs_le]; constructor <;> linarith)
  have c7 : |(1:ℝ)| ≤ Γ := by rw [abs_one]; linarith
  have c8 : |1 / D * (1 + v)| ≤ Γ := key (by rw [ΓD, abs_le]; constructor <;> linarith)
  have c9 : |1 / D * (1 + gain * u + v)| ≤ Γ := key (by rw [ΓD, abs_le]; constructor <;> linarith)
  have c10 : |1 / D * (1 - gain * u + v)| ≤ Γ := key (by rw [ΓD, abs_le]; constructor <;> linarith)
  rcases hco with rfl | rfl | rfl | rfl | rfl <;>
    simp only [lowpassOf, highpassOf, allpassOf, notchOf, bellBoostOf, Lit.lit] <;> push_cast <;> rw [hD] <;>
    first
    | (rw [E1, E2]; exact ⟨hT, c3, c4, c3⟩)
    | (rw [E1', E2])
  · exact ⟨hT, c1, c2, c1⟩
  · exact ⟨hT, c6, c5, c7⟩
  · exact ⟨hT, c8, c5, c8⟩
  · exact ⟨hT, c9, c5, c10⟩

/-- C179: the designs, their cutoff, quality, gain and even their kind changed before every sample. -/
theorem C179_designs {powi : ℝ → ℕ → ℝ} (hp : PowiExact powi) {f sr Γ m : ℝ} (hf : 0 < f) (hsr : 0 < sr) (ht : 2 * f ≤ sr / 4) (hΓ : 2 ≤ Γ)
    {co : ℕ → BiquadCoeffs ℝ} (hco : ∀ n, MovedWithin powi f sr Γ (co n)) {x : ℕ → ℝ} (m0 : 0 ≤ m) (hx : ∀ n, |x n| ≤ m) (n : ℕ) :
    |(Biquad.new (co 0)).outAtVar (fun n => (co n, x n)) n| ≤ 340 * (1300 + 1 / warp powi f sr ^ 2) * (Γ * m) :=
  C179_exact (warp_pos hp hf hsr) (warp_octave hp hf hsr le_rfl (by linarith) ht).2.2 (fun n => ((hco n).tuned hp hf hsr ht hΓ).1)
    (by linarith) (fun n => ((hco n).tuned hp hf hsr ht hΓ).2) m0 hx n

/-- A cutoff jumping between 1 kHz and 2 kHz at every sample. -/
example (n : ℕ) (x : ℕ → ℝ) (hx : ∀ n, |x n| ≤ 1) :
    ∃ B : ℝ, |(Biquad.new (lowpass (fun y n => y ^ n) 1000 1 (48000:ℝ))).outAtVar
      (fun n => (lowpass (fun y n => y ^ n) (if n % 2 = 0 then 1000 else 2000) 1 48000, x n)) n| ≤ B :=
  ⟨_, C179_designs (f := 1000) (Γ := 2) (fun _ _ => rfl) (by norm_num) (by norm_num) (by norm_num) le_rfl
    (fun n => ⟨if n % 2 = 0 then 1000 else 2000, 1, 1, by split <;> norm_num, by split <;> norm_num, by norm_num, le_rfl, by norm_num,
      by norm_num, List.mem_cons_self ..⟩) zero_le_one hx n⟩

end Verif
