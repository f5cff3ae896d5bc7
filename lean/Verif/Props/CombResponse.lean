import Verif.Props.CombLinear
import Verif.Props.Cutoff

/-! # C137: the frequency responses of comb and all-pass, measured on the code in exact arithmetic -/

namespace Verif

/-- The free motion of a comb dies out geometrically. -/
theorem comb_free_rate {w f : ℕ → ℝ} {L : ℕ} (hL : 0 < L) {fb d : ℝ} (hfb : |fb| < 1) (d0 : 0 ≤ d) (d1 : d < 1)
    (hf : ∀ n, f (n + 1) = w n * (1 - d) + f n * d) (hw : ∀ n, w (n + L) = f (n + 1) * fb) :
    ∃ A r : ℝ, 0 < r ∧ r < 1 ∧ ∀ n, |w n| ≤ A * r ^ n ∧ |f n| ≤ A * r ^ n := by
  have b0 := abs_nonneg fb
  generalize hb : |fb| = b at *
  obtain ⟨C, hC⟩ : ∃ C, C = 2 / (1 + b) := ⟨_, rfl⟩
  have C1 : 1 < C := by rw [hC, lt_div_iff₀ (by linarith)]; linarith
  have bC : b * C < 1 := by rw [hC, ← mul_div_assoc, div_lt_one (by linarith)]; linarith
  have bC0 : 0 ≤ b * C := mul_nonneg b0 (by linarith)
  have L0 : (0 : ℝ) < L := by exact_mod_cast hL
  have L1 : (1 : ℝ) ≤ L := by exact_mod_cast hL
  -- the rate
  obtain ⟨r, hr⟩ : ∃ r, r = max (((1 - d) + d * C) / C) (1 - (1 - b * C) / L) := ⟨_, rfl⟩
  have r1 : r < 1 := by
    rw [hr, max_lt_iff, div_lt_one (by linarith)]
    refine ⟨by nlinarith, ?_⟩
    have : 0 < (1 - b * C) / L := div_pos (by linarith) L0
    linarith
  have ra : (1 - d) + d * C ≤ C * r := by
    have : ((1 - d) + d * C) / C ≤ r := by rw [hr]; exact le_max_left _ _
    rw [div_le_iff₀ (by linarith)] at this; linarith
  have r0 : 0 < r := by
    have : 0 < (1 - d) + d * C := by nlinarith
    have : 0 < C * r := by linarith
    exact pos_of_mul_pos_right this (by linarith)
  have rb : b * C ≤ r ^ L := by
    have h1 : 1 - (1 - b * C) / L ≤ r := by rw [hr]; exact le_max_right _ _
    have h2 : (1 - b * C) / L ≤ 1 := by rw [div_le_one L0]; linarith
    have h3 := one_add_mul_le_pow (a := -((1 - b * C) / L)) (by linarith) L
    have h4 := pow_le_pow_left₀ (by linarith : (0 : ℝ) ≤ 1 + -((1 - b * C) / L)) (show _ ≤ r by linarith) L
    have h5 : (L : ℝ) * -((1 - b * C) / L) = -(1 - b * C) := by field_simp
    rw [h5] at h3
    linarith
  obtain ⟨A, A0, hA, hAf⟩ : ∃ A, 0 ≤ A ∧ (∀ n < L, |w n| ≤ A * r ^ n) ∧ |f 0| ≤ C * A := by
    refine ⟨(∑ i ∈ Finset.range L, |w i| / r ^ i) + |f 0|, by positivity, fun n hn => ?_, ?_⟩
    · have : |w n| / r ^ n ≤ ∑ i ∈ Finset.range L, |w i| / r ^ i :=
        Finset.single_le_sum (f := fun i => |w i| / r ^ i) (fun i _ => by positivity) (Finset.mem_range.2 hn)
      rw [← div_le_iff₀ (by positivity)]
      linarith [abs_nonneg (f 0)]
    · have : 0 ≤ ∑ i ∈ Finset.range L, |w i| / r ^ i := Finset.sum_nonneg fun i _ => by positivity
      have h2 := abs_nonneg (f 0)
      nlinarith
  have key : ∀ n, |f n| ≤ C * A * r ^ n ∧ ∀ m < n + L, |w m| ≤ A * r ^ m := by
    intro n
    induction n with
    | zero => exact ⟨by simpa using hAf, fun m hm => hA m (by simpa using hm)⟩
    | succ n ih =>
      have hfn : |f (n + 1)| ≤ C * A * r ^ (n + 1) := by
        rw [hf n]
        refine (abs_add_le _ _).trans ?_
        rw [abs_mul, abs_mul, abs_of_nonneg (show 0 ≤ 1 - d by linarith), abs_of_nonneg d0]
        have h1 := mul_le_mul_of_nonneg_right (ih.2 n (by omega)) (show 0 ≤ 1 - d by linarith)
        have h2 := mul_le_mul_of_nonneg_right ih.1 d0
        have h3 := mul_le_mul_of_nonneg_left ra (show 0 ≤ A * r ^ n by positivity)
        calc _ ≤ A * r ^ n * (1 - d) + C * A * r ^ n * d := add_le_add h1 h2
          _ = A * r ^ n * (1 - d + d * C) := by ring
          _ ≤ _ := h3
          _ = _ := by ring
      refine ⟨hfn, fun m hm => ?_⟩
      by_cases h : m < n + L
      · exact ih.2 m h
      · have : m = n + L := by omega
        subst this
        rw [hw n, abs_mul, hb]
        have h1 := mul_le_mul_of_nonneg_right hfn b0
        have h2 := mul_le_mul_of_nonneg_left rb (show 0 ≤ A * r ^ n by positivity)
        calc _ ≤ C * A * r ^ (n + 1) * b := h1
          _ = A * r ^ n * (b * C) * r := by ring
          _ ≤ A * r ^ n * (b * C) * 1 := mul_le_mul_of_nonneg_left r1.le (by positivity)
          _ = A * r ^ n * (b * C) := by ring
          _ ≤ _ := h2
          _ = _ := by rw [pow_add]; ring
  refine ⟨C * A, r, r0, r1, fun n => ⟨((key n).2 n (by omega)).trans ?_, (key n).1⟩⟩
  refine mul_le_mul_of_nonneg_right ?_ (by positivity)
  nlinarith

theorem comb_free {w f : ℕ → ℝ} {L : ℕ} (hL : 0 < L) {fb d : ℝ} (hfb : |fb| < 1) (d0 : 0 ≤ d) (d1 : d < 1)
    (hf : ∀ n, f (n + 1) = w n * (1 - d) + f n * d) (hw : ∀ n, w (n + L) = f (n + 1) * fb) :
    Filter.Tendsto w Filter.atTop (nhds 0) := by
  obtain ⟨A, r, r0, r1, h⟩ := comb_free_rate hL hfb d0 d1 hf hw
  refine squeeze_zero_norm (a := fun n => A * r ^ n) (fun n => (h n).1) ?_
  have := (tendsto_pow_atTop_nhds_zero_of_lt_one r0.le r1).const_mul A
  simpa using this

/-- From whatever contents, a comb follows any other solution of its equations with the same input. -/
theorem comb_follows {c : Cfg} {mem : Mem ℝ} {k : Comb ℝ} {q : List ℝ} (h : Holds c mem k.delayLine q) (hd : k.dampeningInverse = 1 - k.dampening)
    (d0 : 0 ≤ k.dampening) (d1 : k.dampening < 1) (hfb : |k.feedback| < 1) {x w' f' : ℕ → ℝ}
    (hf' : ∀ n, f' (n + 1) = w' n * (1 - k.dampening) + f' n * k.dampening) (hw' : ∀ n, w' (n + q.length) = x n + f' (n + 1) * k.feedback) :
    ∃ y : ℕ → ℝ, (∀ n, Comb.outAt c mem k x n = .ok (y n)) ∧ Filter.Tendsto (fun n => y n - w' n) Filter.atTop (nhds 0) := by
  obtain ⟨w, f, -, -, hf, hw, hout⟩ := C20_comb h x
  refine ⟨w, hout, comb_free (f := fun n => f n - f' n) (List.length_pos_iff.2 h.ne_nil) hfb d0 d1 (fun n => ?_) (fun n => ?_)⟩
  · rw [hf n, hf' n, hd]; ring
  · rw [hw n, hw' n]; ring

theorem tone_pow (θ : ℝ) (m : ℕ) : tone θ ^ m = Complex.exp (((θ * m : ℝ) : ℂ) * Complex.I) := by
  unfold tone; rw [← Complex.exp_nat_mul]; congr 1; push_cast; ring

theorem tone_pow_re (θ : ℝ) (m : ℕ) : (tone θ ^ m).re = Real.cos (θ * m) := by
  rw [tone_pow, Complex.exp_ofReal_mul_I_re]

theorem polar_re (H : ℂ) (θ : ℝ) (n : ℕ) : (H * tone θ ^ n).re = ‖H‖ * Real.cos (θ * n + H.arg) := by
  conv_lhs => rw [← Complex.norm_mul_exp_arg_mul_I H]
  rw [tone_pow, mul_assoc, ← Complex.exp_add, ← add_mul, ← Complex.ofReal_add, Complex.re_ofReal_mul, Complex.exp_ofReal_mul_I_re,
    add_comm]

/-- The transfer function of a comb of `L` samples: `z^-L` in a loop with the one-pole low-pass `(1-d)/(1 - d/z)`. -/
noncomputable def combGain (L : ℕ) (fb d : ℝ) (z : ℂ) : ℂ := 1 / (z ^ L - fb * ((1 - d) * z / (z - d)))

/-- The one-pole in the loop amplifies nothing. -/
theorem one_pole_le {d : ℝ} (d0 : 0 ≤ d) (d1 : d < 1) {z : ℂ} (hz : ‖z‖ = 1) : z - d ≠ 0 ∧ ‖(1 - (d : ℂ)) * z / (z - d)‖ ≤ 1 := by
  have h1 : 1 - d ≤ ‖z - d‖ := by
    have := norm_sub_norm_le z d
    rw [hz, Complex.norm_real, Real.norm_of_nonneg d0] at this
    exact this
  have h2 : 0 < ‖z - d‖ := by linarith
  refine ⟨norm_pos_iff.1 h2, ?_⟩
  rw [norm_div, norm_mul, hz, mul_one, div_le_one h2, ← Complex.ofReal_one, ← Complex.ofReal_sub, Complex.norm_real,
    Real.norm_of_nonneg (by linarith)]
  exact h1

/-- C137: the gain of a comb lies between `1/(1+|fb|)` and `1/(1-|fb|)` at every frequency. -/
theorem C137_comb_range (L : ℕ) {fb d : ℝ} (hfb : |fb| < 1) (d0 : 0 ≤ d) (d1 : d < 1) {z : ℂ} (hz : ‖z‖ = 1) :
    1 / (1 + |fb|) ≤ ‖combGain L fb d z‖ ∧ ‖combGain L fb d z‖ ≤ 1 / (1 - |fb|) := by
  obtain ⟨-, h1⟩ := one_pole_le d0 d1 hz
  have h2 : ‖(fb : ℂ) * ((1 - d) * z / (z - d))‖ ≤ |fb| := by
    rw [norm_mul, Complex.norm_real, Real.norm_eq_abs]
    exact mul_le_of_le_one_right (abs_nonneg _) h1
  have h3 : ‖z ^ L‖ = 1 := by rw [norm_pow, hz, one_pow]
  have h4 := norm_sub_norm_le (z ^ L) ((fb : ℂ) * ((1 - d) * z / (z - d)))
  have h5 := norm_sub_le (z ^ L) ((fb : ℂ) * ((1 - d) * z / (z - d)))
  rw [h3] at h4 h5
  unfold combGain
  rw [norm_div, norm_one]
  exact ⟨one_div_le_one_div_of_le (by linarith) (by linarith), one_div_le_one_div_of_le (by linarith) (by linarith)⟩

/-- C137: a comb of any length, from any contents, turns a cosine of any frequency into the cosine of the same frequency,
scaled and shifted by its transfer function. -/
theorem C137_comb {c : Cfg} {mem : Mem ℝ} {k : Comb ℝ} {q : List ℝ} (h : Holds c mem k.delayLine q) (hd : k.dampeningInverse = 1 - k.dampening)
    (d0 : 0 ≤ k.dampening) (d1 : k.dampening < 1) (hfb : |k.feedback| < 1) (θ : ℝ) :
    ∃ y : ℕ → ℝ, (∀ n, Comb.outAt c mem k (fun n => Real.cos (θ * n)) n = .ok (y n)) ∧
      Filter.Tendsto (fun n : ℕ => y n - ‖combGain q.length k.feedback k.dampening (tone θ)‖ *
        Real.cos (θ * n + (combGain q.length k.feedback k.dampening (tone θ)).arg)) Filter.atTop (nhds 0) := by
  obtain ⟨hn, -⟩ := one_pole_le d0 d1 (tone_norm θ)
  have hr := (C137_comb_range q.length hfb d0 d1 (tone_norm θ)).1
  obtain ⟨H, hH⟩ : ∃ H, H = combGain q.length k.feedback k.dampening (tone θ) := ⟨_, rfl⟩
  have hD : tone θ ^ q.length - k.feedback * ((1 - k.dampening) * tone θ / (tone θ - k.dampening)) ≠ 0 := by
    intro h0
    unfold combGain at hr
    rw [h0, div_zero, norm_zero] at hr
    have : 0 < 1 / (1 + |k.feedback|) := by positivity
    linarith
  have eH : H * tone θ ^ q.length = 1 + H * ((1 - k.dampening) / (tone θ - k.dampening)) * tone θ * k.feedback := by
    have : H * (tone θ ^ q.length - k.feedback * ((1 - k.dampening) * tone θ / (tone θ - k.dampening))) = 1 := by
      rw [hH]; exact one_div_mul_cancel hD
    rw [mul_sub] at this
    linear_combination this
  have eF : H * ((1 - k.dampening) / (tone θ - k.dampening)) * tone θ =
      H * (1 - k.dampening) + H * ((1 - k.dampening) / (tone θ - k.dampening)) * k.dampening := by
    field_simp; ring
  have := comb_follows h hd d0 d1 hfb (x := fun n => Real.cos (θ * n)) (w' := fun n => (H * tone θ ^ n).re)
    (f' := fun n => (H * ((1 - k.dampening) / (tone θ - k.dampening)) * tone θ ^ n).re) (fun n => ?_) (fun n => ?_)
  · simp only [polar_re] at this
    rw [hH] at this
    exact this
  · have e : H * ((1 - k.dampening) / (tone θ - k.dampening)) * tone θ ^ (n + 1) =
        ((1 - k.dampening : ℝ) : ℂ) * (H * tone θ ^ n) + (k.dampening : ℂ) * (H * ((1 - k.dampening) / (tone θ - k.dampening)) * tone θ ^ n) := by
      push_cast
      rw [pow_succ]
      linear_combination tone θ ^ n * eF
    show (H * ((1 - k.dampening) / (tone θ - k.dampening)) * tone θ ^ (n + 1)).re = _
    rw [e, Complex.add_re, Complex.re_ofReal_mul, Complex.re_ofReal_mul]; ring
  · have e : H * tone θ ^ (n + q.length) = tone θ ^ n + (k.feedback : ℂ) * (H * ((1 - k.dampening) / (tone θ - k.dampening)) * tone θ ^ (n + 1)) := by
      rw [pow_add, pow_succ]
      linear_combination tone θ ^ n * eH
    show (H * tone θ ^ (n + q.length)).re = _
    rw [e, Complex.add_re, Complex.re_ofReal_mul, tone_pow_re]; ring

/-- C137: a constant settles on `a / (1 - fb)`, whatever the dampening. -/
theorem C137_comb_constant {c : Cfg} {mem : Mem ℝ} {k : Comb ℝ} {q : List ℝ} (h : Holds c mem k.delayLine q) (hd : k.dampeningInverse = 1 - k.dampening)
    (d0 : 0 ≤ k.dampening) (d1 : k.dampening < 1) (hfb : |k.feedback| < 1) (a : ℝ) :
    ∃ y : ℕ → ℝ, (∀ n, Comb.outAt c mem k (fun _ => a) n = .ok (y n)) ∧ Filter.Tendsto y Filter.atTop (nhds (a / (1 - k.feedback))) := by
  have h1 : 1 - k.feedback ≠ 0 := by have := (abs_lt.1 hfb).2; linarith
  obtain ⟨y, hy, ht⟩ := comb_follows h hd d0 d1 hfb (x := fun _ => a) (w' := fun _ => a / (1 - k.feedback)) (f' := fun _ => a / (1 - k.feedback))
    (fun n => by ring) (fun n => by field_simp; ring)
  refine ⟨y, hy, ?_⟩
  have := ht.add_const (a / (1 - k.feedback))
  simpa using this

/-- What the all-pass really does: transfer function `(3/2 - z^L) / (z^L - 1/2)`. -/
noncomputable def allPassGain (L : ℕ) (z : ℂ) : ℂ := (3 / 2 - z ^ L) / (z ^ L - 1 / 2)

theorem all_pass_den {z : ℂ} (hz : ‖z‖ = 1) (L : ℕ) : z ^ L - 1 / 2 ≠ 0 := by
  intro h
  have h1 : ‖z ^ L‖ = 1 := by rw [norm_pow, hz, one_pow]
  rw [sub_eq_zero.1 h] at h1
  norm_num at h1

/-- C137: the all-pass, from any contents, on a cosine of any frequency. -/
theorem C137_all_pass {c : Cfg} {mem : Mem ℝ} {k : AllPass} {q : List ℝ} (h : Holds c mem k.delayLine q) (θ : ℝ) :
    ∃ y : ℕ → ℝ, (∀ n, AllPass.outAt c mem k (fun n => Real.cos (θ * n)) n = .ok (y n)) ∧
      Filter.Tendsto (fun n : ℕ => y n - ‖allPassGain q.length (tone θ)‖ *
        Real.cos (θ * n + (allPassGain q.length (tone θ)).arg)) Filter.atTop (nhds 0) := by
  obtain ⟨w, -, hw, hout⟩ := C24_all_pass h (fun n => Real.cos (θ * n))
  have hL := List.length_pos_iff.2 h.ne_nil
  refine ⟨_, hout, ?_⟩
  have hD := all_pass_den (tone_norm θ) q.length
  have dec : Filter.Tendsto (fun n => w n - (1 / (tone θ ^ q.length - 1 / 2) * tone θ ^ n).re) Filter.atTop (nhds 0) := by
    refine comb_free (f := fun n => match n with | 0 => 0 | n + 1 => w n - (1 / (tone θ ^ q.length - 1 / 2) * tone θ ^ n).re) (fb := 1 / 2) (d := 0) hL
      (by rw [abs_of_pos] <;> norm_num) le_rfl one_pos (fun n => by simp) (fun n => ?_)
    have e : 1 / (tone θ ^ q.length - 1 / 2) * tone θ ^ (n + q.length) =
        tone θ ^ n + ((1 / 2 : ℝ) : ℂ) * (1 / (tone θ ^ q.length - 1 / 2) * tone θ ^ n) := by
      push_cast
      have : 1 / (tone θ ^ q.length - 1 / 2) * (tone θ ^ q.length - 1 / 2) = 1 := one_div_mul_cancel hD
      rw [pow_add]
      linear_combination tone θ ^ n * this
    rw [e, hw n, Complex.add_re, Complex.re_ofReal_mul, tone_pow_re, lit_exact]
    push_cast
    ring
  refine dec.congr (fun n => ?_)
  rw [← polar_re]
  have e : allPassGain q.length (tone θ) * tone θ ^ n = 1 / (tone θ ^ q.length - 1 / 2) * tone θ ^ n - tone θ ^ n := by
    have : allPassGain q.length (tone θ) = 1 / (tone θ ^ q.length - 1 / 2) - 1 := by
      unfold allPassGain; rw [eq_sub_iff_add_eq, div_add_one hD]; congr 1; ring
    rw [this]; ring
  rw [e, Complex.sub_re, tone_pow_re]
  ring

/-- C137: so its gain lies between 1 and 5/3, and takes both values. -/
theorem C137_all_pass_range {L : ℕ} (hL : 0 < L) :
    (∀ z : ℂ, ‖z‖ = 1 → 1 ≤ ‖allPassGain L z‖ ∧ ‖allPassGain L z‖ ≤ 5 / 3) ∧ ‖allPassGain L 1‖ = 1 ∧
    ∃ θ : ℝ, ‖allPassGain L (tone θ)‖ = 5 / 3 := by
  refine ⟨fun z hz => ?_, ?_, Real.pi / L, ?_⟩
  · have h0 := norm_pos_iff.2 (all_pass_den hz L)
    have hu : ‖z ^ L‖ = 1 := by rw [norm_pow, hz, one_pow]
    obtain ⟨hr1, hr2⟩ : -1 ≤ (z ^ L).re ∧ (z ^ L).re ≤ 1 := by have := Complex.abs_re_le_norm (z ^ L); rw [hu] at this; exact abs_le.1 this
    unfold allPassGain
    rw [norm_div]
    generalize z ^ L = u at *
    have hzz : u.re ^ 2 + u.im ^ 2 = 1 := by
      have := Complex.normSq_eq_norm_sq u; rw [hu, Complex.normSq_apply] at this; nlinarith
    have n1 : ‖3 / 2 - u‖ ^ 2 = 13 / 4 - 3 * u.re := by
      rw [Complex.sq_norm, Complex.normSq_apply]; norm_num; nlinarith
    have n2 : ‖u - 1 / 2‖ ^ 2 = 5 / 4 - u.re := by
      rw [Complex.sq_norm, Complex.normSq_apply]; norm_num; nlinarith
    rw [le_div_iff₀ h0, div_le_iff₀ h0, one_mul]
    constructor
    · refine (sq_le_sq₀ h0.le (norm_nonneg _)).1 ?_
      rw [n1, n2]; linarith
    · refine (sq_le_sq₀ (norm_nonneg _) (by positivity)).1 ?_
      rw [mul_pow, n1, n2]; linarith
  · unfold allPassGain; rw [one_pow]; norm_num
  · have : tone (Real.pi / L) ^ L = -1 := by
      rw [tone_pow, div_mul_cancel₀ _ (by positivity)]; exact Complex.exp_pi_mul_I
    unfold allPassGain; rw [this]; norm_num

/-- The hypotheses are met: a comb as made by `new` (dampening and feedback 1/2) over two silent samples. -/
example : Holds Cfg.release32 quietMemR (Comb.new (MemorySlice.fromSlice 0 0 2) : Comb ℝ).delayLine (List.replicate 2 0) ∧
    (Comb.new (MemorySlice.fromSlice 0 0 2) : Comb ℝ).dampeningInverse = 1 - (Comb.new (MemorySlice.fromSlice 0 0 2) : Comb ℝ).dampening ∧
    0 ≤ (Comb.new (MemorySlice.fromSlice 0 0 2) : Comb ℝ).dampening ∧ (Comb.new (MemorySlice.fromSlice 0 0 2) : Comb ℝ).dampening < 1 ∧
    |(Comb.new (MemorySlice.fromSlice 0 0 2) : Comb ℝ).feedback| < 1 := by
  refine ⟨holds_new quietR_views (by simp), ?_, ?_, ?_, ?_⟩ <;> simp only [Comb.new, lit_exact] <;> push_cast <;> norm_num

end Verif
