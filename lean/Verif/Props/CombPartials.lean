import Verif.Props.CombResponse
import Mathlib.Analysis.SpecialFunctions.Trigonometric.Arctan

/-! # C185: where a comb resonates, and how dampening weakens its upper partials -/

namespace Verif

/-- What one trip round the comb leaves of a tone of `θ` radians per sample: the feedback times the one-pole low-pass. -/
noncomputable def loopGain (fb d θ : ℝ) : ℝ := |fb| * (1 - d) / √(1 - 2 * d * Real.cos θ + d ^ 2)

theorem pole_dist {d : ℝ} (d0 : 0 ≤ d) (θ : ℝ) :
    (1 - d) ^ 2 ≤ 1 - 2 * d * Real.cos θ + d ^ 2 ∧ ‖tone θ - d‖ = √(1 - 2 * d * Real.cos θ + d ^ 2) := by
  have hc := Real.cos_le_one θ
  refine ⟨by nlinarith, ?_⟩
  rw [Complex.norm_def, Complex.normSq_apply]
  congr 1
  have hs := Real.sin_sq_add_cos_sq θ
  simp only [tone, Complex.exp_ofReal_mul_I_re, Complex.exp_ofReal_mul_I_im, Complex.sub_re, Complex.sub_im, Complex.ofReal_re, Complex.ofReal_im]
  nlinarith

theorem loopGain_eq {d : ℝ} (d0 : 0 ≤ d) (d1 : d < 1) (fb θ : ℝ) :
    ‖(fb : ℂ) * ((1 - (d : ℂ)) * tone θ / (tone θ - d))‖ = loopGain fb d θ := by
  have h1 : ‖(1 - (d : ℂ))‖ = 1 - d := by
    rw [← Complex.ofReal_one, ← Complex.ofReal_sub, Complex.norm_real, Real.norm_eq_abs, abs_of_pos (by linarith)]
  rw [norm_mul, norm_div, norm_mul, (pole_dist d0 θ).2, tone_norm, h1, Complex.norm_real, Real.norm_eq_abs, loopGain]
  ring

theorem loopGain_le {d : ℝ} (d0 : 0 ≤ d) (d1 : d < 1) (fb θ : ℝ) : 0 ≤ loopGain fb d θ ∧ loopGain fb d θ ≤ |fb| := by
  have h := (pole_dist d0 θ).1
  have hp : 0 < 1 - d := by linarith
  have hr : 1 - d ≤ √(1 - 2 * d * Real.cos θ + d ^ 2) := Real.le_sqrt_of_sq_le h
  unfold loopGain
  refine ⟨by positivity, ?_⟩
  rw [div_le_iff₀ (by linarith)]
  exact mul_le_mul_of_nonneg_left hr (abs_nonneg _)

/-- C185: no tone comes out stronger than `1/(1 - g)` or weaker than `1/(1 + g)`, `g` being what is left of it after one trip. -/
theorem C185_range (L : ℕ) {fb d : ℝ} (hfb : |fb| < 1) (d0 : 0 ≤ d) (d1 : d < 1) (θ : ℝ) :
    1 / (1 + loopGain fb d θ) ≤ ‖combGain L fb d (tone θ)‖ ∧ ‖combGain L fb d (tone θ)‖ ≤ 1 / (1 - loopGain fb d θ) := by
  obtain ⟨g0, g1⟩ := loopGain_le d0 d1 fb θ
  have h2 := loopGain_eq d0 d1 fb θ
  have h3 : ‖tone θ ^ L‖ = 1 := by rw [norm_pow, tone_norm, one_pow]
  have h4 := norm_sub_norm_le (tone θ ^ L) ((fb : ℂ) * ((1 - d) * tone θ / (tone θ - d)))
  have h5 := norm_sub_le (tone θ ^ L) ((fb : ℂ) * ((1 - d) * tone θ / (tone θ - d)))
  rw [h3, h2] at h4 h5
  unfold combGain
  rw [norm_div, norm_one]
  exact ⟨one_div_le_one_div_of_le (by linarith) (by linarith), one_div_le_one_div_of_le (by linarith) (by linarith)⟩

/-- C185: with dampening, the higher the tone the less is left of it. -/
theorem C185_dampening {fb d : ℝ} (hfb : fb ≠ 0) (d0 : 0 < d) (d1 : d < 1) :
    StrictAntiOn (loopGain fb d) (Set.Icc 0 Real.pi) ∧ loopGain fb d 0 = |fb| ∧ loopGain fb d Real.pi = |fb| * ((1 - d) / (1 + d)) := by
  have hp : 0 < 1 - d := by linarith
  refine ⟨fun x hx y hy hxy => ?_, ?_, ?_⟩
  · have hc := Real.strictAntiOn_cos hx hy hxy
    have h := (pole_dist d0.le x).1
    unfold loopGain
    have hs : √(1 - 2 * d * Real.cos x + d ^ 2) < √(1 - 2 * d * Real.cos y + d ^ 2) :=
      Real.sqrt_lt_sqrt (by nlinarith [sq_nonneg (1 - d)]) (by nlinarith)
    refine div_lt_div_of_pos_left (by positivity) (Real.sqrt_pos.2 (lt_of_lt_of_le (by positivity) h)) hs
  · unfold loopGain
    rw [Real.cos_zero, show 1 - 2 * d * 1 + d ^ 2 = (1 - d) ^ 2 by ring, Real.sqrt_sq hp.le, mul_div_assoc, div_self hp.ne', mul_one]
  · unfold loopGain
    rw [Real.cos_pi, show 1 - 2 * d * (-1) + d ^ 2 = (1 + d) ^ 2 by ring, Real.sqrt_sq (by linarith), mul_div_assoc]

/-- How far the one-pole low-pass holds a tone back. -/
noncomputable def poleLag (d θ : ℝ) : ℝ := Real.arctan (d * Real.sin θ / (1 - d * Real.cos θ))

theorem pole_turn {d : ℝ} (d0 : 0 ≤ d) (d1 : d < 1) (θ : ℝ) :
    (1 - (d : ℂ)) * tone θ / (tone θ - d) = ((1 - d) / √(1 - 2 * d * Real.cos θ + d ^ 2) : ℝ) * tone (-poleLag d θ) := by
  have hc := Real.cos_le_one θ
  have u0 : 0 < 1 - d * Real.cos θ := by nlinarith
  obtain ⟨u, hu⟩ : ∃ u, u = 1 - d * Real.cos θ := ⟨_, rfl⟩
  obtain ⟨v, hv⟩ : ∃ v, v = d * Real.sin θ := ⟨_, rfl⟩
  rw [← hu] at u0
  have hs := Real.sin_sq_add_cos_sq θ
  have hr : 1 - 2 * d * Real.cos θ + d ^ 2 = u ^ 2 + v ^ 2 := by rw [hu, hv]; linear_combination (-d ^ 2) * hs
  have r0 : 0 < √(u ^ 2 + v ^ 2) := Real.sqrt_pos.2 (by positivity)
  have rr : √(u ^ 2 + v ^ 2) ^ 2 = u ^ 2 + v ^ 2 := Real.sq_sqrt (by positivity)
  have hsq : √(1 + (v / u) ^ 2) = √(u ^ 2 + v ^ 2) / u := by
    rw [show 1 + (v / u) ^ 2 = (u ^ 2 + v ^ 2) / u ^ 2 by field_simp, Real.sqrt_div (by positivity), Real.sqrt_sq u0.le]
  have e1 : tone (-poleLag d θ) = ((u : ℂ) - v * Complex.I) / (√(u ^ 2 + v ^ 2) : ℝ) := by
    unfold poleLag tone
    rw [← hu, ← hv, Complex.exp_mul_I]
    push_cast [Complex.cos_neg, Complex.sin_neg]
    rw [← Complex.ofReal_cos, ← Complex.ofReal_sin, Real.cos_arctan, Real.sin_arctan, hsq]
    have : ((√(u ^ 2 + v ^ 2) : ℝ) : ℂ) ≠ 0 := by exact_mod_cast r0.ne'
    have : (u : ℂ) ≠ 0 := by exact_mod_cast u0.ne'
    push_cast
    field_simp
    ring
  have hne : tone θ - d ≠ 0 := (one_pole_le d0 d1 (tone_norm θ)).1
  have e2 : tone θ - d = tone θ * ((u : ℂ) + v * Complex.I) := by
    have ht : tone θ = Real.cos θ + Real.sin θ * Complex.I := by unfold tone; rw [Complex.exp_mul_I]; push_cast; rfl
    rw [ht, hu, hv]
    have hs' : ((Real.sin θ : ℝ) : ℂ) ^ 2 + ((Real.cos θ : ℝ) : ℂ) ^ 2 = 1 := by exact_mod_cast hs
    push_cast at hs' ⊢
    linear_combination (d : ℂ) * hs' - (d * (Complex.sin θ) ^ 2) * (Complex.I_sq)
  have tne : tone θ ≠ 0 := by rw [← norm_pos_iff, tone_norm]; norm_num
  have une : (u : ℂ) + v * Complex.I ≠ 0 := by
    intro h0; rw [h0, mul_zero] at e2; exact hne e2
  rw [hr, e1, e2]
  have rne : ((√(u ^ 2 + v ^ 2) : ℝ) : ℂ) ≠ 0 := by exact_mod_cast r0.ne'
  have rr' : ((√(u ^ 2 + v ^ 2) : ℝ) : ℂ) ^ 2 = (u : ℂ) ^ 2 + (v : ℂ) ^ 2 := by exact_mod_cast rr
  push_cast
  rw [mul_comm (tone θ) ((u : ℂ) + _), mul_div_mul_right _ _ tne]
  rw [div_mul_div_comm, div_eq_div_iff une (mul_ne_zero rne rne)]
  linear_combination (1 - (d : ℂ)) * rr' + (1 - (d : ℂ)) * (v : ℂ) ^ 2 * Complex.I_sq

/-- Once round the delay and the low-pass turns the tone by `L * θ + poleLag d θ`; some tone is turned by exactly `τ`. -/
theorem trip_meets {L : ℕ} (hL : 0 < L) {d : ℝ} (d0 : 0 ≤ d) (d1 : d < 1) {τ : ℝ} (t0 : 0 ≤ τ) (t1 : τ ≤ Real.pi * L) :
    ∃ θ ∈ Set.Icc ((τ - Real.pi / 2) / L) (τ / L), L * θ + poleLag d θ = τ ∧ (0 < d → 0 < τ → τ < Real.pi * L → θ < τ / L) := by
  have L0 : (0 : ℝ) < L := by exact_mod_cast hL
  have up : ∀ x, 0 < 1 - d * Real.cos x := fun x => by nlinarith [Real.cos_le_one x]
  have hcont : Continuous fun x : ℝ => L * x + poleLag d x := by
    unfold poleLag
    exact (continuous_const.mul continuous_id).add (Real.continuous_arctan.comp
      ((continuous_const.mul Real.continuous_sin).div (continuous_const.sub (continuous_const.mul Real.continuous_cos)) fun x => (up x).ne'))
  have hle : (τ - Real.pi / 2) / L ≤ τ / L := div_le_div_of_nonneg_right (by linarith [Real.pi_pos]) L0.le
  have hr0 : 0 ≤ τ / L := by positivity
  have hr1 : τ / L ≤ Real.pi := by rw [div_le_iff₀ L0]; exact t1
  have e : ∀ x : ℝ, L * (x / L) = x := fun x => by field_simp
  have hb : 0 ≤ poleLag d (τ / L) := by
    have := Real.arctan_mono (div_nonneg (mul_nonneg d0 (Real.sin_nonneg_of_nonneg_of_le_pi hr0 hr1)) (up (τ / L)).le)
    rwa [Real.arctan_zero] at this
  have ha : poleLag d ((τ - Real.pi / 2) / L) < Real.pi / 2 := Real.arctan_lt_pi_div_two _
  obtain ⟨θ, hθ, h⟩ := intermediate_value_Icc hle hcont.continuousOn (show τ ∈ Set.Icc _ _ by
    refine ⟨?_, ?_⟩ <;> simp only [e] <;> linarith)
  refine ⟨θ, hθ, h, fun dp tp tl => lt_of_le_of_ne hθ.2 fun h0 => ?_⟩
  have hs : 0 < Real.sin θ := by
    rw [h0]; exact Real.sin_pos_of_pos_of_lt_pi (by positivity) (by rw [div_lt_iff₀ L0]; exact tl)
  have hp : 0 < poleLag d θ := by
    have := Real.arctan_strictMono (div_pos (mul_pos dp hs) (up θ))
    rwa [Real.arctan_zero] at this
  have h' : L * θ + poleLag d θ = τ := h
  have h2 : L * θ = τ := by rw [h0, e]
  linarith

/-- A tone that comes back in step (`fb > 0`, whole turns) or in opposition (`fb < 0`, half a turn more) is raised to the full `1/(1 - g)`. -/
theorem in_step (L : ℕ) {fb d : ℝ} (d0 : 0 ≤ d) (d1 : d < 1) {θ : ℝ}
    (h : (fb : ℂ) * tone (-poleLag d θ) = |fb| * tone θ ^ L) :
    combGain L fb d (tone θ) = 1 / ((1 - loopGain fb d θ : ℝ) * tone θ ^ L) := by
  unfold combGain
  rw [pole_turn d0 d1]
  congr 1
  have : ((loopGain fb d θ : ℝ) : ℂ) = |fb| * (((1 - d) / √(1 - 2 * d * Real.cos θ + d ^ 2) : ℝ) : ℂ) := by
    rw [← Complex.ofReal_mul, loopGain, mul_div_assoc]
  push_cast at this ⊢
  rw [this]
  linear_combination (-((1 - (d : ℂ)) / (√(1 - 2 * d * Real.cos θ + d ^ 2) : ℝ))) * h

theorem tone_turn (x : ℝ) (k : ℕ) : tone (2 * Real.pi * k + x) = tone x := by
  unfold tone
  push_cast
  rw [add_mul, Complex.exp_add, show (2 * (Real.pi : ℂ) * k) * Complex.I = (k : ℂ) * (2 * Real.pi * Complex.I) by ring, Complex.exp_nat_mul_two_pi_mul_I, one_mul]

/-- Settles on a tone of `θ` radians per sample and strength `A`. -/
def SettlesOn (c : Cfg) (mem : Mem ℝ) (k : Comb ℝ) (θ A : ℝ) : Prop :=
  ∃ φ : ℝ, ∃ y : ℕ → ℝ, (∀ n, Comb.outAt c mem k (fun n => Real.cos (θ * n)) n = .ok (y n)) ∧
    Filter.Tendsto (fun n : ℕ => y n - A * Real.cos (θ * n + φ)) Filter.atTop (nhds 0)

/-- C185: whatever the frequency, the strength the comb settles on lies between `1/(1 + g)` and `1/(1 - g)`. -/
theorem C185_strength {c : Cfg} {mem : Mem ℝ} {k : Comb ℝ} {q : List ℝ} (h : Holds c mem k.delayLine q) (hd : k.dampeningInverse = 1 - k.dampening)
    (d0 : 0 ≤ k.dampening) (d1 : k.dampening < 1) (hfb : |k.feedback| < 1) (θ : ℝ) :
    ∃ A, SettlesOn c mem k θ A ∧ 1 / (1 + loopGain k.feedback k.dampening θ) ≤ A ∧ A ≤ 1 / (1 - loopGain k.feedback k.dampening θ) := by
  obtain ⟨y, hy, ht⟩ := C137_comb h hd d0 d1 hfb θ
  exact ⟨_, ⟨_, y, hy, ht⟩, C185_range q.length hfb d0 d1 θ⟩

theorem comb_partials {c : Cfg} {mem : Mem ℝ} {k : Comb ℝ} {q : List ℝ} (h : Holds c mem k.delayLine q) (hd : k.dampeningInverse = 1 - k.dampening)
    (d0 : 0 ≤ k.dampening) (d1 : k.dampening < 1) (hfb : |k.feedback| < 1) (hf : k.feedback ≠ 0) {τ : ℕ → ℝ}
    (hτ : ∀ i, 1 ≤ i → Real.pi / 2 ≤ τ i ∧ (k.feedback : ℂ) = |k.feedback| * tone (τ i)) (hs : ∀ i j, i < j → τ i + Real.pi / 2 < τ j) :
    ∃ θ : ℕ → ℝ, (∀ i, 1 ≤ i → τ i ≤ Real.pi * q.length →
        θ i ∈ Set.Icc ((τ i - Real.pi / 2) / q.length) (τ i / q.length) ∧
        SettlesOn c mem k (θ i) (1 / (1 - loopGain k.feedback k.dampening (θ i))) ∧
        (k.dampening = 0 → θ i = τ i / q.length) ∧
        (0 < k.dampening → τ i < Real.pi * q.length → θ i < τ i / q.length)) ∧
      ∀ i j, 1 ≤ i → i < j → τ j ≤ Real.pi * q.length → 0 < k.dampening →
        1 / (1 - loopGain k.feedback k.dampening (θ j)) < 1 / (1 - loopGain k.feedback k.dampening (θ i)) := by
  have hL : 0 < q.length := List.length_pos_iff.2 h.ne_nil
  have L0 : (0 : ℝ) < q.length := by exact_mod_cast hL
  have pos : ∀ i, 1 ≤ i → 0 < τ i := fun i hi => lt_of_lt_of_le (by linarith [Real.pi_pos]) (hτ i hi).1
  have key : ∀ i, ∃ θ : ℝ, 1 ≤ i → τ i ≤ Real.pi * q.length → θ ∈ Set.Icc ((τ i - Real.pi / 2) / q.length) (τ i / q.length) ∧
      q.length * θ + poleLag k.dampening θ = τ i ∧ (0 < k.dampening → 0 < τ i → τ i < Real.pi * q.length → θ < τ i / q.length) := by
    intro i
    by_cases hi : 1 ≤ i ∧ τ i ≤ Real.pi * q.length
    · obtain ⟨θ, h1, h2, h3⟩ := trip_meets hL d0 d1 (pos i hi.1).le hi.2
      exact ⟨θ, fun _ _ => ⟨h1, h2, h3⟩⟩
    · exact ⟨0, fun a b => absurd ⟨a, b⟩ hi⟩
  choose θ hθ using key
  refine ⟨θ, fun i hi hl => ?_, fun i j hi hij hl dp => ?_⟩
  · obtain ⟨h1, h2, h3⟩ := hθ i hi hl
    refine ⟨h1, ?_, fun dz => ?_, fun dp => h3 dp (pos i hi)⟩
    · have e := in_step q.length (fb := k.feedback) d0 d1 (θ := θ i) (by
        have : tone (θ i) ^ q.length = tone (τ i) * tone (-poleLag k.dampening (θ i)) := by
          rw [tone_pow]; unfold tone
          rw [← Complex.exp_add, ← h2]
          push_cast; ring_nf
        rw [this]
        linear_combination tone (-poleLag k.dampening (θ i)) * (hτ i hi).2)
      obtain ⟨g0, g1⟩ := loopGain_le d0 d1 k.feedback (θ i)
      obtain ⟨y, hy, ht⟩ := C137_comb h hd d0 d1 hfb (θ i)
      have en : ‖combGain q.length k.feedback k.dampening (tone (θ i))‖ = 1 / (1 - loopGain k.feedback k.dampening (θ i)) := by
        rw [e, norm_div, norm_mul, norm_pow, tone_norm, one_pow, mul_one, norm_one, Complex.norm_real, Real.norm_eq_abs, abs_of_pos (by linarith)]
      rw [en] at ht
      exact ⟨_, y, hy, ht⟩
    · rw [eq_div_iff L0.ne']
      rw [dz, show poleLag 0 (θ i) = 0 by unfold poleLag; simp] at h2
      linarith
  · have hij' := hs i j hij
    obtain ⟨a1, -, -⟩ := hθ i hi (by linarith [Real.pi_pos])
    obtain ⟨b1, -, -⟩ := hθ j (by omega) hl
    have lt : θ i < θ j := lt_of_le_of_lt a1.2 (lt_of_lt_of_le (div_lt_div_of_pos_right (by linarith) L0) b1.1)
    have a0 : 0 ≤ θ i := le_trans (div_nonneg (by linarith [(hτ i hi).1]) L0.le) a1.1
    have b0 : θ j ≤ Real.pi := b1.2.trans (by rw [div_le_iff₀ L0]; exact hl)
    have hg := (C185_dampening hf dp d1).1 ⟨a0, lt.le.trans b0⟩ ⟨a0.trans lt.le, b0⟩ lt
    obtain ⟨-, g1⟩ := loopGain_le d0 d1 k.feedback (θ i)
    exact one_div_lt_one_div_of_lt (by linarith) (by linarith)

/-- C185, positive feedback: the comb has a partial just below each multiple of the rate at which its buffer goes round, and
the higher partials are the weaker. -/
theorem C185_partials {c : Cfg} {mem : Mem ℝ} {k : Comb ℝ} {q : List ℝ} (h : Holds c mem k.delayLine q) (hd : k.dampeningInverse = 1 - k.dampening)
    (d0 : 0 ≤ k.dampening) (d1 : k.dampening < 1) (f0 : 0 < k.feedback) (f1 : k.feedback < 1) :
    ∃ θ : ℕ → ℝ, (∀ i, 1 ≤ i → 2 * i ≤ q.length →
        θ i ∈ Set.Icc (2 * Real.pi * (i - 1 / 4) / q.length) (2 * Real.pi * i / q.length) ∧
        SettlesOn c mem k (θ i) (1 / (1 - loopGain k.feedback k.dampening (θ i))) ∧
        (k.dampening = 0 → θ i = 2 * Real.pi * i / q.length) ∧
        (0 < k.dampening → 2 * i < q.length → θ i < 2 * Real.pi * i / q.length)) ∧
      ∀ i j, 1 ≤ i → i < j → 2 * j ≤ q.length → 0 < k.dampening →
        1 / (1 - loopGain k.feedback k.dampening (θ j)) < 1 / (1 - loopGain k.feedback k.dampening (θ i)) := by
  have pp := Real.pi_pos
  have cast : ∀ i : ℕ, 2 * i ≤ q.length → 2 * Real.pi * i ≤ Real.pi * q.length := fun i hi => by
    have : (2 : ℝ) * i ≤ q.length := by exact_mod_cast hi
    nlinarith
  obtain ⟨θ, h1, h2⟩ := comb_partials h hd d0 d1 (by rw [abs_of_pos f0]; exact f1) f0.ne' (τ := fun i => 2 * Real.pi * i)
    (fun i hi => ⟨by have : (1 : ℝ) ≤ i := by exact_mod_cast hi
                     nlinarith, by
      have := tone_turn 0 i
      rw [add_zero] at this
      rw [this, abs_of_pos f0]; unfold tone; simp⟩)
    (fun i j hij => by
      have : (i : ℝ) + 1 ≤ j := by exact_mod_cast hij
      nlinarith)
  refine ⟨θ, fun i hi hl => ?_, fun i j hi hij hl dp => h2 i j hi hij (cast j hl) dp⟩
  obtain ⟨a, b, e, f⟩ := h1 i hi (cast i hl)
  refine ⟨by rwa [show 2 * Real.pi * ((i : ℝ) - 1 / 4) = 2 * Real.pi * i - Real.pi / 2 by ring], b, e, fun dp hlt => f dp ?_⟩
  have : (2 : ℝ) * i < q.length := by exact_mod_cast hlt
  nlinarith

/-- C185, negative feedback: the partials are the odd multiples of half that rate. -/
theorem C185_partials_odd {c : Cfg} {mem : Mem ℝ} {k : Comb ℝ} {q : List ℝ} (h : Holds c mem k.delayLine q) (hd : k.dampeningInverse = 1 - k.dampening)
    (d0 : 0 ≤ k.dampening) (d1 : k.dampening < 1) (f0 : k.feedback < 0) (f1 : -1 < k.feedback) :
    ∃ θ : ℕ → ℝ, (∀ i, 1 ≤ i → 2 * i - 1 ≤ q.length →
        θ i ∈ Set.Icc (2 * Real.pi * (i - 3 / 4) / q.length) (2 * Real.pi * (i - 1 / 2) / q.length) ∧
        SettlesOn c mem k (θ i) (1 / (1 - loopGain k.feedback k.dampening (θ i))) ∧
        (k.dampening = 0 → θ i = 2 * Real.pi * (i - 1 / 2) / q.length) ∧
        (0 < k.dampening → 2 * i - 1 < q.length → θ i < 2 * Real.pi * (i - 1 / 2) / q.length)) ∧
      ∀ i j, 1 ≤ i → i < j → 2 * j - 1 ≤ q.length → 0 < k.dampening →
        1 / (1 - loopGain k.feedback k.dampening (θ j)) < 1 / (1 - loopGain k.feedback k.dampening (θ i)) := by
  have pp := Real.pi_pos
  have cast : ∀ i : ℕ, 2 * i - 1 ≤ q.length → 2 * Real.pi * (i - 1 / 2) ≤ Real.pi * q.length := fun i hi => by
    have : (2 : ℝ) * i ≤ q.length + 1 := by exact_mod_cast (by omega : 2 * i ≤ q.length + 1)
    nlinarith
  obtain ⟨θ, h1, h2⟩ := comb_partials h hd d0 d1 (by rw [abs_of_neg f0]; linarith) f0.ne (τ := fun i => 2 * Real.pi * (i - 1 / 2))
    (fun i hi => ⟨by have : (1 : ℝ) ≤ i := by exact_mod_cast hi
                     nlinarith, by
      have := tone_turn (-Real.pi) i
      rw [show 2 * Real.pi * ((i : ℝ) - 1 / 2) = 2 * Real.pi * i + -Real.pi by ring, this, abs_of_neg f0]
      unfold tone
      push_cast
      rw [show -(Real.pi : ℂ) * Complex.I = -(Real.pi * Complex.I) by ring, Complex.exp_neg, Complex.exp_pi_mul_I]
      norm_num⟩)
    (fun i j hij => by
      have : (i : ℝ) + 1 ≤ j := by exact_mod_cast hij
      nlinarith)
  refine ⟨θ, fun i hi hl => ?_, fun i j hi hij hl dp => h2 i j hi hij (cast j hl) dp⟩
  obtain ⟨a, b, e, f⟩ := h1 i hi (cast i hl)
  refine ⟨by rwa [show 2 * Real.pi * ((i : ℝ) - 3 / 4) = 2 * Real.pi * (i - 1 / 2) - Real.pi / 2 by ring], b, e, fun dp hlt => f dp ?_⟩
  have : (2 : ℝ) * i < q.length + 1 := by exact_mod_cast (by omega : 2 * i < q.length + 1)
  nlinarith

/-- The strength a comb settles on is one number. -/
theorem strength_unique {c : Cfg} {mem : Mem ℝ} {k : Comb ℝ} {θ : ℝ} (hθ : Real.sin θ ≠ 0) {A B : ℝ} (a0 : 0 ≤ A) (b0 : 0 ≤ B)
    (hA : SettlesOn c mem k θ A) (hB : SettlesOn c mem k θ B) : A = B := by
  obtain ⟨φ, y, hy, ty⟩ := hA
  obtain ⟨χ, z, hz, tz⟩ := hB
  have hyz : y = z := funext fun n => by have := (hy n).symm.trans (hz n); simpa using this
  subst hyz
  obtain ⟨P, hP⟩ : ∃ P, P = A * Real.cos φ - B * Real.cos χ := ⟨_, rfl⟩
  obtain ⟨Q, hQ⟩ : ∃ Q, Q = A * Real.sin φ - B * Real.sin χ := ⟨_, rfl⟩
  have t := tz.sub ty
  rw [sub_zero] at t
  have t0 : Filter.Tendsto (fun n : ℕ => P * Real.cos (θ * n) - Q * Real.sin (θ * n)) Filter.atTop (nhds 0) := by
    refine t.congr fun n => ?_
    rw [Real.cos_add, Real.cos_add, hP, hQ]; ring
  have t1 := (Filter.tendsto_add_atTop_iff_nat 1).2 t0
  have t2 : Filter.Tendsto (fun n : ℕ => P * Real.sin (θ * n) + Q * Real.cos (θ * n)) Filter.atTop (nhds 0) := by
    have := ((t0.const_mul (Real.cos θ)).sub t1).const_mul (1 / Real.sin θ)
    rw [mul_zero, sub_zero, mul_zero] at this
    refine this.congr fun n => ?_
    push_cast
    rw [mul_add, mul_one, Real.cos_add, Real.sin_add]
    field_simp
    ring
  have t3 := (t0.pow 2).add (t2.pow 2)
  have hPQ : P ^ 2 + Q ^ 2 = 0 := by
    refine tendsto_nhds_unique (tendsto_const_nhds (x := P ^ 2 + Q ^ 2) (f := Filter.atTop (α := ℕ))) ?_
    have e : (0 : ℝ) ^ 2 + 0 ^ 2 = 0 := by norm_num
    rw [e] at t3
    refine t3.congr fun n => ?_
    have := Real.sin_sq_add_cos_sq (θ * n)
    linear_combination (P ^ 2 + Q ^ 2) * this
  have p0 : P = 0 := by nlinarith [sq_nonneg P, sq_nonneg Q]
  have q0 : Q = 0 := by nlinarith [sq_nonneg P, sq_nonneg Q]
  have h1 : A * Real.cos φ = B * Real.cos χ := by linarith
  have h2 : A * Real.sin φ = B * Real.sin χ := by linarith
  have s1 := Real.sin_sq_add_cos_sq φ
  have s2 := Real.sin_sq_add_cos_sq χ
  have : A ^ 2 = B ^ 2 := by
    linear_combination (-A ^ 2) * s1 + B ^ 2 * s2 + (A * Real.cos φ + B * Real.cos χ) * h1 + (A * Real.sin φ + B * Real.sin χ) * h2
  exact (sq_eq_sq₀ a0 b0).1 this

/-- C185: so no tone between 0 Hz and half the sample rate comes out stronger or weaker than that. -/
theorem C185_bound {c : Cfg} {mem : Mem ℝ} {k : Comb ℝ} {q : List ℝ} (h : Holds c mem k.delayLine q) (hd : k.dampeningInverse = 1 - k.dampening)
    (d0 : 0 ≤ k.dampening) (d1 : k.dampening < 1) (hfb : |k.feedback| < 1) {θ : ℝ} (t0 : 0 < θ) (t1 : θ < Real.pi) {A : ℝ} (a0 : 0 ≤ A)
    (hA : SettlesOn c mem k θ A) :
    1 / (1 + loopGain k.feedback k.dampening θ) ≤ A ∧ A ≤ 1 / (1 - loopGain k.feedback k.dampening θ) := by
  obtain ⟨B, hB, b1, b2⟩ := C185_strength h hd d0 d1 hfb θ
  have g0 := (loopGain_le d0 d1 k.feedback θ).1
  rw [strength_unique (Real.sin_pos_of_pos_of_lt_pi t0 t1).ne' a0 (le_trans (by positivity) b1) hA hB]
  exact ⟨b1, b2⟩

/-- Four silent samples. -/
def quietMem4 : Mem ℝ := fun b => if b = 0 then some [0, 0, 0, 0] else none
theorem quiet4_views : Views Cfg.release32 quietMem4 (MemorySlice.fromSlice 0 0 4) (List.replicate 4 0) :=
  ⟨0, [], [], rfl, rfl, rfl, by decide⟩

/-- A comb as made by `new` (dampening and feedback 1/2) over four silent samples: a tone at 0 Hz could be doubled, one at half the
sample rate raised by a fifth only, and its first partial lies below a quarter of the sample rate. -/
example : loopGain (1 / 2) (1 / 2) 0 = 1 / 2 ∧ loopGain (1 / 2) (1 / 2) Real.pi = 1 / 6 ∧
    ∃ θ < Real.pi / 2, SettlesOn Cfg.release32 quietMem4 (Comb.new (MemorySlice.fromSlice 0 0 4)) θ (1 / (1 - loopGain (1 / 2) (1 / 2) θ)) := by
  obtain ⟨-, a, b⟩ := C185_dampening (fb := 1 / 2) (d := 1 / 2) (by norm_num) (by norm_num) (by norm_num)
  refine ⟨by rw [a]; norm_num, by rw [b]; norm_num, ?_⟩
  have e1 : (Comb.new (MemorySlice.fromSlice 0 0 4) : Comb ℝ).feedback = 1 / 2 := by simp only [Comb.new, lit_exact]; push_cast; norm_num
  have e2 : (Comb.new (MemorySlice.fromSlice 0 0 4) : Comb ℝ).dampening = 1 / 2 := by simp only [Comb.new, lit_exact]; push_cast; norm_num
  have e3 : (Comb.new (MemorySlice.fromSlice 0 0 4) : Comb ℝ).dampeningInverse = 1 / 2 := by simp only [Comb.new, lit_exact]; push_cast; norm_num
  obtain ⟨θ, h1, -⟩ := C185_partials (k := Comb.new (MemorySlice.fromSlice 0 0 4)) (holds_new (c := Cfg.release32) quiet4_views (by simp)) (by rw [e2, e3]; norm_num)
    (by rw [e2]; norm_num) (by rw [e2]; norm_num) (by rw [e1]; norm_num) (by rw [e1]; norm_num)
  obtain ⟨-, h, -, hl⟩ := h1 1 le_rfl (by simp)
  rw [e1, e2] at h
  refine ⟨θ 1, lt_of_lt_of_eq (hl (by rw [e2]; norm_num) (by simp)) ?_, h⟩
  simp
  ring

end Verif
