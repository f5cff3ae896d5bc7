import Verif.Props.CombFloat
import Verif.Props.CombPartials

/-! # C186: a comb or all-pass run in floats answers a tone as the exact one does -/

namespace Verif
open F32

/-- Where one delay line fits, another of the same length with any contents does. -/
theorem twin {α β : Type} {c : Cfg} {mem : Mem α} {dl : DelayLine} {q : List α} (h : Holds c mem dl q) {xs : List β} (hx : xs.length = q.length) :
    ∃ mem' : Mem β, Holds c mem' (DelayLine.new (MemorySlice.fromSlice 0 0 xs.length)) xs := by
  obtain ⟨ys, ⟨b, pre, post, -, -, -, hl⟩, hi, hq⟩ := id h
  have e : q.length = ys.length := by rw [hq, List.length_append, List.length_drop, List.length_take]; omega
  refine ⟨fun _ => some xs, holds_new ⟨0, [], [], rfl, rfl, by simp, ?_⟩ ?_⟩
  · simp only [List.nil_append, List.append_nil, List.length_append] at hl ⊢
    push_cast at hl
    rw [hx, e]; omega
  · intro h0; rw [h0] at hx; exact h.ne_nil (List.length_eq_zero_iff.1 hx.symm)

/-- Two combs with equal settings and contents and inputs that differ by at most `ε`. -/
theorem comb_inputs_near {w f w' f' : ℕ → ℝ} {x x' : ℕ → ℝ} {L : ℕ} (hL : 0 < L) {fb d ε : ℝ} (hfb : |fb| < 1) (d0 : 0 ≤ d) (d1 : d ≤ 1)
    (h0 : ∀ n < L, w n = w' n) (hf0 : f 0 = f' 0)
    (hf : ∀ n, f (n + 1) = w n * (1 - d) + f n * d) (hw : ∀ n, w (n + L) = x n + f (n + 1) * fb)
    (hf' : ∀ n, f' (n + 1) = w' n * (1 - d) + f' n * d) (hw' : ∀ n, w' (n + L) = x' n + f' (n + 1) * fb)
    (hx : ∀ n, |x n - x' n| ≤ ε) (n : ℕ) : |w n - w' n| ≤ ε / (1 - |fb|) := by
  have e0 : 0 ≤ ε := (abs_nonneg _).trans (hx 0)
  have h1 : 0 < 1 - |fb| := by linarith
  obtain ⟨B, hB⟩ : ∃ B, B = ε / (1 - |fb|) := ⟨_, rfl⟩
  have hB0 : 0 ≤ B := by rw [hB]; exact div_nonneg e0 h1.le
  have hBe : ε + B * |fb| = B := by rw [hB]; field_simp; ring
  have key : ∀ n, |f n - f' n| ≤ B ∧ ∀ m < n + L, |w m - w' m| ≤ B := by
    intro n
    induction n with
    | zero => exact ⟨by rw [hf0, sub_self, abs_zero]; exact hB0, fun m hm => by rw [h0 m (by omega), sub_self, abs_zero]; exact hB0⟩
    | succ n ih =>
      obtain ⟨f1, hwm⟩ := ih
      have w1 := hwm n
      have hfn : |f (n + 1) - f' (n + 1)| ≤ B := by
        rw [hf n, hf' n, show w n * (1 - d) + f n * d - (w' n * (1 - d) + f' n * d) = (w n - w' n) * (1 - d) + (f n - f' n) * d by ring]
        refine (abs_add_le _ _).trans ?_
        rw [abs_mul, abs_mul, abs_of_nonneg d0, abs_of_nonneg (by linarith : 0 ≤ 1 - d)]
        nlinarith [mul_le_mul_of_nonneg_right (w1 (by omega)) (by linarith : 0 ≤ 1 - d), mul_le_mul_of_nonneg_right f1 d0]
      refine ⟨hfn, fun m hm => ?_⟩
      by_cases hlt : m < n + L
      · exact hwm m hlt
      · obtain rfl : m = n + L := by omega
        rw [hw n, hw' n, show x n + f (n + 1) * fb - (x' n + f' (n + 1) * fb) = (x n - x' n) + (f (n + 1) - f' (n + 1)) * fb by ring]
        refine (abs_add_le _ _).trans ?_
        rw [abs_mul]
        have := mul_le_mul_of_nonneg_right hfn (abs_nonneg fb)
        linarith [hx n]
  rw [← hB]
  exact (key (n + 1)).2 n (by omega)

/-- C186, comb: fed floats within `ε` of a tone of amplitude `a`, a comb in float arithmetic ends up within the stated distance of
the tone scaled and shifted by the comb's transfer function. -/
theorem C186_comb {c : Cfg} {mem : Mem F32} {k : Comb F32} {q : List F32} (h : Holds c mem k.delayLine q)
    (hd : k.dampeningInverse = lit 1 - k.dampening) {e : ℕ} (he : e ≤ 98) (hq : ∀ x ∈ q, x.isFin = true ∧ |x.val| ≤ 2 ^ e)
    (hs : k.filterState.isFin = true ∧ |k.filterState.val| ≤ 2 ^ e)
    (hdamp : k.dampening.isFin = true ∧ 0 ≤ k.dampening.val ∧ k.dampening.val < 1)
    (hfb : k.feedback.isFin = true ∧ |k.feedback.val| < 1) {inp : ℕ → F32} (hin : ∀ n, (inp n).isFin = true)
    (hroom : ∀ n, |(inp n).val| + 2 ^ e * |k.feedback.val| ≤ 2 ^ e)
    {θ a ε : ℝ} (ht : ∀ n : ℕ, |((inp n).val : ℝ) - a * Real.cos (θ * n)| ≤ ε) {η : ℝ} (hη : 0 < η) :
    ∃ y : ℕ → F32, (∀ n, Comb.outAt c mem k inp n = .ok (y n) ∧ (y n).isFin = true) ∧ ∃ N, ∀ n ≥ N,
      |((y n).val : ℝ) - a * ‖combGain q.length k.feedback.val k.dampening.val (tone θ)‖ *
        Real.cos (θ * n + (combGain q.length k.feedback.val k.dampening.val (tone θ)).arg)| ≤
      ε / (1 - |(k.feedback.val : ℝ)|) + 2 ^ e / 2 ^ 21 / ((1 - k.dampening.val) * (1 - |(k.feedback.val : ℝ)|)) + η := by
  obtain ⟨w, f, hw0, hf0, hf, hw, hout⟩ := C20_comb h inp
  rw [hd] at hf
  obtain ⟨m1, h1⟩ := twin h (xs := q.map val) (by simp)
  obtain ⟨w1, f1, hw01, hf01, hf1, hw1, -⟩ := C20_comb (k := ⟨_, k.feedback.val, k.filterState.val, k.dampening.val, 1 - k.dampening.val⟩) h1 (fun n => (inp n).val)
  obtain ⟨m2, h2⟩ := twin h (xs := q.map (fun x => (x.val : ℝ))) (by simp)
  have hL : 0 < q.length := List.length_pos_iff.2 h.ne_nil
  have d0 : (0 : ℝ) ≤ k.dampening.val := by exact_mod_cast hdamp.2.1
  have d1 : (k.dampening.val : ℝ) < 1 := by exact_mod_cast hdamp.2.2
  have b1 : |(k.feedback.val : ℝ)| < 1 := by exact_mod_cast hfb.2
  obtain ⟨y2, hy2, t2⟩ := C137_comb (k := ⟨_, k.feedback.val, k.filterState.val, k.dampening.val, 1 - k.dampening.val⟩) h2 rfl d0 d1 b1 θ
  obtain ⟨w2, f2, -, -, hf2, hw2, hout2⟩ := C20_comb (k := ⟨_, (k.feedback.val : ℝ), k.filterState.val, k.dampening.val, 1 - k.dampening.val⟩) h2
    (fun n => Real.cos (θ * n))
  have e2 : y2 = w2 := funext fun n => by have := (hy2 n).symm.trans (hout2 n); simpa using this
  subst e2
  obtain ⟨w3, f3, hw03, hf03, hf3, hw3, -⟩ := C20_comb (k := ⟨_, (k.feedback.val : ℝ), k.filterState.val, k.dampening.val, 1 - k.dampening.val⟩) h2
    (fun n => a * Real.cos (θ * n))
  simp only [List.length_map] at hw01 hw1 hw2 hw03 hw3 t2 hf1 hf2 hf3 hf01 hf03
  have near := comb_seq_near h.ne_nil hw0 hf hw (w' := w1) (f' := f1) (damp := fun _ => k.dampening) (fb := fun _ => k.feedback)
    (fun n hn => by rw [hw01 n hn, List.getElem_map]) (by rw [hf01, hf0]) hf1 hw1 he hq (by rw [hf0]; exact hs) hdamp.2.2 hfb.2
    (fun _ => ⟨hdamp.1, hdamp.2.1, le_rfl⟩) (fun _ => ⟨hfb.1, le_rfl⟩) hin hroom
  have close := comb_inputs_near (w := fun n => (w1 n : ℝ)) (f := fun n => (f1 n : ℝ)) (x := fun n => ((inp n).val : ℝ)) (w' := w3) (f' := f3)
    (x' := fun n => a * Real.cos (θ * n)) hL b1 d0 d1.le (fun n hn => by rw [hw01 n hn, hw03 n hn, List.getElem_map, List.getElem_map])
    (by rw [hf01, hf03]) (fun n => by rw [hf1 n]; push_cast; ring) (fun n => by rw [hw1 n]; push_cast; ring) hf3 hw3 ht
  have free := comb_free (w := fun n => w3 n - a * y2 n) (f := fun n => f3 n - a * f2 n) hL b1 d0 d1
    (fun n => by rw [hf3 n, hf2 n]; ring) (fun n => by rw [hw3 n, hw2 n]; ring)
  have lim := free.add (t2.const_mul a)
  rw [mul_zero, add_zero] at lim
  obtain ⟨N, hN⟩ := Metric.tendsto_atTop.1 lim η hη
  refine ⟨w, fun n => ⟨hout n, (near n).1⟩, N, fun n hn => ?_⟩
  have g1 := (Rat.cast_le (K := ℝ)).2 (near n).2
  push_cast at g1
  have g2 := close n
  have g3 := hN n hn
  rw [Real.dist_eq, sub_zero] at g3
  obtain ⟨S, hS⟩ : ∃ S, S = a * ‖combGain q.length k.feedback.val k.dampening.val (tone θ)‖ *
        Real.cos (θ * n + (combGain q.length k.feedback.val k.dampening.val (tone θ)).arg) := ⟨_, rfl⟩
  rw [← hS]
  have g4 : |w3 n - S| < η := by
    rw [hS]; convert g3 using 2; ring
  have := (abs_sub_le (((w n).val : ℝ)) (w1 n) S).trans (add_le_add_right (abs_sub_le (w1 n : ℝ) (w3 n) S) _)
  linarith

/-- A tone turned by whole turns (`fb > 0`) or half a turn more (`fb < 0`) on its way round has the largest gain. -/
theorem gain_at {L : ℕ} (hL : 0 < L) {fb d : ℝ} (hfb : |fb| < 1) (d0 : 0 ≤ d) (d1 : d < 1) {τ : ℝ} (t0 : 0 ≤ τ) (t1 : τ ≤ Real.pi * L)
    (ht : (fb : ℂ) = |fb| * tone τ) :
    ∃ θ ∈ Set.Icc ((τ - Real.pi / 2) / L) (τ / L), ‖combGain L fb d (tone θ)‖ = 1 / (1 - loopGain fb d θ) := by
  obtain ⟨θ, h1, h2, -⟩ := trip_meets hL d0 d1 t0 t1
  refine ⟨θ, h1, ?_⟩
  have g1 := (loopGain_le d0 d1 fb θ).2
  rw [in_step L d0 d1 (by
    have : tone θ ^ L = tone τ * tone (-poleLag d θ) := by
      rw [tone_pow]; unfold tone
      rw [← Complex.exp_add, ← h2]
      push_cast; ring_nf
    rw [this]
    linear_combination tone (-poleLag d θ) * ht), norm_div, norm_mul, norm_pow, tone_norm, one_pow, mul_one, norm_one, Complex.norm_real, Real.norm_eq_abs,
    abs_of_pos (by linarith)]

/-- C186, partials: at the partials of C185 the float comb raises a tone by `1/(1 - g)`, up to the error of `C186_comb`. -/
theorem C186_partials {c : Cfg} {mem : Mem F32} {k : Comb F32} {q : List F32} (h : Holds c mem k.delayLine q)
    (hd : k.dampeningInverse = lit 1 - k.dampening) {e : ℕ} (he : e ≤ 98) (hq : ∀ x ∈ q, x.isFin = true ∧ |x.val| ≤ 2 ^ e)
    (hs : k.filterState.isFin = true ∧ |k.filterState.val| ≤ 2 ^ e)
    (hdamp : k.dampening.isFin = true ∧ 0 ≤ k.dampening.val ∧ k.dampening.val < 1)
    (hfb : k.feedback.isFin = true ∧ 0 < k.feedback.val ∧ k.feedback.val < 1) {i : ℕ} (hi : 2 * i ≤ q.length) :
    ∃ θ ∈ Set.Icc (2 * Real.pi * (i - 1 / 4) / q.length) (2 * Real.pi * i / q.length), ∃ φ : ℝ,
      ∀ {inp : ℕ → F32} {a ε η : ℝ}, (∀ n, (inp n).isFin = true) → (∀ n, |(inp n).val| + 2 ^ e * k.feedback.val ≤ 2 ^ e) →
        (∀ n : ℕ, |((inp n).val : ℝ) - a * Real.cos (θ * n)| ≤ ε) → 0 < η →
        ∃ y : ℕ → F32, (∀ n, Comb.outAt c mem k inp n = .ok (y n) ∧ (y n).isFin = true) ∧ ∃ N, ∀ n ≥ N,
          |((y n).val : ℝ) - a / (1 - loopGain k.feedback.val k.dampening.val θ) * Real.cos (θ * n + φ)| ≤
          ε / (1 - k.feedback.val) + 2 ^ e / 2 ^ 21 / ((1 - k.dampening.val) * (1 - k.feedback.val)) + η := by
  have hL : 0 < q.length := List.length_pos_iff.2 h.ne_nil
  have d0 : (0 : ℝ) ≤ k.dampening.val := by exact_mod_cast hdamp.2.1
  have d1 : (k.dampening.val : ℝ) < 1 := by exact_mod_cast hdamp.2.2
  have f0 : (0 : ℝ) < k.feedback.val := by exact_mod_cast hfb.2.1
  have f1 : (k.feedback.val : ℝ) < 1 := by exact_mod_cast hfb.2.2
  have pp := Real.pi_pos
  have li : (2 : ℝ) * i ≤ q.length := by exact_mod_cast hi
  obtain ⟨θ, hθ, hg⟩ := gain_at hL (fb := k.feedback.val) (d := k.dampening.val) (by rw [abs_of_pos f0]; exact f1) d0 d1 (τ := 2 * Real.pi * i)
    (by positivity) (by nlinarith) (by
      have := tone_turn 0 i
      rw [add_zero] at this
      rw [this, abs_of_pos f0]; unfold tone; simp)
  refine ⟨θ, by rwa [show 2 * Real.pi * ((i : ℝ) - 1 / 4) = 2 * Real.pi * i - Real.pi / 2 by ring],
    (combGain q.length k.feedback.val k.dampening.val (tone θ)).arg, fun {inp a ε η} hin hroom ht hη => ?_⟩
  obtain ⟨y, hy, N, hN⟩ := C186_comb h hd he hq hs hdamp ⟨hfb.1, by rw [abs_of_pos hfb.2.1]; exact hfb.2.2⟩ hin
    (by rw [abs_of_pos hfb.2.1]; exact hroom) ht hη
  refine ⟨y, hy, N, fun n hn => ?_⟩
  have := hN n hn
  rwa [hg, abs_of_pos f0, mul_one_div] at this

/-- C186, all-pass: the same for the all-pass, whose transfer function is the one of C137. -/
theorem C186_all_pass {c : Cfg} {mem : Mem F32} {k : AllPass} {q : List F32} (h : Holds c mem k.delayLine q)
    {e : ℕ} (he : e ≤ 98) (hq : ∀ x ∈ q, x.isFin = true ∧ |x.val| ≤ 2 ^ (e + 1)) {inp : ℕ → F32}
    (hin : ∀ n, (inp n).isFin = true ∧ |(inp n).val| ≤ 2 ^ e)
    {θ a ε : ℝ} (ht : ∀ n : ℕ, |((inp n).val : ℝ) - a * Real.cos (θ * n)| ≤ ε) {η : ℝ} (hη : 0 < η) :
    ∃ y : ℕ → F32, (∀ n, AllPass.outAt c mem k inp n = .ok (y n) ∧ (y n).isFin = true) ∧ ∃ N, ∀ n ≥ N,
      |((y n).val : ℝ) - a * ‖allPassGain q.length (tone θ)‖ * Real.cos (θ * n + (allPassGain q.length (tone θ)).arg)| ≤
      3 * ε + 2 ^ e / 2 ^ 20 + η := by
  have hL : 0 < q.length := List.length_pos_iff.2 h.ne_nil
  obtain ⟨m1, h1⟩ := twin h (xs := q.map val) (by simp)
  obtain ⟨m2, h2⟩ := twin h (xs := q.map (fun x => (x.val : ℝ))) (by simp)
  choose y y' hy hy' fin near using fun n => C125_all_pass (k' := ⟨_⟩) h h1 he hq hin n
  obtain ⟨w1, hw01, hw1, hout1⟩ := C24_all_pass (k := ⟨_⟩) h1 (fun n => (inp n).val)
  obtain ⟨y2, hy2, t2⟩ := C137_all_pass (k := ⟨_⟩) h2 θ
  obtain ⟨w2, -, hw2, hout2⟩ := C24_all_pass (k := ⟨_⟩) h2 (fun n => Real.cos (θ * n))
  obtain ⟨w3, hw03, hw3, -⟩ := C24_all_pass (k := ⟨_⟩) h2 (fun n => a * Real.cos (θ * n))
  have e1 : ∀ n, y' n = -(inp n).val + w1 n := fun n => by have := (hy' n).symm.trans (hout1 n); simpa using this
  have e2 : ∀ n : ℕ, y2 n = -Real.cos (θ * n) + w2 n := fun n => by have := (hy2 n).symm.trans (hout2 n); simpa using this
  simp only [List.length_map, lit_exact] at hw01 hw1 hw2 hw03 hw3 t2
  push_cast at hw1 hw2 hw3
  have close : ∀ n, |(w1 n : ℝ) - w3 n| ≤ ε / (1 - |(1 / 2 : ℝ)|) := comb_inputs_near (w := fun n => (w1 n : ℝ)) (f := fun n => match n with | 0 => 0 | n + 1 => (w1 n : ℝ))
    (x := fun n => ((inp n).val : ℝ)) (w' := w3) (f' := fun n => match n with | 0 => 0 | n + 1 => w3 n) (x' := fun n => a * Real.cos (θ * n))
    hL (fb := 1 / 2) (d := 0) (by rw [abs_of_pos] <;> norm_num) le_rfl zero_le_one
    (fun n hn => by rw [hw01 n hn, hw03 n hn, List.getElem_map, List.getElem_map]) rfl
    (fun n => by simp) (fun n => by rw [hw1 n]; push_cast; ring) (fun n => by simp) (fun n => by rw [hw3 n]) ht
  have free := comb_free (w := fun n => w3 n - a * w2 n) (f := fun n => match n with | 0 => 0 | n + 1 => w3 n - a * w2 n) hL (fb := 1 / 2) (d := 0)
    (by rw [abs_of_pos] <;> norm_num) le_rfl one_pos (fun n => by simp) (fun n => by rw [hw3 n, hw2 n]; ring)
  have lim := free.add (t2.const_mul a)
  rw [mul_zero, add_zero] at lim
  obtain ⟨N, hN⟩ := Metric.tendsto_atTop.1 lim η hη
  refine ⟨y, fun n => ⟨hy n, fin n⟩, N, fun n hn => ?_⟩
  have g1 := (Rat.cast_le (K := ℝ)).2 (near n)
  rw [e1 n] at g1
  push_cast at g1
  have g2 := close n
  rw [abs_of_pos (show (0 : ℝ) < 1 / 2 by norm_num)] at g2
  have g3 := hN n hn
  rw [Real.dist_eq, sub_zero, e2 n] at g3
  have g4 := ht n
  obtain ⟨S, hS⟩ : ∃ S, S = a * ‖allPassGain q.length (tone θ)‖ * Real.cos (θ * n + (allPassGain q.length (tone θ)).arg) := ⟨_, rfl⟩
  rw [← hS]
  have g5 : |w3 n - a * Real.cos (θ * n) - S| < η := by
    rw [hS]; convert g3 using 2; ring
  have e6 : ε / (1 - 1 / 2) = 2 * ε := by ring
  rw [e6] at g2
  rw [abs_le] at g1 g2 g4 ⊢
  rw [abs_lt] at g5
  constructor <;> linarith [g1.1, g1.2, g2.1, g2.2, g4.1, g4.2, g5.1, g5.2]

/-- A comb as made by `new` over two silent samples, fed ones for ever (the tone of 0 Hz), ends up near 2. -/
example : ∃ y : ℕ → F32, (∀ n, Comb.outAt Cfg.release32 quietMem (Comb.new quietSlice) (fun _ => lit 1) n = .ok (y n) ∧ (y n).isFin = true) ∧
    ∃ N, ∀ n ≥ N, |((y n).val : ℝ) - 2| ≤ 1 / 2 ^ 17 := by
  have hs : (lit 0 : F32).isFin = true ∧ |(lit 0 : F32).val| ≤ 2 ^ 1 := ⟨lit0_fin, by rw [lit0_val]; norm_num⟩
  obtain ⟨y, hy, N, hN⟩ := C186_comb (k := Comb.new quietSlice) (holds_new (c := Cfg.release32) quiet_views (by simp)) (by decide +kernel) (e := 1) (by norm_num)
    (fun x hx => by rw [List.eq_of_mem_replicate hx]; exact hs) hs
    (show (lit (1/2) : F32).isFin = true ∧ 0 ≤ (lit (1/2) : F32).val ∧ (lit (1/2) : F32).val < 1 from ⟨lithalf_fin, by rw [lithalf_val]; norm_num, by rw [lithalf_val]; norm_num⟩)
    (show (lit (1/2) : F32).isFin = true ∧ |(lit (1/2) : F32).val| < 1 from ⟨lithalf_fin, by rw [lithalf_val, abs_of_pos] <;> norm_num⟩)
    (inp := fun _ => lit 1) (fun _ => lit1_fin)
    (fun _ => by show |(lit 1 : F32).val| + 2 ^ 1 * |(lit (1/2) : F32).val| ≤ 2 ^ 1
                 rw [lit1_val, lithalf_val, abs_of_pos (show (0:ℚ) < 1/2 by norm_num)]; norm_num)
    (θ := 0) (a := 1) (ε := 0) (fun n => by rw [lit1_val]; simp) (η := 1 / 2 ^ 18) (by positivity)
  refine ⟨y, hy, N, fun n hn => ?_⟩
  have := hN n hn
  have e : ((lit (1/2) : F32).val : ℝ) = 1 / 2 := by rw [lithalf_val]; norm_num
  have eg : combGain 2 (1 / 2) (1 / 2) (tone 0) = (2 : ℝ) := by
    unfold combGain tone; norm_num
  change |_ - 1 * ‖combGain 2 ((lit (1/2) : F32).val : ℝ) ((lit (1/2) : F32).val : ℝ) (tone 0)‖ *
    Real.cos (0 * n + (combGain 2 ((lit (1/2) : F32).val : ℝ) ((lit (1/2) : F32).val : ℝ) (tone 0)).arg)| ≤
    0 / (1 - |((lit (1/2) : F32).val : ℝ)|) + 2 ^ 1 / 2 ^ 21 / ((1 - ((lit (1/2) : F32).val : ℝ)) * (1 - |((lit (1/2) : F32).val : ℝ)|)) + 1 / 2 ^ 18 at this
  rw [e, eg, Complex.norm_real, Complex.arg_ofReal_of_nonneg (by norm_num), abs_of_pos (show (0:ℝ) < 1/2 by norm_num)] at this
  norm_num at this ⊢
  exact this

end Verif
