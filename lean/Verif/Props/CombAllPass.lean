import Mathlib.Analysis.SpecificLimits.Basic
import Verif.Lemmas.Trace
import Verif.F32.More

/-! # C20-C26: comb and all-pass filters -/

namespace Verif
open F32

section generic
variable {α : Type} [Add α] [Sub α] [Mul α] [Neg α] [Lit α] {c : Cfg} {mem : Mem α} {q : List α}

/-! ## C20 -/

omit [Sub α] [Neg α] in
/-- C20, for any arithmetic (so in particular bit for bit in `f32`): the outputs `w` of the ticks are the initial
buffer followed, `L` ticks later, by input plus feedback times the low-passed output `f`. -/
theorem C20_comb {k : Comb α} (h : Holds c mem k.delayLine q) (inp : ℕ → α) :
    ∃ w f : ℕ → α, (∀ n (hn : n < q.length), w n = q[n]) ∧ f 0 = k.filterState ∧
      (∀ n, f (n + 1) = w n * k.dampeningInverse + f n * k.dampening) ∧
      (∀ n, w (n + q.length) = inp n + f (n + 1) * k.feedback) ∧
      ∀ n, Comb.outAt c mem k inp n = .ok (w n) := by
  obtain ⟨Q, f, v, hne, hQ0, hf0, hQ, hf, hv, -, hout⟩ := Comb.run_spec h inp
  obtain ⟨w, hw1, hw2, hw3⟩ := queue_seq Q v (hne 0) hQ
  rw [hQ0] at hw2
  refine ⟨w, f, fun n hn => ?_, hf0, fun n => ?_, fun n => (hw2 n).trans (hv n), fun n => ?_⟩
  · subst hQ0; exact hw1 n hn
  · rw [hf n, queue_head (hne n) (hw3 n)]
  · rw [hout n, queue_head (hne n) (hw3 n)]

/-! ## C24 -/

omit [Sub α] in
/-- C24, for any arithmetic: output and stored value of the all-pass. -/
theorem C24_all_pass {k : AllPass} (h : Holds c mem k.delayLine q) (inp : ℕ → α) :
    ∃ w : ℕ → α, (∀ n (hn : n < q.length), w n = q[n]) ∧
      (∀ n, w (n + q.length) = inp n + w n * lit (1/2)) ∧
      ∀ n, AllPass.outAt c mem k inp n = .ok (-inp n + w n) := by
  obtain ⟨Q, hne, hQ0, hQ, -, hout⟩ := AllPass.run_spec h inp
  obtain ⟨w, hw1, hw2, hw3⟩ := queue_seq Q _ (hne 0) hQ
  rw [hQ0] at hw2
  refine ⟨w, fun n hn => ?_, fun n => ?_, fun n => ?_⟩
  · subst hQ0; exact hw1 n hn
  · rw [hw2 n, queue_head (hne n) (hw3 n)]
  · rw [hout n, queue_head (hne n) (hw3 n)]

end generic

/-- Strong induction in strides of `L ≥ 1`. -/
theorem stride_induction {P : ℕ → Prop} {L : ℕ} (hL : 0 < L) (base : ∀ n < L, P n) (step : ∀ n, P n → P (n + L)) :
    ∀ n, P n := by
  intro n
  induction n using Nat.strong_induction_on with
  | _ n ih =>
    by_cases h : n < L
    · exact base n h
    · have := step (n - L) (ih (n - L) (by omega))
      rwa [Nat.sub_add_cancel (by omega)] at this

/-! ## C21, C25: bounds in float arithmetic -/

theorem add_bound {x y b : F32} (hx : x.isFin = true) (hy : y.isFin = true) (hb : b.isFin = true)
    (h : |x.val| + |y.val| ≤ |b.val|) : (x + y).isFin = true ∧ |(x + y).val| ≤ |b.val| := by
  rw [add_fin hx hy]
  have := (abs_add_le x.val y.val).trans h
  exact ⟨rnd_fin hb this, rnd_abs_le this⟩

theorem mul_bound {x y b : F32} (hx : x.isFin = true) (hy : y.isFin = true) (hb : b.isFin = true)
    (h : |x.val| * |y.val| ≤ |b.val|) : (x * y).isFin = true ∧ |(x * y).val| ≤ |b.val| := by
  rw [mul_fin hx hy]
  have : |x.val * y.val| ≤ |b.val| := by rw [abs_mul]; exact h
  exact ⟨rnd_fin hb this, rnd_abs_le this⟩

/-- C21: with the constructor's settings, from a silent buffer, inputs up to `b` give outputs up to `2b`, forever. -/
theorem C21_comb_bounded {c : Cfg} {mem : Mem F32} {s : MemorySlice} {L : ℕ} (hL : 0 < L)
    (h : Views c mem s (List.replicate L (lit 0))) {inp : ℕ → F32} {b : F32} (hb : b.isFin = true) (hb0 : 0 ≤ b.val)
    (h2b : Rep (2 * b.val)) (hin : ∀ n, (inp n).isFin = true ∧ |(inp n).val| ≤ b.val) (n : ℕ) :
    ∃ y, Comb.outAt c mem (Comb.new s) inp n = .ok y ∧ y.isFin = true ∧ |y.val| ≤ 2 * b.val := by
  have hne : List.replicate L (lit 0 : F32) ≠ [] := by
    intro h0; have := congrArg List.length h0; simp at this; omega
  obtain ⟨w, f, hw0, hf0, hf, hw, hout⟩ := C20_comb (k := Comb.new s) (holds_new h hne) inp
  obtain ⟨bb, hbbf, hbbv⟩ := h2b
  have hbabs : |b.val| = b.val := abs_of_nonneg hb0
  have hbbabs : |bb.val| = 2 * b.val := by rw [hbbv, abs_of_nonneg (by linarith)]
  have half : |(lit (1/2) : F32).val| = 1/2 := by rw [lithalf_val]; norm_num
  simp only [Comb.new, List.length_replicate] at hf0 hf hw hw0
  -- one step of the filter state
  have fstep : ∀ x g : F32, x.isFin = true → |x.val| ≤ 2 * b.val → g.isFin = true → |g.val| ≤ 2 * b.val →
      (x * lit (1/2) + g * lit (1/2)).isFin = true ∧ |(x * lit (1/2) + g * lit (1/2)).val| ≤ 2 * b.val := by
    intro x g hx hxb hg hgb
    obtain ⟨p1, p2⟩ := mul_bound hx lithalf_fin hb (by rw [half, hbabs]; linarith)
    obtain ⟨r1, r2⟩ := mul_bound hg lithalf_fin hb (by rw [half, hbabs]; linarith)
    have := add_bound p1 r1 hbbf (by rw [hbbabs]; rw [hbabs] at p2 r2; linarith)
    rwa [hbbabs] at this
  have key : ∀ n, ((f n).isFin = true ∧ |(f n).val| ≤ 2 * b.val) ∧
      ∀ m < n + L, (w m).isFin = true ∧ |(w m).val| ≤ 2 * b.val := by
    intro n
    induction n with
    | zero =>
      refine ⟨?_, fun m hm => ?_⟩
      · rw [hf0, lit0_val, abs_zero]; exact ⟨lit0_fin, by linarith⟩
      · rw [hw0 m (by omega), List.getElem_replicate, lit0_val, abs_zero]; exact ⟨lit0_fin, by linarith⟩
    | succ n ih =>
      obtain ⟨⟨f1, f2⟩, hwm⟩ := ih
      obtain ⟨w1, w2⟩ := hwm n (by omega)
      have hf' := fstep (w n) (f n) w1 w2 f1 f2
      rw [← hf n] at hf'
      refine ⟨hf', fun m hm => ?_⟩
      by_cases hlt : m < n + L
      · exact hwm m hlt
      · have : m = n + L := by omega
        subst this
        rw [hw n]
        obtain ⟨p1, p2⟩ := mul_bound hf'.1 lithalf_fin hb (by rw [half, hbabs]; linarith [hf'.2])
        have := add_bound (hin n).1 p1 hbbf (by rw [hbbabs]; rw [hbabs] at p2; linarith [(hin n).2])
        rwa [hbbabs] at this
  exact ⟨w n, hout n, ((key n).2 n (by omega)).1, ((key n).2 n (by omega)).2⟩

/-- C25: from a silent buffer, inputs up to `b` give all-pass outputs up to `3b` (rounded), forever. -/
theorem C25_all_pass_bounded {c : Cfg} {mem : Mem F32} {s : MemorySlice} {L : ℕ} (hL : 0 < L)
    (h : Views c mem s (List.replicate L (lit 0))) {inp : ℕ → F32} {b : F32} (hb : b.isFin = true) (hb0 : 0 ≤ b.val)
    (h2b : Rep (2 * b.val)) (h3b : (ofRat (3 * b.val)).isFin = true)
    (hin : ∀ n, (inp n).isFin = true ∧ |(inp n).val| ≤ b.val) (n : ℕ) :
    ∃ y, AllPass.outAt c mem (AllPass.new s) inp n = .ok y ∧ y.isFin = true ∧ |y.val| ≤ (ofRat (3 * b.val)).val := by
  have hne : List.replicate L (lit 0 : F32) ≠ [] := by
    intro h0; have := congrArg List.length h0; simp at this; omega
  obtain ⟨w, hw0, hw, hout⟩ := C24_all_pass (k := AllPass.new s) (holds_new h hne) inp
  obtain ⟨bb, hbbf, hbbv⟩ := h2b
  have hbabs : |b.val| = b.val := abs_of_nonneg hb0
  have hbbabs : |bb.val| = 2 * b.val := by rw [hbbv, abs_of_nonneg (by linarith)]
  have half : |(lit (1/2) : F32).val| = 1/2 := by rw [lithalf_val]; norm_num
  simp only [List.length_replicate] at hw hw0
  have key : ∀ n, (w n).isFin = true ∧ |(w n).val| ≤ 2 * b.val := by
    refine stride_induction (P := fun n => (w n).isFin = true ∧ |(w n).val| ≤ 2 * b.val) hL ?_ ?_
    · intro m hm
      rw [hw0 m hm, List.getElem_replicate, lit0_val, abs_zero]; exact ⟨lit0_fin, by linarith⟩
    · rintro m ⟨w1, w2⟩
      rw [hw m]
      obtain ⟨p1, p2⟩ := mul_bound w1 lithalf_fin hb (by rw [half, hbabs]; linarith)
      have := add_bound (hin m).1 p1 hbbf (by rw [hbbabs]; rw [hbabs] at p2; linarith [(hin m).2])
      rwa [hbbabs] at this
  refine ⟨_, hout n, ?_⟩
  have hneg : (-inp n).isFin = true := by simpa using (hin n).1
  have hle : |(-inp n).val + (w n).val| ≤ 3 * b.val := by
    refine (abs_add_le _ _).trans ?_
    rw [val_neg', abs_neg]; linarith [(hin n).2, (key n).2]
  rw [add_fin hneg (key n).1]
  have h3 := abs_le.1 hle
  have hv : |(rnd ((-inp n).neg && (w n).neg) ((-inp n).val + (w n).val)).val| ≤ (ofRat (3 * b.val)).val := by
    rw [abs_le]; constructor
    · have := rnd_mono (s := true) (t := (-inp n).neg && (w n).neg) h3.1
      rw [rnd_val_odd true false] at this; exact this
    · exact rnd_mono h3.2
  exact ⟨isFin_of_abs_le (by rw [abs_of_nonneg (a := (ofRat (3 * b.val)).val) ((abs_nonneg _).trans hv)]; exact hv) h3b, hv⟩

/-- Two silent cells inside a block of four. -/
def quietMem : Mem F32 := fun b => if b = 0 then some [lit 1, lit 0, lit 0, lit 1] else none
def quietSlice : MemorySlice := MemorySlice.fromSlice 0 1 2

theorem quiet_views : Views Cfg.release32 quietMem quietSlice (List.replicate 2 (lit 0)) :=
  ⟨0, [lit 1], [lit 1], rfl, rfl, rfl, by decide⟩

-- alternating full-scale input, bound 1
example : Views Cfg.release32 quietMem quietSlice (List.replicate 2 (lit 0)) ∧ (lit 1 : F32).isFin = true ∧
    0 ≤ (lit 1 : F32).val ∧ Rep (2 * (lit 1 : F32).val) ∧ (ofRat (3 * (lit 1 : F32).val)).isFin = true ∧
    (∀ n : ℕ, (if n % 2 = 0 then lit 1 else lit (-1) : F32).isFin = true ∧
      |(if n % 2 = 0 then lit 1 else lit (-1) : F32).val| ≤ (lit 1 : F32).val) ∧
    Comb.outAt Cfg.release32 quietMem (Comb.new quietSlice) (fun n => if n % 2 = 0 then lit 1 else lit (-1)) 3
      = .ok (lit (-1)) ∧
    AllPass.outAt Cfg.release32 quietMem (AllPass.new quietSlice) (fun n => if n % 2 = 0 then lit 1 else lit (-1)) 5
      = .ok (lit (-1/2)) := by
  refine ⟨quiet_views, lit1_fin, by simp, by rw [lit1_val, mul_one]; exact rep_two, by decide +kernel, fun n => ?_, ?_, ?_⟩
  · split <;> simp
  · decide +kernel
  · decide +kernel

/-! ## C22, C23: exact arithmetic -/

section exact
variable {K : Type} [Field K] [LinearOrder K] [IsStrictOrderedRing K]

/-- Literals in exact arithmetic are themselves. -/
theorem lit_exact {K : Type} [Field K] (x : ℚ) : (lit x : K) = (x : K) := rfl

/-- C22: `dampening ∈ [0,1]`, `|feedback| < 1`, inputs up to `b`: outputs up to `b / (1 - |feedback|)`, forever. -/
theorem C22_comb_stable {c : Cfg} {mem : Mem K} {s : MemorySlice} {L : ℕ} (hL : 0 < L)
    (h : Views c mem s (List.replicate L 0)) {damp fb b : K} (hd0 : 0 ≤ damp) (hd1 : damp ≤ 1) (hfb : |fb| < 1)
    {inp : ℕ → K} (hin : ∀ n, |inp n| ≤ b) (n : ℕ) :
    ∃ y, Comb.outAt c mem (((Comb.new s).setDampening damp).setFeedback fb) inp n = .ok y ∧ |y| ≤ b / (1 - |fb|) := by
  have hne : List.replicate L (0 : K) ≠ [] := by
    intro h0; have := congrArg List.length h0; simp at this; omega
  obtain ⟨w, f, hw0, hf0, hf, hw, hout⟩ := C20_comb (k := ((Comb.new s).setDampening damp).setFeedback fb)
    (holds_new h hne) inp
  simp only [Comb.new, Comb.setDampening, Comb.setFeedback, List.length_replicate, lit_exact, Rat.cast_zero,
    Rat.cast_one] at hf0 hf hw hw0
  have hb0 : 0 ≤ b := (abs_nonneg _).trans (hin 0)
  have h1 : 0 < 1 - |fb| := by linarith
  set B := b / (1 - |fb|) with hB
  have hB0 : 0 ≤ B := div_nonneg hb0 h1.le
  have hBe : b + B * |fb| = B := by rw [hB]; field_simp; ring
  have key : ∀ n, |f n| ≤ B ∧ ∀ m < n + L, |w m| ≤ B := by
    intro n
    induction n with
    | zero =>
      refine ⟨by rw [hf0, abs_zero]; exact hB0, fun m hm => ?_⟩
      rw [hw0 m (by omega), List.getElem_replicate, abs_zero]; exact hB0
    | succ n ih =>
      obtain ⟨f1, hwm⟩ := ih
      have w1 := hwm n (by omega)
      have hf' : |f (n + 1)| ≤ B := by
        rw [hf n]
        refine (abs_add_le _ _).trans ?_
        rw [abs_mul, abs_mul, abs_of_nonneg hd0, abs_of_nonneg (by linarith : 0 ≤ 1 - damp)]
        nlinarith [mul_le_mul_of_nonneg_right w1 (by linarith : 0 ≤ 1 - damp), mul_le_mul_of_nonneg_right f1 hd0]
      refine ⟨hf', fun m hm => ?_⟩
      by_cases hlt : m < n + L
      · exact hwm m hlt
      · have : m = n + L := by omega
        subst this
        rw [hw n]
        refine (abs_add_le _ _).trans ?_
        rw [abs_mul]
        have := mul_le_mul_of_nonneg_right hf' (abs_nonneg fb)
        linarith [hin n]
  exact ⟨w n, hout n, (key n).2 n (by omega)⟩

/-- C23: with dampening 0 the comb is `y[n+L] = x[n] + feedback * y[n]`. -/
theorem C23_comb_echo {K : Type} [Field K] {c : Cfg} {mem : Mem K} {s : MemorySlice} {xs : List K} (hx : xs ≠ [])
    (h : Views c mem s xs) (fb : K) (inp : ℕ → K) :
    ∃ y : ℕ → K, (∀ n, Comb.outAt c mem (((Comb.new s).setDampening 0).setFeedback fb) inp n = .ok (y n)) ∧
      (∀ n (hn : n < xs.length), y n = xs[n]) ∧ ∀ n, y (n + xs.length) = inp n + fb * y n := by
  obtain ⟨w, f, hw0, hf0, hf, hw, hout⟩ := C20_comb (k := ((Comb.new s).setDampening (0 : K)).setFeedback fb)
    (holds_new h hx) inp
  simp only [Comb.new, Comb.setDampening, Comb.setFeedback, lit_exact, Rat.cast_zero, Rat.cast_one, sub_zero,
    mul_one, mul_zero, add_zero] at hf0 hf hw hw0
  exact ⟨w, hout, hw0, fun n => by rw [hw n, hf n, mul_comm]⟩

/-- C23: an impulse into a silent buffer comes back as `feedback^k` at `(k+1)L`, and nothing in between. -/
theorem C23_comb_impulse {K : Type} [Field K] {c : Cfg} {mem : Mem K} {s : MemorySlice} {L : ℕ} (hL : 0 < L)
    (h : Views c mem s (List.replicate L 0)) (fb : K) :
    (∀ k : ℕ, Comb.outAt c mem (((Comb.new s).setDampening 0).setFeedback fb) (fun n => if n = 0 then 1 else 0)
      ((k + 1) * L) = .ok (fb ^ k)) ∧
    (∀ n, (∀ k : ℕ, n ≠ (k + 1) * L) →
      Comb.outAt c mem (((Comb.new s).setDampening 0).setFeedback fb) (fun n => if n = 0 then 1 else 0) n = .ok 0) := by
  have hne : List.replicate L (0 : K) ≠ [] := by
    intro h0; have := congrArg List.length h0; simp at this; omega
  obtain ⟨y, hout, hy0, hy⟩ := C23_comb_echo hne h fb (fun n => if n = 0 then 1 else 0)
  simp only [List.length_replicate, List.getElem_replicate] at hy0 hy
  constructor
  · intro k
    rw [hout]
    congr 1
    induction k with
    | zero =>
      have := hy 0
      rw [hy0 0 hL] at this
      simpa using this
    | succ k ih =>
      have := hy ((k + 1) * L)
      rw [ih, if_neg (by positivity)] at this
      rw [show (k + 1 + 1) * L = (k + 1) * L + L by ring, this]; ring
  · intro n hn
    rw [hout]
    congr 1
    have key : ∀ n, (∀ k : ℕ, n ≠ (k + 1) * L) → y n = 0 := by
      refine stride_induction (P := fun n => (∀ k : ℕ, n ≠ (k + 1) * L) → y n = 0) hL ?_ ?_
      · intro n hn _; exact hy0 n hn
      · intro n ih hn
        rw [hy n]
        have hn0 : n ≠ 0 := by rintro rfl; exact hn 0 (by ring)
        rw [if_neg hn0, ih (fun k hk => hn (k + 1) (by rw [hk]; ring))]; simp
    exact key n hn

/-- C24 in exact arithmetic: the difference equation of the output. -/
theorem C24_difference_equation {K : Type} [Field K] [CharZero K] {c : Cfg} {mem : Mem K} {k : AllPass} {q : List K}
    (h : Holds c mem k.delayLine q) (x : ℕ → K) :
    ∃ y : ℕ → K, (∀ n, AllPass.outAt c mem k x n = .ok (y n)) ∧ (∀ n (hn : n < q.length), y n = - x n + q[n]) ∧
      ∀ n, y (n + q.length) - y n / 2 = - x (n + q.length) + 3 / 2 * x n := by
  obtain ⟨w, hw0, hw, hout⟩ := C24_all_pass h x
  refine ⟨_, hout, fun n hn => by rw [hw0 n hn], fun n => ?_⟩
  simp only [hw n, lit_exact]
  push_cast
  field_simp
  ring

end exact

/-! ## C26 -/

/-- The impulse response of the all-pass from a silent buffer: `-1` at 0, then `2^-k` at `(k+1)L`. -/
theorem all_pass_impulse {c : Cfg} {mem : Mem ℝ} {s : MemorySlice} {L : ℕ} (hL : 0 < L)
    (h : Views c mem s (List.replicate L 0)) :
    ∃ y : ℕ → ℝ, (∀ n, AllPass.outAt c mem (AllPass.new s) (fun n => if n = 0 then 1 else 0) n = .ok (y n)) ∧
      y 0 = -1 ∧ (∀ k : ℕ, y ((k + 1) * L) = (1 / 2) ^ k) ∧ ∀ n, n ≠ 0 → (∀ k : ℕ, n ≠ (k + 1) * L) → y n = 0 := by
  have hne : List.replicate L (0 : ℝ) ≠ [] := by
    intro h0; have := congrArg List.length h0; simp at this; omega
  obtain ⟨w, hw0, hw, hout⟩ := C24_all_pass (k := AllPass.new s) (holds_new h hne)
    (fun n => if n = 0 then (1:ℝ) else 0)
  simp only [List.length_replicate, List.getElem_replicate, lit_exact] at hw hw0
  have hwk : ∀ k : ℕ, w ((k + 1) * L) = (1 / 2) ^ k := by
    intro k
    induction k with
    | zero => have := hw 0; rw [hw0 0 hL] at this; simpa using this
    | succ k ih =>
      have := hw ((k + 1) * L)
      rw [ih, if_neg (by positivity)] at this
      rw [show (k + 1 + 1) * L = (k + 1) * L + L by ring, this]; push_cast; ring
  have hwz : ∀ n, (∀ k : ℕ, n ≠ (k + 1) * L) → w n = 0 := by
    refine stride_induction (P := fun n => (∀ k : ℕ, n ≠ (k + 1) * L) → w n = 0) hL ?_ ?_
    · intro n hn _; exact hw0 n hn
    · intro n ih hn
      have hn0 : n ≠ 0 := by rintro rfl; exact hn 0 (by ring)
      rw [hw n, if_neg hn0, ih (fun k hk => hn (k + 1) (by rw [hk]; ring))]; simp
  refine ⟨_, hout, ?_, ?_, ?_⟩
  · rw [hw0 0 hL]; simp
  · intro k; rw [if_neg (by positivity), hwk k]; simp
  · intro n hn hk; rw [if_neg hn, hwz n hk]; simp

/-- C26 is false: for EVERY buffer length the impulse response has energy 7/3, not 1. -/
theorem C26_all_pass_energy_refuted {c : Cfg} {mem : Mem ℝ} {s : MemorySlice} {L : ℕ} (hL : 0 < L)
    (h : Views c mem s (List.replicate L 0)) :
    ∃ y : ℕ → ℝ, (∀ n, AllPass.outAt c mem (AllPass.new s) (fun n => if n = 0 then 1 else 0) n = .ok (y n)) ∧
      HasSum (fun n => y n ^ 2) (7 / 3) ∧ ¬ HasSum (fun n => y n ^ 2) 1 := by
  obtain ⟨y, hout, hy0, hyk, hyz⟩ := all_pass_impulse hL h
  have hinj : Function.Injective (fun k : ℕ => k * L) := fun a b hab => Nat.eq_of_mul_eq_mul_right hL hab
  have hs : HasSum (fun n => y n ^ 2) (7 / 3) := by
    rw [← hinj.hasSum_iff (f := fun n => y n ^ 2) (by
      intro n hn
      have hn' : ∀ k : ℕ, n ≠ k * L := fun k hk => hn ⟨k, hk.symm⟩
      rw [hyz n (fun h0 => hn' 0 (by simpa using h0)) (fun k => hn' (k + 1))]
      norm_num)]
    rw [← hasSum_nat_add_iff' 1]
    simp only [Finset.sum_range_one, Function.comp, zero_mul, hy0]
    have h4 : (fun n => y ((n + 1) * L) ^ 2) = fun n : ℕ => ((1:ℝ) / 4) ^ n := by
      funext n; rw [hyk n, ← pow_mul, mul_comm n 2, pow_mul]; norm_num
    rw [h4]
    have := hasSum_geometric_of_lt_one (r := (1:ℝ) / 4) (by norm_num) (by norm_num)
    have e : (7:ℝ) / 3 - (-1) ^ 2 = (1 - 1 / 4)⁻¹ := by norm_num
    rw [e]; exact this
  refine ⟨y, hout, hs, fun h1 => ?_⟩
  have := hs.unique h1
  norm_num at this

/-- What is true of C26: the gain at DC is 1 (a constant input converges to itself), again for every length. -/
theorem C26_dc_gain_partial {c : Cfg} {mem : Mem ℝ} {s : MemorySlice} {L : ℕ} (hL : 0 < L)
    (h : Views c mem s (List.replicate L 0)) (a : ℝ) :
    ∃ y : ℕ → ℝ, (∀ n, AllPass.outAt c mem (AllPass.new s) (fun _ => a) n = .ok (y n)) ∧
      ∀ (m r : ℕ), r < L → y (m * L + r) = a - a * 2 * (1 / 2) ^ m := by
  have hne : List.replicate L (0 : ℝ) ≠ [] := by
    intro h0; have := congrArg List.length h0; simp at this; omega
  obtain ⟨w, hw0, hw, hout⟩ := C24_all_pass (k := AllPass.new s) (holds_new h hne) (fun _ => a)
  simp only [List.length_replicate, List.getElem_replicate, lit_exact] at hw hw0
  refine ⟨_, hout, fun m r hr => ?_⟩
  have : w (m * L + r) = 2 * a - a * 2 * (1 / 2) ^ m := by
    induction m with
    | zero => rw [Nat.zero_mul, Nat.zero_add, hw0 r hr]; ring
    | succ m ih =>
      rw [show (m + 1) * L + r = m * L + r + L by ring, hw, ih]; push_cast; ring
  rw [this]; ring

/-- Silent real-valued memory. -/
def quietMemR : Mem ℝ := fun b => if b = 0 then some [0, 0] else none
theorem quietR_views : Views Cfg.release32 quietMemR (MemorySlice.fromSlice 0 0 2) (List.replicate 2 0) :=
  ⟨0, [], [], rfl, rfl, rfl, by decide⟩

example : Views Cfg.release32 quietMemR (MemorySlice.fromSlice 0 0 2) (List.replicate 2 0) ∧ (0:ℝ) ≤ 1/3 ∧ (1/3:ℝ) ≤ 1 ∧
    |(-9/10 : ℝ)| < 1 ∧ ∀ n : ℕ, |(if n = 0 then 1 else 0 : ℝ)| ≤ 1 :=
  ⟨quietR_views, by norm_num, by norm_num, by norm_num, fun n => by split <;> simp⟩

end Verif
