import Verif.Props.CombSettings
import Verif.Props.Clear
import Verif.Props.Level

/-! # C205: a comb with a feedback of one or more

Below one a comb is stable (C22). At one it loses nothing: with no dampening it repeats its buffer for ever, bit for bit in floats, and with any
dampening below one the sum of what has gone in stays in it. At one or more no signal that goes on adding to it is held in bounds, and no click dies away. -/

namespace Verif
open Verif.F32

/-! ## Freezing the buffer -/

theorem add_z {x z : F32} (hx : x.isFin = true) (h0 : x.val ≠ 0) (hz : z.isFin = true ∧ z.val = 0) : x + z = x := by
  rw [add_fin hx hz.1, hz.2, add_zero, rnd_eq_self (isFin.not_nan hx) h0]

theorem z_add {x z : F32} (hx : x.isFin = true) (h0 : x.val ≠ 0) (hz : z.isFin = true ∧ z.val = 0) : z + x = x := by
  rw [add_fin hz.1 hx, hz.2, zero_add, rnd_eq_self (isFin.not_nan hx) h0]

/-- The same float, or zeros of any sign. -/
def SameSample (y x : F32) : Prop := y = x ∨ ((y.isFin = true ∧ y.val = 0) ∧ x.isFin = true ∧ x.val = 0)

theorem SameSample.trans {a b d : F32} (h : SameSample a b) (h' : SameSample b d) : SameSample a d := by
  rcases h with rfl | ⟨h1, h2⟩
  · exact h'
  · rcases h' with rfl | ⟨-, h4⟩
    · exact .inr ⟨h1, h2⟩
    · exact .inr ⟨h1, h4⟩

theorem SameSample.fin {a b : F32} (h : SameSample a b) (hb : b.isFin = true) : a.isFin = true := by
  rcases h with rfl | h
  · exact hb
  · exact h.1.1

/-- One round of the loop. -/
theorem freeze_step {x s : F32} (hx : x.isFin = true) (hs : s.isFin = true) :
    SameSample (x * lit 1 + s * lit 0) x ∧ SameSample (lit 0 + (x * lit 1 + s * lit 0) * lit 1) x := by
  have z0 : (lit 0 : F32).isFin = true ∧ (lit 0 : F32).val = 0 := ⟨lit0_fin, lit0_val⟩
  have zs := mul_zero_val hs z0.1 (.inr z0.2)
  rw [mul_one_bits hx]
  by_cases h : x.val = 0
  · have a := add_zero_val ⟨hx, h⟩ zs
    rw [mul_one_bits a.1]
    exact ⟨.inr ⟨a, hx, h⟩, .inr ⟨add_zero_val z0 a, hx, h⟩⟩
  · rw [add_z hx h zs, mul_one_bits hx, z_add hx h z0]
    exact ⟨.inl rfl, .inl rfl⟩

/-- C205: with no dampening, a feedback of one and no input, a comb whose samples are finite repeats them for ever, bit for bit (up to the sign of a zero),
at whatever moment and with whatever settings before it was frozen. -/
theorem C205_freeze {c : Cfg} {mem : Mem F32} {k : Comb F32} {q : List F32} (h : Holds c mem k.delayLine q) (hq : ∀ x ∈ q, x.isFin = true)
    (hs : k.filterState.isFin = true) (n : ℕ) :
    ∃ y, Comb.outAt c mem ((k.setDampening (lit 0)).setFeedback (lit 1)) (fun _ => lit 0) n = .ok y ∧
      SameSample y (q[n % q.length]'(Nat.mod_lt _ (List.length_pos_iff.2 h.ne_nil))) := by
  have hL : 0 < q.length := List.length_pos_iff.2 h.ne_nil
  obtain ⟨w, f, h1, hf0, hf, h2, h3⟩ := C20_comb (k := (k.setDampening (lit 0)).setFeedback (lit 1)) h (fun _ => lit 0)
  have d1 : ((k.setDampening (lit 0)).setFeedback (lit 1)).dampeningInverse = lit 1 := by
    change (lit 1 - lit 0 : F32) = lit 1
    decide +kernel
  have d0 : ((k.setDampening (lit 0)).setFeedback (lit 1)).dampening = lit 0 := rfl
  have g1 : ((k.setDampening (lit 0)).setFeedback (lit 1)).feedback = lit 1 := rfl
  have s0 : ((k.setDampening (lit 0)).setFeedback (lit 1)).filterState = k.filterState := rfl
  rw [d1, d0] at hf
  rw [g1] at h2
  rw [s0] at hf0
  have key : ∀ n, (f n).isFin = true ∧ ∀ i < n + q.length, SameSample (w i) (q[i % q.length]'(Nat.mod_lt _ hL)) := by
    intro n
    induction n with
    | zero =>
      refine ⟨by rw [hf0]; exact hs, fun i hi => .inl ?_⟩
      rw [h1 i (by omega)]
      simp only [Nat.mod_eq_of_lt (show i < q.length by omega)]
    | succ n ih =>
      obtain ⟨i1, i2⟩ := ih
      have e := i2 n (by omega)
      have wf : (w n).isFin = true := e.fin (hq _ (List.getElem_mem _))
      obtain ⟨a1, a2⟩ := freeze_step wf i1
      refine ⟨by rw [hf]; exact a1.fin wf, fun i hi => ?_⟩
      by_cases hc : i < n + q.length
      · exact i2 i hc
      · obtain rfl : i = n + q.length := by omega
        rw [h2, hf]
        simp only [Nat.add_mod_right]
        exact a2.trans e
  exact ⟨w n, h3 n, (key n).2 n (by omega)⟩

/-- C205 needs the filter state to be finite: an infinite one, times a dampening of zero, is NaN, and the frozen loop is lost. -/
theorem C205_infinite_state : (lit 1 * lit 1 + pack false infMag * lit 0 : F32).isNaN = true := by decide +kernel

/-! ## What is kept -/

section
variable {K : Type} [Field K]

/-- What a comb holds: the sum of its buffer, which is of the next `L` outputs, and its share in the filter. -/
def charge (L : ℕ) (d : K) (w f : ℕ → K) (n : ℕ) : K := ∑ j ∈ Finset.range L, w (n + j) + d / (1 - d) * f n

theorem charge_succ {L : ℕ} {d g : K} (hd : d ≠ 1) {w f inp : ℕ → K} (hf : ∀ n, f (n + 1) = w n * (1 - d) + f n * d)
    (hw : ∀ n, w (n + L) = inp n + f (n + 1) * g) (n : ℕ) : charge L d w f (n + 1) = charge L d w f n + inp n + (g - 1) * f (n + 1) := by
  have hd' : (1 - d) ≠ 0 := sub_ne_zero.2 hd.symm
  have hsum : ∑ j ∈ Finset.range L, w (n + 1 + j) + w n = ∑ j ∈ Finset.range L, w (n + j) + w (n + L) := by
    rw [← Finset.sum_range_succ (fun j => w (n + j)), Finset.sum_range_succ' (fun j => w (n + j))]
    simp only [add_zero]
    exact congrArg (· + w n) (Finset.sum_congr rfl fun j _ => congrArg w (by omega))
  have e : ∑ j ∈ Finset.range L, w (n + 1 + j) = ∑ j ∈ Finset.range L, w (n + j) + w (n + L) - w n := by rw [← hsum]; ring
  rw [charge, charge, e, hw, hf]
  field_simp
  ring

/-- C205: at a feedback of one, and any dampening but one, everything that goes into a comb stays in it: the sum of the next `L` outputs and the share of the
filter, `d/(1-d)` of its state, is what it was at first and the sum of all inputs since. -/
theorem C205_kept {c : Cfg} {mem : Mem K} {k : Comb K} {q : List K} {d : K} (h : Holds c mem k.delayLine q) (hd : d ≠ 1) (inp : ℕ → K) :
    ∃ w f : ℕ → K, (∀ n, Comb.outAt c mem ((k.setDampening d).setFeedback 1) inp n = .ok (w n)) ∧ f 0 = k.filterState ∧
      (∀ n, f (n + 1) = w n * (1 - d) + f n * d) ∧
      ∀ n, charge q.length d w f n = q.sum + d / (1 - d) * k.filterState + ∑ i ∈ Finset.range n, inp i := by
  obtain ⟨w, f, h1, hf0, hf, h2, h3⟩ := C20_comb (k := (k.setDampening d).setFeedback 1) h inp
  have hf' : ∀ n, f (n + 1) = w n * (1 - d) + f n * d := fun n => by
    rw [hf]; simp [Comb.setDampening, Comb.setFeedback, Lit.lit]
  have h2' : ∀ n, w (n + q.length) = inp n + f (n + 1) * 1 := h2
  have hf0' : f 0 = k.filterState := hf0
  refine ⟨w, f, h3, hf0', hf', fun n => ?_⟩
  induction n with
  | zero =>
    rw [charge, hf0', Finset.range_zero, Finset.sum_empty, add_zero]
    congr 1
    rw [Finset.sum_range, ← Fin.sum_univ_getElem]
    exact Finset.sum_congr rfl fun i _ => by simpa using h1 i i.2
  | succ n ih => rw [charge_succ hd hf' h2', ih, Finset.sum_range_succ]; ring

end

/-! ## Beyond one -/

section
variable {L : ℕ} {d g : ℝ} {w f inp : ℕ → ℝ}

theorem comb_nonneg (hL : 0 < L) (d0 : 0 ≤ d) (d1 : d < 1) (g1 : 1 ≤ g) (h1 : ∀ n < L, w n = 0) (hf0 : f 0 = 0)
    (hf : ∀ n, f (n + 1) = w n * (1 - d) + f n * d) (hw : ∀ n, w (n + L) = inp n + f (n + 1) * g) (hi : ∀ n, 0 ≤ inp n) :
    (∀ n, 0 ≤ f n) ∧ ∀ n, 0 ≤ w n := by
  have key : ∀ n, 0 ≤ f n ∧ ∀ i < n + L, 0 ≤ w i := by
    intro n
    induction n with
    | zero => exact ⟨hf0.ge, fun i hi => (h1 i (by omega)).ge⟩
    | succ n ih =>
      obtain ⟨i1, i2⟩ := ih
      have a : 0 ≤ f (n + 1) := by
        rw [hf]; exact add_nonneg (mul_nonneg (i2 n (by omega)) (by linarith)) (mul_nonneg i1 d0)
      refine ⟨a, fun i hi' => ?_⟩
      by_cases hc : i < n + L
      · exact i2 i hc
      · obtain rfl : i = n + L := by omega
        rw [hw]; exact add_nonneg (hi n) (mul_nonneg a (by linarith))
  exact ⟨fun n => (key n).1, fun n => (key n).2 n (by omega)⟩

theorem charge_ge (hL : 0 < L) (d0 : 0 ≤ d) (d1 : d < 1) (g1 : 1 ≤ g) (h1 : ∀ n < L, w n = 0) (hf0 : f 0 = 0)
    (hf : ∀ n, f (n + 1) = w n * (1 - d) + f n * d) (hw : ∀ n, w (n + L) = inp n + f (n + 1) * g) (hi : ∀ n, 0 ≤ inp n) (n : ℕ) :
    ∑ i ∈ Finset.range n, inp i ≤ charge L d w f n := by
  obtain ⟨nf, -⟩ := comb_nonneg hL d0 d1 g1 h1 hf0 hf hw hi
  induction n with
  | zero =>
    rw [charge, hf0, Finset.sum_congr rfl fun j hj => h1 (0 + j) (by simpa using hj)]
    simp
  | succ n ih =>
    rw [charge_succ d1.ne hf hw, Finset.sum_range_succ]
    nlinarith [nf (n + 1)]

theorem silent_comb {c : Cfg} {mem : Mem ℝ} {s : MemorySlice} (hL : 0 < L) (hv : Views c mem s (List.replicate L 0)) (d g : ℝ) (inp : ℕ → ℝ) :
    ∃ w f : ℕ → ℝ, (∀ n < L, w n = 0) ∧ f 0 = 0 ∧ (∀ n, f (n + 1) = w n * (1 - d) + f n * d) ∧ (∀ n, w (n + L) = inp n + f (n + 1) * g) ∧
      ∀ n, Comb.outAt c mem (setComb s d g) inp n = .ok (w n) := by
  have h : Holds c mem (setComb s d g).delayLine (List.replicate L 0) := holds_new hv (by simp; omega)
  obtain ⟨w, f, h1, hf0, hf, h2, h3⟩ := C20_comb h inp
  simp only [List.length_replicate, List.getElem_replicate] at h1 h2
  refine ⟨w, f, h1, ?_, fun n => ?_, h2, h3⟩
  · rw [hf0]; simp [setComb, Comb.new, Comb.setDampening, Comb.setFeedback, Lit.lit]
  · rw [hf]; simp [setComb, Comb.setDampening, Comb.setFeedback, Lit.lit]

/-- C205: with a feedback of one or more, whatever the dampening below one, a signal that is never negative and whose sum grows without bound, such as any
positive constant, drives the output of a silent comb beyond every bound. -/
theorem C205_unbounded {c : Cfg} {mem : Mem ℝ} {s : MemorySlice} (hL : 0 < L) (hv : Views c mem s (List.replicate L 0))
    (d0 : 0 ≤ d) (d1 : d < 1) (g1 : 1 ≤ g) (hi : ∀ n, 0 ≤ inp n) (hu : ∀ B, ∃ n, B < ∑ i ∈ Finset.range n, inp i) (B : ℝ) :
    ∃ n y, Comb.outAt c mem (setComb s d g) inp n = .ok y ∧ B < y := by
  obtain ⟨w, f, h1, hf0, hf, hw, hout⟩ := silent_comb hL hv d g inp
  by_contra hc
  push Not at hc
  have wB : ∀ n, w n ≤ B := fun n => hc n _ (hout n)
  have B0 : 0 ≤ B := (h1 0 hL).symm.le.trans (wB 0)
  have fB : ∀ n, f n ≤ B := by
    intro n
    induction n with
    | zero => rw [hf0]; exact B0
    | succ n ih => rw [hf]; nlinarith [wB n]
  have cd : 0 ≤ d / (1 - d) := div_nonneg d0 (by linarith)
  obtain ⟨n, hn⟩ := hu (L * B + d / (1 - d) * B)
  have := charge_ge hL d0 d1 g1 h1 hf0 hf hw hi n
  have le : charge L d w f n ≤ L * B + d / (1 - d) * B := by
    refine add_le_add ?_ (mul_le_mul_of_nonneg_left (fB n) cd)
    refine (Finset.sum_le_sum fun j _ => wB (n + j)).trans ?_
    simp
  linarith

/-- C205: nor does a click in a silent comb with such a feedback ever die away. -/
theorem C205_never_dies {c : Cfg} {mem : Mem ℝ} {s : MemorySlice} (hL : 0 < L) (hv : Views c mem s (List.replicate L 0))
    (d0 : 0 ≤ d) (d1 : d < 1) (g1 : 1 ≤ g) : ∃ ε > 0, ∀ N, ∃ n ≥ N, ∃ y, Comb.outAt c mem (setComb s d g) impulse n = .ok y ∧ ε < y := by
  obtain ⟨w, f, h1, hf0, hf, hw, hout⟩ := silent_comb hL hv d g impulse
  have hi : ∀ n, (0 : ℝ) ≤ impulse n := fun n => by unfold impulse; split <;> norm_num
  obtain ⟨nf, nw⟩ := comb_nonneg hL d0 d1 g1 h1 hf0 hf hw hi
  have cd : 0 ≤ d / (1 - d) := div_nonneg d0 (by linarith)
  have Lr : (0 : ℝ) < L := by exact_mod_cast hL
  obtain ⟨T, hT⟩ : ∃ T, T = (L : ℝ) + d / (1 - d) * 2 := ⟨_, rfl⟩
  have T0 : 0 < T := by rw [hT]; positivity
  refine ⟨1 / (2 * T), by positivity, fun N => ?_⟩
  obtain ⟨ε, hε⟩ : ∃ ε, ε = 1 / (2 * T) := ⟨_, rfl⟩
  have ε0 : 0 < ε := by rw [hε]; positivity
  rw [← hε]
  by_contra hc
  push Not at hc
  have wB : ∀ n ≥ N, w n ≤ ε := fun n hn => hc n hn _ (hout n)
  have fB : ∀ k, f (N + k) ≤ ε + d ^ k * f N := by
    intro k
    induction k with
    | zero => simp [ε0.le]
    | succ k ih =>
      rw [← add_assoc, hf, pow_succ]
      nlinarith [wB (N + k) (by omega), mul_le_mul_of_nonneg_right ih d0]
  obtain ⟨k, hk⟩ : ∃ k, d ^ k * f N < ε := by
    obtain ⟨k, hk⟩ := exists_pow_lt_of_lt_one (show 0 < ε / (f N + 1) from div_pos ε0 (by linarith [nf N])) d1
    refine ⟨k, ?_⟩
    rw [lt_div_iff₀ (by linarith [nf N])] at hk
    nlinarith [pow_nonneg d0 k]
  have hk' : d ^ (k + 1) * f N < ε := by
    rw [pow_succ]
    nlinarith [mul_nonneg (pow_nonneg d0 k) (nf N)]
  have le : charge L d w f (N + (k + 1)) ≤ T * ε := by
    have a : ∑ j ∈ Finset.range L, w (N + (k + 1) + j) ≤ L * ε := by
      refine (Finset.sum_le_sum fun j _ => wB (N + (k + 1) + j) (by omega)).trans ?_
      simp
    have b : d / (1 - d) * f (N + (k + 1)) ≤ d / (1 - d) * (2 * ε) := mul_le_mul_of_nonneg_left (by linarith [fB (k + 1)]) cd
    rw [charge, hT]
    nlinarith
  have ge := charge_ge hL d0 d1 g1 h1 hf0 hf hw hi (N + (k + 1))
  have one : ∑ i ∈ Finset.range (N + (k + 1)), (impulse i : ℝ) = 1 := by
    rw [Finset.sum_eq_single 0]
    · simp [impulse]
    · intro b _ hb; simp [impulse, hb]
    · intro h; exact absurd (Finset.mem_range.2 (by omega)) h
  have : T * ε = 1 / 2 := by rw [hε]; field_simp
  linarith

end

/-- A loop of two floats, frozen: the hundred and first output is the second of them. -/
example (c : Cfg) (mem : Mem F32) (k : Comb F32) (h : Holds c mem k.delayLine [lit (1/2), lit (-3)]) (hs : k.filterState.isFin = true) :
    ∃ y, Comb.outAt c mem ((k.setDampening (lit 0)).setFeedback (lit 1)) (fun _ => lit 0) 101 = .ok y ∧ SameSample y (lit (-3)) :=
  C205_freeze h (by decide +kernel) hs 101

/-- A comb of one sample, feedback one, half dampening, fed with ones. -/
example (B : ℝ) : ∃ n y, Comb.outAt Cfg.debug64 (fun b => if b = 0 then some [0] else none) (setComb (MemorySlice.fromSlice 0 0 1) (1/2) 1) (fun _ => (1 : ℝ)) n = .ok y ∧ B < y :=
  C205_unbounded (L := 1) one_pos ⟨0, [], [], rfl, rfl, rfl, by decide⟩ (by norm_num) (by norm_num) le_rfl (fun _ => zero_le_one)
    (fun B => by obtain ⟨n, hn⟩ := exists_nat_gt B; exact ⟨n, by simpa using hn⟩) B

end Verif
