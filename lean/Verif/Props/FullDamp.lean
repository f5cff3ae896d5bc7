import Verif.Props.Freeze

/-! # C206: a comb with a dampening of one

Its filter is stuck: what it held when the dampening was set goes, times the feedback, into every sample from then on. Only from a filter at rest is the comb a
plain delay line. -/

namespace Verif
open Verif.F32

/-- C206, exact arithmetic: the input comes back after the length of the buffer, with a constant added. -/
theorem C206_exact {K : Type} [Field K] {c : Cfg} {mem : Mem K} {k : Comb K} {q : List K} (h : Holds c mem k.delayLine q) (inp : ℕ → K) :
    (∀ n (hn : n < q.length), Comb.outAt c mem (k.setDampening 1) inp n = .ok q[n]) ∧
    ∀ n, Comb.outAt c mem (k.setDampening 1) inp (n + q.length) = .ok (inp n + k.filterState * k.feedback) := by
  obtain ⟨w, f, h1, hf0, hf, h2, h3⟩ := C20_comb (k := k.setDampening 1) h inp
  have stuck : ∀ n, f n = k.filterState := by
    intro n
    induction n with
    | zero => exact hf0
    | succ n ih => rw [hf, ih]; simp [Comb.setDampening, Lit.lit]
  exact ⟨fun n hn => by rw [h3, h1 n hn], fun n => by rw [h3, h2, stuck]; rfl⟩

/-- What full dampening makes of the settings. -/
theorem full_damp (k : Comb F32) : (k.setDampening (lit 1)).dampeningInverse = lit 0 ∧ (k.setDampening (lit 1)).dampening = lit 1 :=
  ⟨by change (lit 1 - lit 1 : F32) = lit 0; decide +kernel, rfl⟩

/-- C206 in floats, bit for bit, for a filter state other than zero, as long as nothing overflows. -/
theorem C206_float {c : Cfg} {mem : Mem F32} {k : Comb F32} {q : List F32} (h : Holds c mem k.delayLine q) (hq : ∀ x ∈ q, x.isFin = true)
    (hs : k.filterState.isFin = true) (h0 : k.filterState.val ≠ 0) {inp : ℕ → F32} (hi : ∀ n, (inp n + k.filterState * k.feedback).isFin = true) :
    (∀ n (hn : n < q.length), Comb.outAt c mem (k.setDampening (lit 1)) inp n = .ok q[n]) ∧
    ∀ n, Comb.outAt c mem (k.setDampening (lit 1)) inp (n + q.length) = .ok (inp n + k.filterState * k.feedback) := by
  have hL : 0 < q.length := List.length_pos_iff.2 h.ne_nil
  obtain ⟨w, f, h1, hf0, hf, h2, h3⟩ := C20_comb (k := k.setDampening (lit 1)) h inp
  obtain ⟨e1, e2⟩ := full_damp k
  rw [e1, e2] at hf
  have key : ∀ n, f n = k.filterState ∧ ∀ i < n + q.length, (w i).isFin = true := by
    intro n
    induction n with
    | zero => exact ⟨hf0, fun i hi' => by rw [h1 i (by omega)]; exact hq _ (List.getElem_mem _)⟩
    | succ n ih =>
      obtain ⟨i1, i2⟩ := ih
      have st : f (n + 1) = k.filterState := by
        rw [hf, i1, mul_one_bits hs, z_add hs h0 (mul_zero_val (i2 n (by omega)) lit0_fin (.inr lit0_val))]
      refine ⟨st, fun i hi' => ?_⟩
      by_cases hc : i < n + q.length
      · exact i2 i hc
      · obtain rfl : i = n + q.length := by omega
        rw [h2, st]; exact hi n
  exact ⟨fun n hn => by rw [h3, h1 n hn], fun n => by rw [h3, h2, (key (n + 1)).1]; rfl⟩

/-- C206 in floats from a filter at rest: a delay line, bit for bit up to the sign of a zero, whatever the feedback. -/
theorem C206_delay {c : Cfg} {mem : Mem F32} {k : Comb F32} {q : List F32} (h : Holds c mem k.delayLine q) (hq : ∀ x ∈ q, x.isFin = true)
    (hs : k.filterState.isFin = true ∧ k.filterState.val = 0) (hg : k.feedback.isFin = true) {inp : ℕ → F32} (hi : ∀ n, (inp n).isFin = true) :
    (∀ n (hn : n < q.length), Comb.outAt c mem (k.setDampening (lit 1)) inp n = .ok q[n]) ∧
    ∀ n, ∃ y, Comb.outAt c mem (k.setDampening (lit 1)) inp (n + q.length) = .ok y ∧ SameSample y (inp n) := by
  obtain ⟨w, f, h1, hf0, hf, h2, h3⟩ := C20_comb (k := k.setDampening (lit 1)) h inp
  obtain ⟨e1, e2⟩ := full_damp k
  rw [e1, e2] at hf
  have hL : 0 < q.length := List.length_pos_iff.2 h.ne_nil
  have echo : ∀ n, (f (n + 1)).isFin = true ∧ (f (n + 1)).val = 0 → SameSample (w (n + q.length)) (inp n) := by
    intro n hz
    have z : (f (n + 1) * k.feedback).isFin = true ∧ (f (n + 1) * k.feedback).val = 0 := mul_zero_val hz.1 hg (.inl hz.2)
    have e : w (n + q.length) = inp n + f (n + 1) * k.feedback := h2 n
    rw [e]
    by_cases hx : (inp n).val = 0
    · exact .inr ⟨add_zero_val ⟨hi n, hx⟩ z, hi n, hx⟩
    · exact .inl (add_z (hi n) hx z)
  have key : ∀ n, ((f n).isFin = true ∧ (f n).val = 0) ∧ ∀ i < n + q.length, (w i).isFin = true := by
    intro n
    induction n with
    | zero => exact ⟨by rw [hf0]; exact hs, fun i hi' => by rw [h1 i (by omega)]; exact hq _ (List.getElem_mem _)⟩
    | succ n ih =>
      obtain ⟨i1, i2⟩ := ih
      have st : (f (n + 1)).isFin = true ∧ (f (n + 1)).val = 0 := by
        rw [hf, mul_one_bits i1.1]
        exact add_zero_val (mul_zero_val (i2 n (by omega)) lit0_fin (.inr lit0_val)) i1
      refine ⟨st, fun i hi' => ?_⟩
      by_cases hc : i < n + q.length
      · exact i2 i hc
      · obtain rfl : i = n + q.length := by omega
        exact (echo n st).fin (hi n)
  exact ⟨fun n hn => by rw [h3, h1 n hn], fun n => ⟨_, h3 _, echo n (key (n + 1)).1⟩⟩

/-- A filter holding a half, feedback a half: silence comes out as a quarter, for ever. -/
example {c : Cfg} {mem : Mem F32} {k : Comb F32} {a : F32} (h : Holds c mem k.delayLine [a]) (ha : a.isFin = true)
    (hs : k.filterState = lit (1/2)) (hg : k.feedback = lit (1/2)) (n : ℕ) :
    Comb.outAt c mem (k.setDampening (lit 1)) (fun _ => lit 0) (n + 1) = .ok (lit (1/4)) := by
  have e : (lit 0 + lit (1/2) * lit (1/2) : F32) = lit (1/4) := by decide +kernel
  have := (C206_float h (by simpa using ha) (by rw [hs]; decide +kernel) (by rw [hs]; decide +kernel) (inp := fun _ => lit 0)
    (fun _ => by rw [hs, hg]; decide +kernel)).2 n
  rwa [hs, hg, e] at this

end Verif
