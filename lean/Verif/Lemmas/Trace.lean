import Verif.Lemmas.Delay

/-! # Helper lemmas: what a processor around a delay line outputs, as a sequence -/

namespace Verif

variable {α : Type}

/-- A queue that drops its front and takes `v n` at the back at each step `n`: the fronts form the sequence that starts
with the initial queue and continues with the `v`, delayed by the queue length. -/
theorem queue_seq (Q : ℕ → List α) (v : ℕ → α) (h1 : Q 0 ≠ [])
    (hstep : ∀ n, Q (n + 1) = (Q n).tail ++ [v n]) :
    ∃ w : ℕ → α, (∀ n (h : n < (Q 0).length), w n = (Q 0)[n]) ∧ (∀ n, w (n + (Q 0).length) = v n) ∧
      ∀ n, Q n = (List.range (Q 0).length).map (fun i => w (n + i)) := by
  set L := (Q 0).length with hL
  have hpos : 0 < L := List.length_pos_iff.2 h1
  let w : ℕ → α := fun n => if h : n < L then (Q 0)[n] else v (n - L)
  have hw1 : ∀ n (h : n < L), w n = (Q 0)[n] := fun n h => dif_pos h
  have hw2 : ∀ n, w (n + L) = v n := fun n => by
    simp only [w]; rw [dif_neg (by omega)]; congr 1; omega
  refine ⟨w, hw1, hw2, ?_⟩
  intro n
  induction n with
  | zero =>
    apply List.ext_getElem
    · simp
    · intro i hi hi'
      simp only [List.getElem_map, List.getElem_range, Nat.zero_add]
      rw [hw1 i (by omega)]
  | succ n ih =>
    rw [hstep, ih]
    apply List.ext_getElem
    · simp; omega
    · intro i hi hi'
      simp at hi'
      by_cases hlt : i < L - 1
      · rw [List.getElem_append_left (by simp; omega)]
        simp only [List.getElem_tail, List.getElem_map, List.getElem_range]
        congr 1; omega
      · rw [List.getElem_append_right (by simp; omega)]
        simp only [List.getElem_singleton, List.getElem_map, List.getElem_range]
        rw [← hw2]; congr 1; omega

theorem queue_head {Q : List α} (hQ : Q ≠ []) {L n : ℕ} {w : ℕ → α}
    (h : Q = (List.range L).map (fun i => w (n + i))) : Q.head hQ = w n := by
  have hpos : 0 < L := by
    rcases Nat.eq_zero_or_pos L with h0 | h0
    · subst h0; exact absurd h (by simpa using hQ)
    · exact h0
  obtain ⟨m, rfl⟩ : ∃ m, L = m + 1 := ⟨L - 1, by omega⟩
  simp only [h, List.range_succ_eq_map, List.map_cons, List.head_cons, Nat.add_zero]

/-! ## Comb -/

section
variable [Add α] [Sub α] [Mul α] [Lit α]

/-- The comb (with memory) before tick `n`, for the input sequence `inp`. -/
def Comb.stateAt (c : Cfg) (mem : Mem α) (k : Comb α) (inp : ℕ → α) : ℕ → M (Mem α × Comb α)
  | 0 => .ok (mem, k)
  | n + 1 => do
    let (m, k') ← Comb.stateAt c mem k inp n
    let (m', k'', _) ← k'.tick c m (inp n)
    return (m', k'')

/-- The value returned by tick `n`. -/
def Comb.outAt (c : Cfg) (mem : Mem α) (k : Comb α) (inp : ℕ → α) (n : ℕ) : M α := do
  let (m, k') ← Comb.stateAt c mem k inp n
  let (_, _, o) ← k'.tick c m (inp n)
  return o

variable {c : Cfg} {mem : Mem α} {k : Comb α} {q : List α}

omit [Sub α] [Lit α] in
theorem Comb.tick_spec (h : Holds c mem k.delayLine q) (x : α) :
    ∃ mem' dl', k.tick c mem x = .ok (mem',
        { k with delayLine := dl',
                 filterState := q.head h.ne_nil * k.dampeningInverse + k.filterState * k.dampening },
        q.head h.ne_nil) ∧
      Holds c mem' dl' (q.tail ++ [x + (q.head h.ne_nil * k.dampeningInverse + k.filterState * k.dampening) * k.feedback]) := by
  obtain ⟨mem', dl', h1, -, -, hh⟩ := h.write
    (x + (q.head h.ne_nil * k.dampeningInverse + k.filterState * k.dampening) * k.feedback)
  refine ⟨mem', dl', ?_, hh⟩
  unfold Comb.tick
  simp only [h.read, h1, bind, Except.bind, pure, Except.pure]

omit [Sub α] in
/-- The comb run described by queues and filter states. -/
theorem Comb.run_spec (h : Holds c mem k.delayLine q) (inp : ℕ → α) :
    ∃ (Q : ℕ → List α) (f v : ℕ → α) (hne : ∀ n, Q n ≠ []), Q 0 = q ∧ f 0 = k.filterState ∧
      (∀ n, Q (n + 1) = (Q n).tail ++ [v n]) ∧
      (∀ n, f (n + 1) = (Q n).head (hne n) * k.dampeningInverse + f n * k.dampening) ∧
      (∀ n, v n = inp n + f (n + 1) * k.feedback) ∧
      (∀ n, ∃ m dl, Comb.stateAt c mem k inp n = .ok (m, { k with delayLine := dl, filterState := f n }) ∧
        Holds c m dl (Q n)) ∧
      ∀ n, Comb.outAt c mem k inp n = .ok ((Q n).head (hne n)) := by
  -- pure trajectory
  let P : ℕ → List α × α := fun n => Nat.rec (q, k.filterState)
    (fun n p => (p.1.tail ++ [inp n + (p.1.headD (lit 0) * k.dampeningInverse + p.2 * k.dampening) * k.feedback],
      p.1.headD (lit 0) * k.dampeningInverse + p.2 * k.dampening)) n
  have hne : ∀ n, (P n).1 ≠ [] := by
    intro n; cases n with
    | zero => exact h.ne_nil
    | succ n => simp [P]
  have hhd : ∀ n, (P n).1.headD (lit 0) = (P n).1.head (hne n) := fun n => by
    obtain ⟨y, ys, e⟩ := List.exists_cons_of_ne_nil (hne n)
    simp [e]
  have hst : ∀ n, ∃ m dl, Comb.stateAt c mem k inp n = .ok (m, { k with delayLine := dl, filterState := (P n).2 }) ∧
        Holds c m dl (P n).1 := by
    intro n
    induction n with
    | zero => exact ⟨mem, k.delayLine, rfl, h⟩
    | succ n ih =>
      obtain ⟨m, dl, e, hh⟩ := ih
      obtain ⟨m', dl', e', hh'⟩ := Comb.tick_spec (k := { k with delayLine := dl, filterState := (P n).2 }) hh (inp n)
      dsimp only at hh' e'
      refine ⟨m', dl', ?_, ?_⟩
      · simp only [Comb.stateAt, e, e', bind, Except.bind, pure, Except.pure]
        rw [← hhd n]
      · rw [← hhd n] at hh'; exact hh'
  refine ⟨fun n => (P n).1, fun n => (P n).2,
    fun n => inp n + (P (n + 1)).2 * k.feedback, hne, rfl, rfl, fun n => rfl, ?_, fun n => rfl, hst, ?_⟩
  · intro n; rw [← hhd n]
  · intro n
    obtain ⟨m, dl, e, hh⟩ := hst n
    obtain ⟨m', dl', e', -⟩ := Comb.tick_spec (k := { k with delayLine := dl, filterState := (P n).2 }) hh (inp n)
    simp only [Comb.outAt, e, e', bind, Except.bind, pure, Except.pure]

end

/-! ## AllPass -/

section
variable [Add α] [Mul α] [Neg α] [Lit α]

/-- The all-pass (with memory) before tick `n`. -/
def AllPass.stateAt (c : Cfg) (mem : Mem α) (k : AllPass) (inp : ℕ → α) : ℕ → M (Mem α × AllPass)
  | 0 => .ok (mem, k)
  | n + 1 => do
    let (m, k') ← AllPass.stateAt c mem k inp n
    let (m', k'', _) ← k'.tick c m (inp n)
    return (m', k'')

/-- The value returned by tick `n`. -/
def AllPass.outAt (c : Cfg) (mem : Mem α) (k : AllPass) (inp : ℕ → α) (n : ℕ) : M α := do
  let (m, k') ← AllPass.stateAt c mem k inp n
  let (_, _, o) ← k'.tick c m (inp n)
  return o

variable {c : Cfg} {mem : Mem α} {k : AllPass} {q : List α}

theorem AllPass.tick_spec (h : Holds c mem k.delayLine q) (x : α) :
    ∃ mem' dl', k.tick c mem x = .ok (mem', ⟨dl'⟩, -x + q.head h.ne_nil) ∧
      Holds c mem' dl' (q.tail ++ [x + q.head h.ne_nil * lit (1/2)]) := by
  obtain ⟨mem', dl', h1, -, -, hh⟩ := h.write (x + q.head h.ne_nil * lit (1/2))
  refine ⟨mem', dl', ?_, hh⟩
  unfold AllPass.tick
  simp only [h.read, h1, bind, Except.bind, pure, Except.pure]

theorem AllPass.run_spec (h : Holds c mem k.delayLine q) (inp : ℕ → α) :
    ∃ (Q : ℕ → List α) (hne : ∀ n, Q n ≠ []), Q 0 = q ∧
      (∀ n, Q (n + 1) = (Q n).tail ++ [inp n + (Q n).head (hne n) * lit (1/2)]) ∧
      (∀ n, ∃ m dl, AllPass.stateAt c mem k inp n = .ok (m, ⟨dl⟩) ∧ Holds c m dl (Q n)) ∧
      ∀ n, AllPass.outAt c mem k inp n = .ok (-inp n + (Q n).head (hne n)) := by
  let P : ℕ → List α := fun n => Nat.rec q (fun n p => p.tail ++ [inp n + p.headD (lit 0) * lit (1/2)]) n
  have hne : ∀ n, P n ≠ [] := by
    intro n; cases n with
    | zero => exact h.ne_nil
    | succ n => simp [P]
  have hhd : ∀ n, (P n).headD (lit 0) = (P n).head (hne n) := fun n => by
    obtain ⟨y, ys, e⟩ := List.exists_cons_of_ne_nil (hne n)
    simp [e]
  have hst : ∀ n, ∃ m dl, AllPass.stateAt c mem k inp n = .ok (m, ⟨dl⟩) ∧ Holds c m dl (P n) := by
    intro n
    induction n with
    | zero => exact ⟨mem, k.delayLine, rfl, h⟩
    | succ n ih =>
      obtain ⟨m, dl, e, hh⟩ := ih
      obtain ⟨m', dl', e', hh'⟩ := AllPass.tick_spec (k := ⟨dl⟩) hh (inp n)
      refine ⟨m', dl', ?_, ?_⟩
      · simp only [AllPass.stateAt, e, e', bind, Except.bind, pure, Except.pure]
      · rw [← hhd n] at hh'; exact hh'
  refine ⟨P, hne, rfl, fun n => by rw [← hhd n], hst, ?_⟩
  intro n
  obtain ⟨m, dl, e, hh⟩ := hst n
  obtain ⟨m', dl', e', -⟩ := AllPass.tick_spec (k := ⟨dl⟩) hh (inp n)
  simp only [AllPass.outAt, e, e', bind, Except.bind, pure, Except.pure]

end
end Verif
