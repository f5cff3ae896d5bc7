import Verif.Props.Cascade
import Verif.Props.Network

/-! # C199: effects in series may be put in any order

In exact arithmetic. Each stage has a numerator and a denominator in powers of the one-sample delay, a chain has their products, and products
do not depend on the order. -/

namespace Verif

/-- A delay line puts out what it holds and then what it is fed with. -/
theorem delay_orbit {α : Type} [Add α] [Mul α] [Neg α] [Lit α] {c : Cfg} {mem : Mem α} {d : DelayLine} {q : List α} (h : Holds c mem d q) (u : ℕ → α) :
    ∃ w : ℕ → α, (∀ n (hn : n < q.length), w n = q[n]) ∧ (∀ n, w (n + q.length) = u n) ∧
      ∀ n, (Proc.delay d : Proc α).outAt c mem u n = .ok (w n) := by
  let Q : ℕ → List α := fun n => Nat.rec q (fun n q' => q'.tail ++ [u n]) n
  have hne : ∀ n, Q n ≠ [] := by
    intro n
    cases n with
    | zero => exact h.ne_nil
    | succ n => simp [Q]
  obtain ⟨w, hw1, hw2, hw3⟩ := queue_seq Q u (hne 0) (fun n => rfl)
  refine ⟨w, hw1, hw2, fun n => ?_⟩
  have step : ∀ (d : DelayLine) (q : List α) (v : α), ∃ d' : DelayLine, ∀ mem, Holds c mem d q → ∃ mem',
      d.writeAndAdvance c mem v = .ok (mem', d') ∧ Holds c mem' d' (q.tail ++ [v]) := by
    intro d q v
    obtain ⟨d', -, hd⟩ := Holds.write_frame (c := c) (d := d) (q := q) v
    exact ⟨d', fun mem hm => by obtain ⟨m', h1, h2, -⟩ := hd mem hm; exact ⟨m', h1, h2⟩⟩
  choose nxt hnxt using step
  let D : ℕ → DelayLine := fun n => Nat.rec d (fun n d' => nxt d' (Q n) (u n)) n
  refine Proc.outAt_orbit (P := fun n => .delay (D n)) (Q := Q) (y := w) h (fun n m hm => ?_) n
  obtain ⟨m', h1, h2⟩ := hnxt (D n) (Q n) (u n) m hm
  refine ⟨m', ?_, h2⟩
  have hr : DelayLine.read m (D n) = _ := Holds.read hm
  simp only [Proc.tick, hr, h1, bind, Except.bind, pure, Except.pure]
  rw [queue_head (hne n) (hw3 n)]

section
variable {K : Type} [Field K]

/-! ## Specification -/

/-- A stage of an effect chain: a biquad, or a delay line, comb or all-pass with the memory it works in. -/
inductive Stage (K : Type) where
  | filter (f : Biquad K)
  | effect (mem : Mem K) (p : Proc K)

/-- Nothing is in the stage: zeros in the filter states and all over the buffer. -/
def Stage.Silent (c : Cfg) : Stage K → Prop
  | .filter f => f.z1 = 0 ∧ f.z2 = 0
  | .effect mem p => (∃ L, Holds c mem p.line (List.replicate L 0)) ∧ ∀ k, p = .comb k → k.filterState = 0

/-- Fed with `x` the stage answers `y`, never failing. -/
def Stage.Gives (c : Cfg) (x y : ℕ → K) : Stage K → Prop
  | .filter f => ∀ n, f.outAt x n = y n
  | .effect mem p => ∀ n, p.outAt c mem x n = .ok (y n)

/-- Fed with `x` the stages in series, each feeding the next, answer `y`. -/
def InSeries (c : Cfg) : List (Stage K) → (ℕ → K) → (ℕ → K) → Prop
  | [], x, y => y = x
  | s :: l, x, y => ∃ w, s.Gives c x w ∧ InSeries c l w y

/-! ## Lemmas -/

open PowerSeries

/-- A signal that starts with `L` zeros. -/
theorem series_late {L : ℕ} {w v : ℕ → K} (h0 : ∀ n < L, w n = 0) (h : ∀ n, w (n + L) = v n) : mk w = X ^ L * mk v := by
  ext n
  rw [coeff_mk, coeff_X_pow_mul', coeff_mk]
  split
  · rename_i hn
    rw [← h, Nat.sub_add_cancel hn]
  · exact h0 n (by omega)

theorem unit_ne {A B : PowerSeries K} (h : constantCoeff A = 1) (h' : constantCoeff B = 0) : A - B ≠ 0 := by
  intro h0
  have := congrArg constantCoeff h0
  simp [h, h'] at this

/-- Every silent stage answers every signal, in one way, and by one quotient of power series. -/
theorem Stage.series {c : Cfg} (s : Stage K) (hs : s.Silent c) :
    (∀ x, ∃ y, s.Gives c x y) ∧ ∃ D N : PowerSeries K, D ≠ 0 ∧ ∀ x y, s.Gives c x y → D * mk y = N * mk x := by
  cases s with
  | filter f =>
    refine ⟨fun x => ⟨_, fun n => rfl⟩, denS f.coeffs, numS f.coeffs, denS_ne _, fun x y h => ?_⟩
    have hf : f = Biquad.new f.coeffs := by
      obtain ⟨z1, z2, co⟩ := f
      obtain ⟨h1, h2⟩ := hs
      simp only at h1 h2
      simp [Biquad.new, Lit.lit, h1, h2]
    have : y = (Biquad.new f.coeffs).outAt x := by
      funext n; rw [← h n, ← hf]
    rw [this]; exact series_out _ _
  | effect mem p =>
    obtain ⟨⟨L, hL⟩, hk⟩ := hs
    have hL0 : 0 < L := by
      rcases Nat.eq_zero_or_pos L with h | h
      · subst h; exact absurd rfl (hL.ne_nil)
      · exact h
    have cL : constantCoeff (X ^ L : PowerSeries K) = 0 := by simp [hL0.ne']
    cases p with
    | delay d =>
      refine ⟨fun x => ?_, 1, X ^ L, one_ne_zero, fun x y h => ?_⟩
      · obtain ⟨w, -, -, h⟩ := delay_orbit (d := d) hL x
        exact ⟨w, h⟩
      · obtain ⟨w, h1, h2, h3⟩ := delay_orbit (d := d) hL x
        simp only [List.length_replicate, List.getElem_replicate] at h1 h2
        have : y = w := funext fun n => by have := h n; rw [h3 n] at this; injection this with this; exact this.symm
        rw [this, one_mul]; exact series_late h1 h2
    | comb k =>
      have hf := hk k rfl
      refine ⟨fun x => ?_, (1 - C k.dampening * X) - C (k.feedback * k.dampeningInverse) * X ^ L, X ^ L * (1 - C k.dampening * X),
        unit_ne (by simp) (by simp [cL]), fun x y h => ?_⟩
      · obtain ⟨w, f, -, -, -, -, h⟩ := C20_comb (k := k) hL x
        exact ⟨w, fun n => by rw [Proc.outAt_comb]; exact h n⟩
      · obtain ⟨w, f, h1, h2, h3, h4, h5⟩ := C20_comb (k := k) hL x
        simp only [List.length_replicate, List.getElem_replicate] at h1 h4
        have : y = w := funext fun n => by
          have := h n; rw [Proc.outAt_comb, h5 n] at this; injection this with this; exact this.symm
        subst this
        have e1 : mk y = X ^ L * (mk x + C k.feedback * mk (fun n => f (n + 1))) := by
          rw [series_late h1 (v := fun n => x n + k.feedback * f (n + 1)) (fun n => by rw [h4, mul_comm])]
          congr 1
          ext n; simp
        have e2 : mk (fun n => f (n + 1)) = C k.dampeningInverse * mk y + C k.dampening * X * mk (fun n => f (n + 1)) := by
          ext n
          rw [map_add, coeff_mk, coeff_C_mul, coeff_mk, mul_assoc, coeff_C_mul, h3]
          cases n with
          | zero => simp [h2, hf, mul_comm]
          | succ n => rw [coeff_succ_X_mul, coeff_mk]; ring
        rw [map_mul]
        linear_combination (1 - C k.dampening * X) * e1 + C k.feedback * X ^ L * e2
    | allPass k =>
      refine ⟨fun x => ?_, 1 - C (lit (1 / 2)) * X ^ L, X ^ L - (1 - C (lit (1 / 2)) * X ^ L), unit_ne (by simp) (by simp [cL]), fun x y h => ?_⟩
      · obtain ⟨w, -, -, h⟩ := C24_all_pass (k := k) hL x
        exact ⟨_, fun n => by rw [Proc.outAt_allPass]; exact h n⟩
      · obtain ⟨w, h1, h2, h3⟩ := C24_all_pass (k := k) hL x
        simp only [List.length_replicate, List.getElem_replicate] at h1 h2
        have hy : mk y = - mk x + mk w := by
          ext n
          have := h n
          rw [Proc.outAt_allPass, h3 n] at this
          injection this with this
          simp [← this]
        have e1 : mk w = X ^ L * (mk x + C (lit (1 / 2)) * mk w) := by
          refine (series_late h1 (v := fun n => x n + lit (1 / 2) * w n) (fun n => by rw [h2, mul_comm])).trans ?_
          congr 1
          ext n; simp
        rw [hy]
        linear_combination e1

theorem Stage.gives_one {c : Cfg} {s : Stage K} {x y y' : ℕ → K} (h : s.Gives c x y) (h' : s.Gives c x y') : y = y' := by
  funext n
  cases s with
  | filter f => exact (h n).symm.trans (h' n)
  | effect mem p =>
    have := (h n).symm.trans (h' n)
    injection this

theorem in_series {c : Cfg} : ∀ (l : List (Stage K)) (_ : ∀ s ∈ l, s.Silent c) (x : ℕ → K), ∃ y, InSeries c l x y ∧ ∀ y', InSeries c l x y' → y' = y
  | [], _, x => ⟨x, rfl, fun _ h => h⟩
  | s :: l, hs, x => by
    obtain ⟨w, hw⟩ := (s.series (hs s List.mem_cons_self)).1 x
    obtain ⟨y, h1, h2⟩ := in_series l (fun s h => hs s (List.mem_cons_of_mem _ h)) w
    refine ⟨y, ⟨w, hw, h1⟩, ?_⟩
    rintro y' ⟨w', hw', h'⟩
    rw [← s.gives_one hw hw'] at h'
    exact h2 y' h'

/-- C199: a chain of silent biquads, delay lines, combs and all-passes answers every signal, and whatever order the stages are put in, the
answer is the same. -/
theorem C199_any_order {c : Cfg} {l l' : List (Stage K)} (hs : ∀ s ∈ l, s.Silent c) (hp : l.Perm l') (x : ℕ → K) :
    ∃ y, (∀ y', InSeries c l x y' ↔ y' = y) ∧ ∀ y', InSeries c l' x y' ↔ y' = y := by
  have hs' : ∀ s ∈ l', s.Silent c := fun s h => hs s (hp.mem_iff.2 h)
  obtain ⟨y, h1, h2⟩ := in_series l hs x
  obtain ⟨z, h3, h4⟩ := in_series l' hs' x
  have ser : ∀ s : Stage K, ∃ D N : PowerSeries K, D ≠ 0 ∧ (s.Silent c → ∀ x y, s.Gives c x y → D * mk y = N * mk x) := by
    intro s
    by_cases h : s.Silent c
    · obtain ⟨-, D, N, hD, hN⟩ := s.series h
      exact ⟨D, N, hD, fun _ => hN⟩
    · exact ⟨1, 1, one_ne_zero, fun h' => absurd h' h⟩
  choose D N hD hN using ser
  have prod : ∀ (l : List (Stage K)) (_ : ∀ s ∈ l, s.Silent c) (x y : ℕ → K), InSeries c l x y →
      (l.map D).prod * mk y = (l.map N).prod * mk x := by
    intro l
    induction l with
    | nil => rintro - x y rfl; simp
    | cons s l ih =>
      rintro hs x y ⟨w, hw, h⟩
      have e1 := ih (fun s h => hs s (List.mem_cons_of_mem _ h)) w y h
      have e2 := hN s (hs s List.mem_cons_self) x w hw
      simp only [List.map_cons, List.prod_cons]
      linear_combination D s * e1 + (l.map N).prod * e2
  have e1 := prod l hs x y h1
  have e2 := prod l' hs' x z h3
  rw [← (hp.map D).prod_eq, ← (hp.map N).prod_eq, ← e1] at e2
  have hne : (l.map D).prod ≠ 0 := by
    rw [Ne, List.prod_eq_zero_iff]
    intro h
    obtain ⟨s, -, h⟩ := List.mem_map.1 h
    exact hD s h
  have e3 := mul_left_cancel₀ hne e2
  have hzy : z = y := funext fun n => series_eq e3 n
  subst hzy
  exact ⟨z, fun y' => ⟨h2 y', fun h => h ▸ h1⟩, fun y' => ⟨h4 y', fun h => h ▸ h3⟩⟩

end

/-! ## Over one memory -/

section
variable {K : Type} [Field K]

/-- A network that is a chain: the first processor is fed with the input, every other with what the one before it answers. -/
def serial (ps : List (Proc K)) : List (Node K) := ps.map fun p => ⟨fun x os => os.getLast?.getD x, p⟩

theorem flows_series {c : Cfg} {mem : Mem K} {inp : ℕ → K} : ∀ (ps : List (Proc K)) (sofar out : ℕ → List K),
    Flows c mem inp (serial ps) sofar out →
    InSeries c (ps.map (Stage.effect mem)) (fun n => (sofar n).getLast?.getD (inp n)) (fun n => (out n).getLast?.getD (inp n))
  | [], sofar, out, h => by
    have h : out = sofar := h
    subst h; rfl
  | p :: ps, sofar, out, h => by
    obtain ⟨y, hy, hf⟩ := h
    have := flows_series ps _ out hf
    refine ⟨y, hy, ?_⟩
    simpa using this

/-- C199, as the library runs it: delay lines, combs and all-passes over separate silent slices of one memory, one after the other at every tick. No
tick fails, and the last answer is the same for every order. -/
theorem C199_rack {c : Cfg} {mem : Mem K} {ps ps' : List (Proc K)} (hs : ∀ p ∈ ps, (Stage.effect mem p).Silent c)
    (hd : ps.Pairwise fun p p' => Apart p.line.buffer p'.line.buffer) (hp : ps.Perm ps') (inp : ℕ → K) :
    ∃ out out' : ℕ → List K, (∀ n, Net.outAt c mem (serial ps) inp n = .ok (out n)) ∧ (∀ n, Net.outAt c mem (serial ps') inp n = .ok (out' n)) ∧
      ∀ n, (out n).getLast?.getD (inp n) = (out' n).getLast?.getD (inp n) := by
  have hd' : ps'.Pairwise fun p p' => Apart p.line.buffer p'.line.buffer :=
    (hp.pairwise_iff (fun {a b} h b' j hh => h b' j ⟨hh.2, hh.1⟩)).1 hd
  have run : ∀ qs : List (Proc K), (∀ p ∈ qs, (Stage.effect mem p).Silent c) → (qs.Pairwise fun p p' => Apart p.line.buffer p'.line.buffer) →
      ∃ out : ℕ → List K, (∀ n, Net.outAt c mem (serial qs) inp n = .ok (out n)) ∧
        InSeries c (qs.map (Stage.effect mem)) inp (fun n => (out n).getLast?.getD (inp n)) := by
    intro qs h1 h2
    obtain ⟨out, hf, ho, -⟩ := C142_network (c := c) (mem := mem) (nds := serial qs) (fun nd hm => by
      obtain ⟨p, hp, rfl⟩ := List.mem_map.1 hm
      obtain ⟨⟨L, hL⟩, -⟩ := h1 p hp
      exact ⟨_, hL⟩) (by unfold Separate serial; rw [List.pairwise_map]; exact h2) inp
    exact ⟨out, ho, by simpa using flows_series qs _ out hf⟩
  obtain ⟨out, h1, h2⟩ := run ps hs hd
  obtain ⟨out', h3, h4⟩ := run ps' (fun p h => hs p (hp.mem_iff.2 h)) hd'
  refine ⟨out, out', h1, h3, fun n => ?_⟩
  obtain ⟨y, e1, e2⟩ := C199_any_order (c := c) (l := ps.map (Stage.effect mem)) (l' := ps'.map (Stage.effect mem)) (by
    intro s h
    obtain ⟨p, hp, rfl⟩ := List.mem_map.1 h
    exact hs p hp) (hp.map _) inp
  have := ((e1 _).1 h2).trans ((e2 _).1 h4).symm
  exact congrFun this n

end

/-- A comb over two samples, a delay of one and a low-pass-like filter; in this order and in the opposite one. -/
example (x : ℕ → ℚ) : ∃ (mem : Mem ℚ) (a b : MemorySlice) (y : ℕ → ℚ),
    InSeries Cfg.debug64 [.effect mem (.comb (Comb.new a)), .effect mem (.delay (DelayLine.new b)), .filter (Biquad.new ⟨1/2, 1/2, 0, 0, 0⟩)] x y ∧
    InSeries Cfg.debug64 [.filter (Biquad.new ⟨1/2, 1/2, 0, 0, 0⟩), .effect mem (.delay (DelayLine.new b)), .effect mem (.comb (Comb.new a))] x y := by
  have ha : Holds Cfg.debug64 (fun b => if b = 0 then some [0, 0, 0] else none) (DelayLine.new (MemorySlice.fromSlice 0 0 2)) (List.replicate 2 (0 : ℚ)) :=
    holds_new ⟨0, [], [0], rfl, rfl, rfl, by decide⟩ (by simp)
  have hb : Holds Cfg.debug64 (fun b => if b = 0 then some [0, 0, 0] else none) (DelayLine.new (MemorySlice.fromSlice 0 2 1)) (List.replicate 1 (0 : ℚ)) :=
    holds_new ⟨0, [0, 0], [], rfl, rfl, rfl, by decide⟩ (by simp)
  obtain ⟨y, h1, h2⟩ := C199_any_order (c := Cfg.debug64)
    (l := [.effect (fun b => if b = 0 then some [0, 0, 0] else none) (.comb (Comb.new (MemorySlice.fromSlice 0 0 2))),
      .effect (fun b => if b = 0 then some [0, 0, 0] else none) (.delay (DelayLine.new (MemorySlice.fromSlice 0 2 1))),
      .filter (Biquad.new ⟨1/2, 1/2, 0, 0, 0⟩)])
    (l' := [.filter (Biquad.new ⟨1/2, 1/2, 0, 0, 0⟩),
      .effect (fun b => if b = 0 then some [0, 0, 0] else none) (.delay (DelayLine.new (MemorySlice.fromSlice 0 2 1))),
      .effect (fun b => if b = 0 then some [0, 0, 0] else none) (.comb (Comb.new (MemorySlice.fromSlice 0 0 2)))])
    (by
      intro s hs
      simp only [List.mem_cons, List.not_mem_nil, or_false] at hs
      rcases hs with rfl | rfl | rfl
      · exact ⟨⟨2, ha⟩, fun k hk => by injection hk with hk; subst hk; simp [Comb.new, Lit.lit]⟩
      · exact ⟨⟨1, hb⟩, fun k hk => by simp at hk⟩
      · exact ⟨by simp [Biquad.new, Lit.lit], by simp [Biquad.new, Lit.lit]⟩)
    (List.reverse_perm _).symm x
  exact ⟨_, _, _, y, (h1 y).2 rfl, (h2 y).2 rfl⟩

/-- In floats the order does matter, if only in the last bit: 7 times 0.1 times 3, and 7 times 3 times 0.1. -/
example : (Biquad.new ⟨lit 3, lit 0, lit 0, lit 0, lit 0⟩ : Biquad F32).outAt
      ((Biquad.new ⟨lit (1/10), lit 0, lit 0, lit 0, lit 0⟩ : Biquad F32).outAt fun _ => lit 7) 0 ≠
    (Biquad.new ⟨lit (1/10), lit 0, lit 0, lit 0, lit 0⟩ : Biquad F32).outAt
      ((Biquad.new ⟨lit 3, lit 0, lit 0, lit 0, lit 0⟩ : Biquad F32).outAt fun _ => lit 7) 0 := by
  decide +kernel

/-- Three zeros, two for a comb and one for an all-pass. -/
def serialMem : Mem ℚ := fun b => if b = 0 then some [0, 0, 0] else none

/-- Tick 4 of an impulse: what is in between differs, what comes out is 1/4 in both orders. -/
example :
    Net.outAt Cfg.debug64 serialMem (serial [.comb (Comb.new (MemorySlice.fromSlice 0 0 2)), .allPass (AllPass.new (MemorySlice.fromSlice 0 2 1))])
      (fun n => if n = 0 then 1 else 0) 4 = .ok [1/4, 1/4] ∧
    Net.outAt Cfg.debug64 serialMem (serial [.allPass (AllPass.new (MemorySlice.fromSlice 0 2 1)), .comb (Comb.new (MemorySlice.fromSlice 0 0 2))])
      (fun n => if n = 0 then 1 else 0) 4 = .ok [1/8, 1/4] := by
  decide +kernel

end Verif
