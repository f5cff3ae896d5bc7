import Verif.Props.Impulse

/-! # C204: the latency of effects

What comes out at some time depends on nothing that goes in later. A delay line or a comb holds back everything for the length of its buffer, a biquad or an
all-pass nothing; in a chain these add up. -/

namespace Verif

/-! ## Specification -/

/-- The number of samples for which an effect holds back what it is fed with. -/
def Proc.latency {α : Type} : Proc α → ℕ
  | .delay d => d.buffer.length
  | .comb k => k.delayLine.buffer.length
  | .allPass _ => 0

section
variable {K : Type} [Field K]

def Stage.latency : Stage K → ℕ
  | .filter _ => 0
  | .effect _ p => p.latency

/-- What the latest sample is multiplied with on its way straight through. -/
def Stage.direct : Stage K → K
  | .filter f => f.coeffs.b0
  | .effect _ (.allPass _) => -1
  | .effect _ _ => 1

end

/-! ## Nothing comes out too early, in any arithmetic and from any state -/

section
variable {α : Type} [Add α] [Sub α] [Mul α] [Neg α] [Lit α]

omit [Neg α] [Lit α] in
/-- C204: inputs that agree before time `i` give a biquad's outputs that agree before time `i`, bit for bit. -/
theorem C204_biquad_causal (f : Biquad α) {x x' : ℕ → α} {i : ℕ} (h : ∀ n < i, x n = x' n) : ∀ n < i, f.outAt x n = f.outAt x' n := by
  have st : ∀ n ≤ i, f.stateAt x n = f.stateAt x' n := by
    intro n
    induction n with
    | zero => exact fun _ => rfl
    | succ n ih => intro hn; rw [Biquad.stateAt, Biquad.stateAt, ih (by omega), h n (by omega)]
  intro n hn
  rw [Biquad.outAt, Biquad.outAt, st n hn.le, h n hn]

omit [Add α] [Sub α] [Mul α] [Neg α] [Lit α] in
theorem Holds.buffer_length {c : Cfg} {mem : Mem α} {d : DelayLine} {q : List α} (h : Holds c mem d q) : d.buffer.length = q.length := by
  obtain ⟨xs, hv, hi, rfl⟩ := h
  rw [hv.length_eq]; simp; omega

omit [Sub α] in
/-- C204: inputs that agree before time `i` give outputs of a delay line, comb or all-pass that agree before time `i` plus its latency, bit for bit. -/
theorem C204_effect_causal {c : Cfg} {mem : Mem α} {p : Proc α} {q : List α} (h : Holds c mem p.line q) {x x' : ℕ → α} {i : ℕ}
    (hx : ∀ n < i, x n = x' n) : ∀ n < i + p.latency, ∃ y, p.outAt c mem x n = .ok y ∧ p.outAt c mem x' n = .ok y := by
  have hL : 0 < q.length := List.length_pos_iff.2 h.ne_nil
  cases p with
  | delay d =>
    obtain ⟨w, a1, a2, a3⟩ := delay_orbit h x
    obtain ⟨w', b1, b2, b3⟩ := delay_orbit h x'
    intro n hn
    rw [Proc.latency, Holds.buffer_length (d := d) h] at hn
    refine ⟨w n, a3 n, (b3 n).trans (congrArg _ ?_)⟩
    by_cases hq : n < q.length
    · rw [a1 n hq, b1 n hq]
    · obtain ⟨m, rfl⟩ : ∃ m, n = m + q.length := ⟨n - q.length, by omega⟩
      rw [a2, b2, hx m (by omega)]
  | comb k =>
    obtain ⟨w, f, a1, af0, af, a2, a3⟩ := C20_comb h x
    obtain ⟨w', f', b1, bf0, bf, b2, b3⟩ := C20_comb h x'
    intro n hn
    rw [Proc.latency, Holds.buffer_length (d := k.delayLine) h] at hn
    have key : ∀ m ≤ i, f m = f' m ∧ ∀ n < m + q.length, w n = w' n := by
      intro m
      induction m with
      | zero =>
        refine fun _ => ⟨af0.trans bf0.symm, fun n hn => ?_⟩
        rw [a1 n (by omega), b1 n (by omega)]
      | succ m ih =>
        intro hm
        obtain ⟨e1, e2⟩ := ih (by omega)
        have ef : f (m + 1) = f' (m + 1) := by rw [af, bf, e1, e2 m (by omega)]
        refine ⟨ef, fun n hn => ?_⟩
        by_cases hc : n < m + q.length
        · exact e2 n hc
        · obtain rfl : n = m + q.length := by omega
          rw [a2, b2, ef, hx m (by omega)]
    rw [Proc.outAt_comb, Proc.outAt_comb]
    exact ⟨w n, a3 n, (b3 n).trans (congrArg _ ((key i le_rfl).2 n hn).symm)⟩
  | allPass k =>
    obtain ⟨w, a1, a2, a3⟩ := C24_all_pass h x
    obtain ⟨w', b1, b2, b3⟩ := C24_all_pass h x'
    intro n hn
    have key : ∀ n < i, w n = w' n := by
      refine stride_induction (P := fun n => n < i → w n = w' n) hL (fun n hn _ => ?_) (fun n ih hn => ?_)
      · rw [a1 n hn, b1 n hn]
      · rw [a2, b2, ih (by omega), hx n (by omega)]
    rw [Proc.outAt_allPass, Proc.outAt_allPass]
    have hn : n < i := hn
    exact ⟨_, a3 n, (b3 n).trans (by rw [key n hn, hx n hn])⟩

end

/-! ## And it comes out exactly then, in exact arithmetic -/

section
variable {K : Type} [Field K]
open PowerSeries

/-- The beginning of the answer of a silent stage to a click. -/
theorem Stage.onset {c : Cfg} {s : Stage K} (hs : s.Silent c) {h : ℕ → K} (hh : s.Gives c impulse h) :
    (∀ n < s.latency, h n = 0) ∧ h s.latency = s.direct := by
  cases s with
  | filter f =>
    obtain ⟨z1, z2⟩ := hs
    refine ⟨fun n hn => absurd hn (Nat.not_lt_zero n), ?_⟩
    have h0 := hh 0
    simp only [Biquad.outAt, Biquad.stateAt, Biquad.process, impulse, z1] at h0
    simp [Stage.latency, Stage.direct, ← h0]
  | effect mem p =>
    obtain ⟨⟨L, hL⟩, hk⟩ := hs
    have hL0 : 0 < L := by
      rcases Nat.eq_zero_or_pos L with h | h
      · subst h; exact absurd rfl (hL.ne_nil)
      · exact h
    have hlen := Holds.buffer_length hL
    rw [List.length_replicate] at hlen
    cases p with
    | delay d =>
      obtain ⟨w, h1, h2, h3⟩ := delay_orbit (d := d) hL impulse
      simp only [List.length_replicate, List.getElem_replicate] at h1 h2
      have e : ∀ n, h n = w n := fun n => Except.ok.inj ((hh n).symm.trans (h3 n))
      have hl : d.buffer.length = L := hlen
      simp only [Stage.latency, Proc.latency, Stage.direct, hl]
      exact ⟨fun n hn => (e n).trans (h1 n hn), by rw [e, ← Nat.zero_add L, h2]; simp [impulse]⟩
    | comb k =>
      obtain ⟨w, f, h1, hf0, hf, h2, h3⟩ := C20_comb (k := k) hL impulse
      simp only [List.length_replicate, List.getElem_replicate] at h1 h2
      have e : ∀ n, h n = w n := fun n => Except.ok.inj ((hh n).symm.trans (by rw [Proc.outAt_comb]; exact h3 n))
      have hl : k.delayLine.buffer.length = L := hlen
      simp only [Stage.latency, Proc.latency, Stage.direct, hl]
      refine ⟨fun n hn => (e n).trans (h1 n hn), ?_⟩
      rw [e, ← Nat.zero_add L, h2, hf, hf0, hk k rfl, h1 0 hL0]; simp [impulse]
    | allPass k =>
      obtain ⟨w, h1, h2, h3⟩ := C24_all_pass (k := k) hL impulse
      simp only [List.length_replicate, List.getElem_replicate] at h1
      refine ⟨fun n hn => absurd hn (Nat.not_lt_zero n), ?_⟩
      have := hh 0
      rw [Proc.outAt_allPass, h3, h1 0 hL0] at this
      have := Except.ok.inj this
      simp only [Stage.latency, Proc.latency, Stage.direct, ← this]
      simp [impulse]

theorem Stage.latest {c : Cfg} {s : Stage K} (hs : s.Silent c) {x x' y y' : ℕ → K} (h : s.Gives c x y) (h' : s.Gives c x' y') {i : ℕ}
    (hx : ∀ n < i, x n = x' n) :
    (∀ n < i + s.latency, y n = y' n) ∧ y (i + s.latency) - y' (i + s.latency) = s.direct * (x i - x' i) := by
  obtain ⟨r, hr⟩ := (s.series hs).1 impulse
  obtain ⟨r0, r1⟩ := s.onset hs hr
  have one : ∀ {u v : ℕ → K}, s.Gives c u v → InSeries c [s] u v := fun h => ⟨_, h, rfl⟩
  have hs1 : ∀ t ∈ [s], t.Silent c := fun t ht => by rw [List.mem_singleton.1 ht]; exact hs
  have dif : ∀ n, y n - y' n = ∑ k ∈ Finset.range (n + 1), r k * (x (n - k) - x' (n - k)) := fun n => by
    rw [C200_convolution hs1 (one hr) (one h) n, C200_convolution hs1 (one hr) (one h') n, ← Finset.sum_sub_distrib]
    exact Finset.sum_congr rfl fun k _ => by ring
  constructor
  · intro n hn
    refine sub_eq_zero.1 ((dif n).trans (Finset.sum_eq_zero fun k hm => ?_))
    by_cases hk : k < s.latency
    · rw [r0 k hk, zero_mul]
    · rw [hx (n - k) (by simp at hm; omega), sub_self, mul_zero]
  · rw [dif, Finset.sum_eq_single s.latency, r1, Nat.add_sub_cancel]
    · intro k hk hne
      by_cases hk' : k < s.latency
      · rw [r0 k hk', zero_mul]
      · rw [hx (i + s.latency - k) (by simp at hk; omega), sub_self, mul_zero]
    · intro hc; exact absurd (Finset.mem_range.2 (by omega)) hc

/-- C204: in a chain of silent stages the latencies add up. Inputs that agree before time `i` give outputs that agree before `i` plus the latency of the chain;
at that time itself the outputs differ by the difference of the inputs at `i`, times what each stage passes straight through. -/
theorem C204_chain {c : Cfg} : ∀ {l : List (Stage K)} (_ : ∀ s ∈ l, s.Silent c) {x x' y y' : ℕ → K} {i : ℕ},
    InSeries c l x y → InSeries c l x' y' → (∀ n < i, x n = x' n) →
    (∀ n < i + (l.map Stage.latency).sum, y n = y' n) ∧
    y (i + (l.map Stage.latency).sum) - y' (i + (l.map Stage.latency).sum) = (l.map Stage.direct).prod * (x i - x' i)
  | [], _, x, x', y, y', i, h, h', hx => by
    have h : y = x := h
    have h' : y' = x' := h'
    subst h h'
    simpa using hx
  | s :: l, hs, x, x', y, y', i, ⟨w, hw, h⟩, ⟨w', hw', h'⟩, hx => by
    obtain ⟨a1, a2⟩ := s.latest (hs s List.mem_cons_self) hw hw' hx
    obtain ⟨b1, b2⟩ := C204_chain (fun s h => hs s (List.mem_cons_of_mem _ h)) h h' a1
    simp only [List.map_cons, List.sum_cons, List.prod_cons, ← add_assoc]
    exact ⟨b1, by rw [b2, a2]; ring⟩

/-- C204: so if every biquad of the chain has a `b0` other than zero, the latency of the chain is exactly the sum of the lengths of its delay lines and combs. -/
theorem C204_exactly {c : Cfg} {l : List (Stage K)} (hs : ∀ s ∈ l, s.Silent c) (hb : ∀ f, Stage.filter f ∈ l → f.coeffs.b0 ≠ 0)
    {x x' y y' : ℕ → K} (h : InSeries c l x y) (h' : InSeries c l x' y') {i : ℕ} (hx : ∀ n < i, x n = x' n) (hi : x i ≠ x' i) :
    (∀ n < i + (l.map Stage.latency).sum, y n = y' n) ∧ y (i + (l.map Stage.latency).sum) ≠ y' (i + (l.map Stage.latency).sum) := by
  obtain ⟨e1, e2⟩ := C204_chain hs h h' hx
  refine ⟨e1, sub_ne_zero.1 ?_⟩
  rw [e2]
  refine mul_ne_zero ?_ (sub_ne_zero.2 hi)
  rw [Ne, List.prod_eq_zero_iff]
  intro hm
  obtain ⟨s, hsl, h0⟩ := List.mem_map.1 hm
  match s, hsl, h0 with
  | .filter f, hsl, h0 => exact hb f hsl h0
  | .effect _ (.allPass _), _, h0 => simp [Stage.direct] at h0
  | .effect _ (.comb _), _, h0 => exact one_ne_zero h0
  | .effect _ (.delay _), _, h0 => exact one_ne_zero h0

end

/-- In floats, NaNs and all: what happens from sample five on cannot be heard before sample seven behind a comb of length two. -/
example {c : Cfg} {mem : Mem F32} {k : Comb F32} {a b : F32} (h : Holds c mem k.delayLine [a, b]) {x x' : ℕ → F32} (hx : ∀ n < 5, x n = x' n) :
    ∃ y, (Proc.comb k).outAt c mem x 6 = .ok y ∧ (Proc.comb k).outAt c mem x' 6 = .ok y :=
  C204_effect_causal (p := .comb k) h hx 6 (by rw [Proc.latency, Holds.buffer_length (d := k.delayLine) h]; simp)

/-- A comb over two samples and a delay of one: three samples in all. -/
example : ([Stage.effect (fun _ => none) (.comb (Comb.new (MemorySlice.fromSlice 0 0 2))), .filter (Biquad.new ⟨1/2, 1/2, 0, 0, 0⟩),
    .effect (fun _ => none) (.delay (DelayLine.new (MemorySlice.fromSlice 0 2 1)))] : List (Stage ℚ)).map Stage.latency = [2, 0, 1] := rfl

/-- The same with a click: nothing before, then half of it. -/
example {y y' : ℕ → ℚ} (h : InSeries Cfg.debug64 [.effect (fun b => if b = 0 then some [0, 0] else none) (.delay (DelayLine.new (MemorySlice.fromSlice 0 0 2))),
      .filter (Biquad.new ⟨1/2, 1/2, 0, 0, 0⟩)] impulse y)
    (h' : InSeries Cfg.debug64 [.effect (fun b => if b = 0 then some [0, 0] else none) (.delay (DelayLine.new (MemorySlice.fromSlice 0 0 2))),
      .filter (Biquad.new ⟨1/2, 1/2, 0, 0, 0⟩)] (fun _ => 0) y') : y 0 = y' 0 ∧ y 1 = y' 1 ∧ y 2 - y' 2 = 1/2 := by
  have hv : Holds Cfg.debug64 (fun b => if b = 0 then some [0, 0] else none) (DelayLine.new (MemorySlice.fromSlice 0 0 2)) (List.replicate 2 (0 : ℚ)) :=
    holds_new ⟨0, [], [], rfl, rfl, rfl, by decide⟩ (by simp)
  obtain ⟨e1, e2⟩ := C204_chain (i := 0) (by
    intro s hs
    simp only [List.mem_cons, List.not_mem_nil, or_false] at hs
    rcases hs with rfl | rfl
    · exact ⟨⟨2, hv⟩, by simp⟩
    · exact ⟨by simp [Biquad.new, Lit.lit], by simp [Biquad.new, Lit.lit]⟩) h h' (by simp)
  refine ⟨e1 0 (by decide), e1 1 (by decide), e2.trans ?_⟩
  norm_num [Stage.direct, Biquad.new, impulse]

end Verif
