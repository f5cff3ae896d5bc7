import Verif.Props.Fractional
import Verif.Props.Si

/-! # C193: a flanger

A delay line read between its samples at an offset that moves, with the read fed back: the usual way to build a flanger or
a chorus from `read_lerp_wrapped_at` and `write_and_advance`. -/

namespace Verif
open F32 Interpolation

variable {c : Cfg} {mem : Mem F32} {d : DelayLine} {q : List F32} {floor : F32 → F32}

/-- What a flanger is given for one sample: the input, the feedback and the offset to read at. -/
structure Turn where
  x : F32
  g : F32
  off : F32

/-- A flanger over src/delay_line.rs:36-38 `read_lerp_wrapped_at` and 44-54 `write_and_advance`: read at the offset, write
the input plus the feedback times the read, hand out the reads. The loop is the user's; the crate has no such effect. -/
def flange (c : Cfg) (floor : F32 → F32) : Mem F32 → DelayLine → List Turn → M (Mem F32 × DelayLine × List F32)
  | mem, d, [] => .ok (mem, d, [])
  | mem, d, t :: rest => do
    let r ← d.readLerpWrappedAt c floor mem t.off
    let (mem', d') ← d.writeAndAdvance c mem (t.x + t.g * r)
    let (mem'', d'', rs) ← flange c floor mem' d' rest
    return (mem'', d'', r :: rs)

/-- Finite and at most `B` in magnitude. -/
def Capped (B : ℚ) (y : F32) : Prop := y.isFin = true ∧ |y.val| ≤ B

/-- Input up to `A`, feedback up to `γ`, offset in the buffer of `len` samples. -/
def Turn.Ok (A γ : ℚ) (len : ℕ) (t : Turn) : Prop :=
  Capped A t.x ∧ Capped γ t.g ∧ t.off.isFin = true ∧ -(len : ℚ) ≤ t.off.val ∧ t.off.val ≤ 0

/-- Rounding in one read: three roundings of a blend. -/
theorem read_within (h : Holds c mem d q) (hf : FloorContract floor) (hlen : q.length ≤ 2 ^ 20) (hmax : 2 ^ 21 ≤ c.isizeMax)
    {B : ℚ} (hq : ∀ y ∈ q, Capped B y) {off : F32} (hof : off.isFin = true) (h0 : -(q.length : ℚ) ≤ off.val)
    (h1 : off.val ≤ 0) :
    ∃ r, d.readLerpWrappedAt c floor mem off = .ok r ∧ Capped (B + (3 / 2 ^ 24 * B + 1 / 2 ^ 148)) r := by
  obtain ⟨r, n, t, hr, t0, t1, -, hrf, hb⟩ := C132_actual h (fun y hy => (hq y hy).1) hf hlen hmax hof h0 h1
  refine ⟨r, hr, hrf, ?_⟩
  have hw : ∀ n : ℤ, |(wrapAt q h.ne_nil n).val| ≤ B := fun n => (hq _ (by unfold wrapAt; exact List.getElem_mem _)).2
  have ha := hw n
  have hb' := hw (n + 1)
  generalize (wrapAt q h.ne_nil n).val = a at *
  generalize (wrapAt q h.ne_nil (n + 1)).val = b at *
  have hm : max |a| |b| ≤ B := max_le ha hb'
  have hs : |(1 - t) * a + t * b| ≤ B := by
    rw [abs_le] at ha hb' ⊢
    constructor <;> nlinarith
  have e : r.val = (r.val - ((1 - t) * a + t * b)) + ((1 - t) * a + t * b) := by ring
  rw [e]
  refine (abs_add_le _ _).trans ?_
  have : |r.val - ((1 - t) * a + t * b)| ≤ 3 / 2 ^ 24 * B + 1 / 2 ^ 148 := hb.trans (by gcongr)
  linarith

/-- What is written: the input plus the feedback times the read, to within a factor of `1 + 2^-21`. -/
theorem cell_within {A B γ : ℚ} {x g r : F32} (hA : A ≤ 2 ^ 98) (hB0 : 0 ≤ B) (hB : B ≤ 2 ^ 98) (hγ : γ ≤ 1)
    (hx : Capped A x) (hg : Capped γ g) (hr : Capped (B + (3 / 2 ^ 24 * B + 1 / 2 ^ 148)) r) :
    Capped ((A + γ * B) * (1 + 1 / 2 ^ 21) + 1 / 2 ^ 140) (x + g * r) := by
  have γ0 : 0 ≤ γ := (abs_nonneg _).trans hg.2
  have A0 : 0 ≤ A := (abs_nonneg _).trans hx.2
  set R := B + (3 / 2 ^ 24 * B + 1 / 2 ^ 148) with hR
  have R0 : 0 ≤ R := by positivity
  have hRb : R ≤ 2 ^ 99 := by
    rw [hR]
    have : 3 / 2 ^ 24 * B ≤ 3 / 2 ^ 24 * 2 ^ 98 := by gcongr
    refine (add_le_add hB (add_le_add this le_rfl)).trans (by norm_num)
  have hp : |g.val * r.val| ≤ γ * R := by
    rw [abs_mul]; exact mul_le_mul hg.2 hr.2 (abs_nonneg _) γ0
  have hpb : γ * R ≤ 2 ^ 99 := (mul_le_of_le_one_left R0 hγ).trans hRb
  obtain ⟨f1, e1⟩ := mul_near hg.1 hr.1 hp (hpb.trans (by norm_num))
  have hp' : |(g * r).val| ≤ γ * R + (1 / 2 ^ 150 + γ * R / 2 ^ 24) := by
    have e : (g * r).val = ((g * r).val - g.val * r.val) + g.val * r.val := by ring
    rw [e]
    exact (abs_add_le _ _).trans (by linarith)
  have hs : |x.val + (g * r).val| ≤ A + (γ * R + (1 / 2 ^ 150 + γ * R / 2 ^ 24)) :=
    (abs_add_le _ _).trans (add_le_add hx.2 hp')
  have hsb : A + (γ * R + (1 / 2 ^ 150 + γ * R / 2 ^ 24)) ≤ 2 ^ 100 := by
    have : γ * R / 2 ^ 24 ≤ 2 ^ 99 / 2 ^ 24 := by gcongr
    refine (add_le_add hA (add_le_add hpb (add_le_add le_rfl this))).trans (by norm_num)
  obtain ⟨f2, e2⟩ := add_near hx.1 f1 hs hsb
  refine ⟨f2, ?_⟩
  have e : (x + g * r).val = ((x + g * r).val - (x.val + (g * r).val)) + (x.val + (g * r).val) := by ring
  rw [e]
  refine (abs_add_le _ _).trans ((add_le_add e2 hs).trans ?_)
  have hγR : γ * R ≤ γ * B + 3 / 2 ^ 24 * (γ * B) + 1 / 2 ^ 148 := by
    rw [hR]
    have : γ * (1 / 2 ^ 148) ≤ 1 * (1 / 2 ^ 148) := by gcongr
    linarith
  have hγB : 0 ≤ γ * B := by positivity
  generalize γ * R = P at *
  generalize γ * B = Q at *
  norm_num at hγR ⊢
  linarith

/-- One turn of the flanger keeps the cells bounded when the bound leaves room for it, and the new cell is the one written. -/
theorem flange_step (h : Holds c mem d q) (hf : FloorContract floor) (hlen : q.length ≤ 2 ^ 20) (hmax : 2 ^ 21 ≤ c.isizeMax)
    {A B γ : ℚ} (hA : A ≤ 2 ^ 98) (hB0 : 0 ≤ B) (hB : B ≤ 2 ^ 98) (hγ : γ ≤ 1) (hq : ∀ y ∈ q, Capped B y) {t : Turn}
    (ht : t.Ok A γ q.length) :
    ∃ r v mem' d', d.readLerpWrappedAt c floor mem t.off = .ok r ∧ Capped (B + (3 / 2 ^ 24 * B + 1 / 2 ^ 148)) r ∧
      d.writeAndAdvance c mem (t.x + t.g * r) = .ok (mem', d') ∧ v = t.x + t.g * r ∧
      Capped ((A + γ * B) * (1 + 1 / 2 ^ 21) + 1 / 2 ^ 140) v ∧ Holds c mem' d' (q.tail ++ [v]) := by
  obtain ⟨hx, hg, hof, h0, h1⟩ := ht
  obtain ⟨r, hr, hrw⟩ := read_within h hf hlen hmax hq hof h0 h1
  obtain ⟨mem', d', hw, hh⟩ := writeAll_spec [t.x + t.g * r] h
  refine ⟨r, _, mem', d', hr, hrw, ?_, rfl, cell_within hA hB0 hB hγ hx hg hrw, ?_⟩
  · unfold writeAll at hw
    cases hw1 : d.writeAndAdvance c mem (t.x + t.g * r) with
    | error e => rw [hw1] at hw; simp [bind, Except.bind] at hw
    | ok p => rw [hw1] at hw; simpa [bind, Except.bind, writeAll] using hw
  · have hne := h.ne_nil
    cases q with
    | nil => exact absurd rfl hne
    | cons a q => simpa using hh

/-- Running the flanger: if the cells are within `B` and `B` leaves room for the input and the feedback, no turn fails,
every read is within `B` up to rounding, the cells stay within `B`, and the cells written are within the smaller bound. -/
theorem flange_run {A B γ B' : ℚ} (hf : FloorContract floor) (hmax : 2 ^ 21 ≤ c.isizeMax) (hA : A ≤ 2 ^ 98) (hB0 : 0 ≤ B)
    (hB : B ≤ 2 ^ 98) (hγ : γ ≤ 1) (hroom : (A + γ * B) * (1 + 1 / 2 ^ 21) + 1 / 2 ^ 140 ≤ B') (hle : B' ≤ B) :
    ∀ (ts : List Turn) {mem : Mem F32} {d : DelayLine} {q : List F32}, Holds c mem d q → q.length ≤ 2 ^ 20 →
      (∀ y ∈ q, Capped B y) → (∀ t ∈ ts, t.Ok A γ q.length) →
      ∃ mem' d' rs ws, flange c floor mem d ts = .ok (mem', d', rs) ∧ rs.length = ts.length ∧ ws.length = ts.length ∧
        (∀ r ∈ rs, Capped (B + (3 / 2 ^ 24 * B + 1 / 2 ^ 148)) r) ∧ (∀ w ∈ ws, Capped B' w) ∧
        Holds c mem' d' ((q ++ ws).drop ts.length) := by
  intro ts
  induction ts with
  | nil => intro mem d q h _ _ _; exact ⟨mem, d, [], [], rfl, rfl, rfl, by simp, by simp, by simpa using h⟩
  | cons t ts ih =>
    intro mem d q h hlen hq hts
    obtain ⟨r, v, mem1, d1, hr, hrw, hw, hv, hvw, hh⟩ :=
      flange_step h hf hlen hmax hA hB0 hB hγ hq (hts t (by simp))
    have hvB' : Capped B' v := ⟨hvw.1, hvw.2.trans hroom⟩
    have hne := h.ne_nil
    have hl : (q.tail ++ [v]).length = q.length := by
      cases q with
      | nil => exact absurd rfl hne
      | cons a q => simp
    obtain ⟨mem2, d2, rs, ws, e, l1, l2, hrs, hws, hh2⟩ := ih hh (by rw [hl]; exact hlen) (by
      intro y hy
      rw [List.mem_append, List.mem_singleton] at hy
      rcases hy with hy | rfl
      · exact hq y (List.mem_of_mem_tail hy)
      · exact ⟨hvB'.1, hvB'.2.trans hle⟩) (by rw [hl]; exact fun t' ht' => hts t' (by simp [ht']))
    refine ⟨mem2, d2, r :: rs, v :: ws, ?_, by simp [l1], by simp [l2], ?_, ?_, ?_⟩
    · unfold flange
      rw [hr]
      simp only [bind, Except.bind]
      rw [← hv] at hw ⊢
      rw [hw]
      simp only [e]
      rfl
    · intro y hy
      rcases List.mem_cons.1 hy with rfl | hy
      · exact hrw
      · exact hrs y hy
    · intro y hy
      rcases List.mem_cons.1 hy with rfl | hy
      · exact hvB'
      · exact hws y hy
    · cases q with
      | nil => exact absurd rfl hne
      | cons a q => simpa using hh2

/-- C193: a flanger with feedback up to `γ` and any offsets in its buffer, moved in any way, never fails and stays bounded
for ever: with inputs up to `A` and cells up to `B` it stays within `B`, whenever `A + γ * B`, a rounding error added, is no
more than `B`. -/
theorem C193_bounded {A B γ : ℚ} (h : Holds c mem d q) (hf : FloorContract floor) (hlen : q.length ≤ 2 ^ 20)
    (hmax : 2 ^ 21 ≤ c.isizeMax) (hA : A ≤ 2 ^ 98) (hB0 : 0 ≤ B) (hB : B ≤ 2 ^ 98) (hγ : γ ≤ 1)
    (hroom : (A + γ * B) * (1 + 1 / 2 ^ 21) + 1 / 2 ^ 140 ≤ B) (hq : ∀ y ∈ q, Capped B y) {ts : List Turn}
    (hts : ∀ t ∈ ts, t.Ok A γ q.length) :
    ∃ mem' d' rs, flange c floor mem d ts = .ok (mem', d', rs) ∧ rs.length = ts.length ∧
      ∀ r ∈ rs, Capped (B + (3 / 2 ^ 24 * B + 1 / 2 ^ 148)) r := by
  obtain ⟨mem', d', rs, ws, e, l1, -, hrs, -, -⟩ := flange_run hf hmax hA hB0 hB hγ hroom le_rfl ts h hlen hq hts
  exact ⟨mem', d', rs, e, l1, hrs⟩

/-- Without input a feedback up to `γ ≤ 1 - 2^-20` takes cells within `B + 2^-119` to cells within `γ' * B + 2^-119`, where
`γ'` is `γ` up to rounding. -/
theorem flange_quiet {B γ : ℚ} (hf : FloorContract floor) (hmax : 2 ^ 21 ≤ c.isizeMax) (hB0 : 0 ≤ B) (hB : B ≤ 2 ^ 97)
    (γ0 : 0 ≤ γ) (hγ : γ ≤ 1 - 1 / 2 ^ 20) (h : Holds c mem d q) (hlen : q.length ≤ 2 ^ 20)
    (hq : ∀ y ∈ q, Capped (B + 1 / 2 ^ 119) y) {ts : List Turn} (hts : ∀ t ∈ ts, t.Ok 0 γ q.length) :
    ∃ mem' d' rs ws, flange c floor mem d ts = .ok (mem', d', rs) ∧ rs.length = ts.length ∧ ws.length = ts.length ∧
      (∀ r ∈ rs, Capped ((B + 1 / 2 ^ 119) * (1 + 1 / 2 ^ 22)) r) ∧
      (∀ w ∈ ws, Capped (γ * (1 + 1 / 2 ^ 21) * B + 1 / 2 ^ 119) w) ∧ Holds c mem' d' ((q ++ ws).drop ts.length) := by
  have hk : γ * (1 + 1 / 2 ^ 21) ≤ 1 - 1 / 2 ^ 21 := by
    have := mul_le_mul_of_nonneg_right hγ (by norm_num : (0:ℚ) ≤ 1 + 1 / 2 ^ 21)
    refine this.trans (by norm_num)
  have hk0 : 0 ≤ γ * (1 + 1 / 2 ^ 21) := by positivity
  have hroom : (0 + γ * (B + 1 / 2 ^ 119)) * (1 + 1 / 2 ^ 21) + 1 / 2 ^ 140 ≤ γ * (1 + 1 / 2 ^ 21) * B + 1 / 2 ^ 119 := by
    have : γ * (1 + 1 / 2 ^ 21) * (1 / 2 ^ 119) ≤ (1 - 1 / 2 ^ 21) * (1 / 2 ^ 119) := by gcongr
    have e : (0 + γ * (B + 1 / 2 ^ 119)) * (1 + 1 / 2 ^ 21) + 1 / 2 ^ 140 =
      γ * (1 + 1 / 2 ^ 21) * B + γ * (1 + 1 / 2 ^ 21) * (1 / 2 ^ 119) + 1 / 2 ^ 140 := by ring
    rw [e]
    have e2 : (1 - 1 / 2 ^ 21) * (1 / 2 ^ 119) + 1 / 2 ^ 140 = (1 / 2 ^ 119 : ℚ) := by norm_num
    linarith
  have hle : γ * (1 + 1 / 2 ^ 21) * B + 1 / 2 ^ 119 ≤ B + 1 / 2 ^ 119 := by
    have : γ * (1 + 1 / 2 ^ 21) * B ≤ 1 * B := by
      refine mul_le_mul_of_nonneg_right (hk.trans (by norm_num)) hB0
    linarith
  obtain ⟨mem', d', rs, ws, e, l1, l2, hrs, hws, hh⟩ := flange_run (A := 0) (B := B + 1 / 2 ^ 119) hf hmax (by norm_num)
    (by positivity) ((add_le_add hB (by norm_num : (1 / 2 ^ 119 : ℚ) ≤ 1)).trans (by norm_num))
    (hγ.trans (by norm_num)) hroom hle ts h hlen hq hts
  refine ⟨mem', d', rs, ws, e, l1, l2, fun r hr => ⟨(hrs r hr).1, (hrs r hr).2.trans ?_⟩, hws, hh⟩
  norm_num
  linarith

theorem flange_append (ts us : List Turn) : ∀ {mem mem' mem'' : Mem F32} {d d' d'' : DelayLine} {rs rs' : List F32},
    flange c floor mem d ts = .ok (mem', d', rs) → flange c floor mem' d' us = .ok (mem'', d'', rs') →
    flange c floor mem d (ts ++ us) = .ok (mem'', d'', rs ++ rs') := by
  induction ts with
  | nil =>
    intro mem mem' mem'' d d' d'' rs rs' h h'
    unfold flange at h
    injection h with h
    injection h with h1 h
    injection h with h2 h3
    subst h1 h2 h3
    exact h'
  | cons t ts ih =>
    intro mem mem' mem'' d d' d'' rs rs' h h'
    rw [List.cons_append]
    unfold flange at h ⊢
    simp only [bind, Except.bind] at h ⊢
    cases h1 : d.readLerpWrappedAt c floor mem t.off with
    | error e => rw [h1] at h; simp at h
    | ok r =>
      rw [h1] at h
      simp only at h ⊢
      cases h2 : d.writeAndAdvance c mem (t.x + t.g * r) with
      | error e => rw [h2] at h; simp at h
      | ok p =>
        rw [h2] at h
        simp only at h ⊢
        cases h3 : flange c floor p.1 p.2 ts with
        | error e => rw [h3] at h; simp at h
        | ok u =>
          obtain ⟨m1, d1, rs1⟩ := u
          rw [h3] at h
          simp only [pure, Except.pure] at h
          injection h with h
          injection h with g1 h
          injection h with g2 g3
          subst g1 g2 g3
          rw [ih h3 h']
          rfl

/-- C193: when the input falls silent, so does the flanger, whatever the offsets do: the reads of the `k`-th pass through the
buffer are at most `γ'^k` times the level at which the input stopped, up to 2^-119. -/
theorem C193_silent {B γ : ℚ} (hf : FloorContract floor) (hmax : 2 ^ 21 ≤ c.isizeMax) (hB0 : 0 ≤ B) (hB : B ≤ 2 ^ 97)
    (γ0 : 0 ≤ γ) (hγ : γ ≤ 1 - 1 / 2 ^ 20) (h : Holds c mem d q) (hlen : q.length ≤ 2 ^ 20)
    (hq : ∀ y ∈ q, Capped (B + 1 / 2 ^ 119) y) {ts : List Turn} (hts : ∀ t ∈ ts, t.Ok 0 γ q.length) :
    ∃ mem' d' rs, flange c floor mem d ts = .ok (mem', d', rs) ∧ rs.length = ts.length ∧
      ∀ (i : ℕ) (hi : i < rs.length),
        Capped (((γ * (1 + 1 / 2 ^ 21)) ^ (i / q.length) * B + 1 / 2 ^ 119) * (1 + 1 / 2 ^ 22)) rs[i] := by
  induction hn : ts.length using Nat.strong_induction_on generalizing mem d q ts B with
  | _ n ih =>
  subst hn
  have l0 : 0 < q.length := List.length_pos_of_ne_nil h.ne_nil
  rcases lt_or_ge ts.length q.length with hlt | hge
  · obtain ⟨mem', d', rs, ws, e, l1, l2, hrs, -, -⟩ := flange_quiet hf hmax hB0 hB γ0 hγ h hlen hq hts
    refine ⟨mem', d', rs, e, l1, fun i hi => ?_⟩
    rw [Nat.div_eq_of_lt (by omega), pow_zero, one_mul]
    exact hrs _ (List.getElem_mem hi)
  · obtain ⟨mem1, d1, rs, ws, e, l1, l2, hrs, hws, hh⟩ := flange_quiet hf hmax hB0 hB γ0 hγ h hlen hq
      (ts := ts.take q.length) (fun t ht => hts t (List.mem_of_mem_take ht))
    have lt : (ts.take q.length).length = q.length := by simp [hge]
    have hws' : (q ++ ws).drop (ts.take q.length).length = ws := by rw [lt]; simp
    have lw : ws.length = q.length := by rw [l2, lt]
    rw [hws'] at hh
    have hk : γ * (1 + 1 / 2 ^ 21) ≤ 1 := by
      have := mul_le_mul_of_nonneg_right hγ (by norm_num : (0:ℚ) ≤ 1 + 1 / 2 ^ 21)
      refine this.trans (by norm_num)
    have hkB : γ * (1 + 1 / 2 ^ 21) * B ≤ B := mul_le_of_le_one_left hB0 hk
    obtain ⟨mem2, d2, rs2, e2, l3, h2⟩ := ih (ts.drop q.length).length (by rw [List.length_drop]; omega)
      (B := γ * (1 + 1 / 2 ^ 21) * B) (by positivity) (hkB.trans hB) hh (by rw [lw]; exact hlen) hws
      (ts := ts.drop q.length) (by rw [lw]; exact fun t ht => hts t (List.mem_of_mem_drop ht)) rfl
    have happ := flange_append _ _ e e2
    rw [List.take_append_drop] at happ
    refine ⟨mem2, d2, rs ++ rs2, happ, ?_, ?_⟩
    · rw [List.length_append, l1, l3, lt, List.length_drop]; omega
    · intro i hi
      rw [lt] at l1
      rcases lt_or_ge i q.length with hiq | hiq
      · rw [Nat.div_eq_of_lt hiq, pow_zero, one_mul, List.getElem_append_left (by omega)]
        exact hrs _ (List.getElem_mem _)
      · rw [List.getElem_append_right (by omega)]
        have h3 := h2 (i - rs.length) (by rw [List.length_append] at hi; omega)
        have hdiv : i / q.length = (i - rs.length) / q.length + 1 := by
          obtain ⟨j, rfl⟩ := Nat.exists_eq_add_of_le hiq
          rw [l1, Nat.add_sub_cancel_left, Nat.add_div_left _ l0]
        rw [lw] at h3
        rw [hdiv, pow_succ, mul_assoc]
        exact h3

/-- Feedback 1/2 and input up to 1: the flanger over the buffer of C132 stays within 2.001 for ever. -/
example {ts : List Turn} (hts : ∀ t ∈ ts, t.Ok 1 (1 / 2) 32) :
    ∃ mem' d' rs, flange Cfg.debug64 mmFloor fracMem ⟨fracSlice, 20⟩ ts = .ok (mem', d', rs) ∧ rs.length = ts.length ∧
      ∀ r ∈ rs, Capped (2001 / 1000) r := by
  obtain ⟨mem', d', rs, e, l, h⟩ := C193_bounded (A := 1) (B := 20005 / 10000) (γ := 1 / 2) frac_holds mmFloor_contract
    (by decide +kernel) (by decide +kernel) (by norm_num) (by norm_num) (by norm_num) (by norm_num) (by norm_num) (by
      have : ∀ y ∈ fracSamples.drop 20 ++ fracSamples.take 20, y.isFin = true ∧ |y.val| ≤ 1 := by decide +kernel
      exact fun y hy => ⟨(this y hy).1, (this y hy).2.trans (by norm_num)⟩) (ts := ts)
    (by rw [show (fracSamples.drop 20 ++ fracSamples.take 20).length = 32 from rfl]; exact hts)
  exact ⟨mem', d', rs, e, l, fun r hr => ⟨(h r hr).1, (h r hr).2.trans (by norm_num)⟩⟩

/-- Such turns: an input of 1 read at -3/2, then silence read at -7/4. -/
example : ∀ t ∈ [Turn.mk (lit 1) (lit (1/2)) (lit (-3/2)), ⟨lit 0, lit (-1/2), lit (-7/4)⟩], t.Ok 1 (1 / 2) 32 := by
  unfold Turn.Ok Capped
  decide +kernel

/-- The reads: a quarter of a sample before the cursor the buffer holds 3/4 of the impulse; fed back with 1/2 it comes
round again. -/
example : (flange Cfg.debug64 mmFloor fracMem ⟨fracSlice, 20⟩
      [⟨lit 0, lit (1/2), lit (-1/4)⟩, ⟨lit 0, lit (1/2), lit (-1)⟩]).map (fun r => r.2.2) =
    .ok [lit (3/4), lit (3/8)] := by
  decide +kernel

end Verif
