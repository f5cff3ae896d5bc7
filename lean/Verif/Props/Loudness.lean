import Verif.Props.Polarity
import Verif.Props.Ratio

/-! # C163: a signal 2^k times as loud comes out 2^k times as loud

Rounding commutes with powers of two except where numbers become subnormal or overflow. The side condition is stated by running the
same code with numbers that remember whether that has happened to anything they were computed from. -/

namespace Verif
open F32

/-! ## Numbers that remember -/

/-- A float with a mark: nothing it was computed from would have rounded differently with the signal `k` octaves louder. -/
structure Traced (k : ℕ) where
  v : F32
  ok : Bool

/-- Made `k` octaves louder, the number `q` does not overflow. -/
def fits (k : ℕ) (q : ℚ) : Bool := (rnd false (2 ^ k * q)).isFin

/-- Zero or not below the least normal number. -/
def normal (q : ℚ) : Bool := q = 0 || 1 / 2 ^ 126 ≤ |q|

namespace Traced
variable {k : ℕ}

/-- The mark is good to begin with. -/
def fresh (k : ℕ) (x : F32) : Traced k := ⟨x, true⟩

instance : Add (Traced k) := ⟨fun a b => ⟨a.v + b.v, a.ok && b.ok && fits k (a.v.val + b.v.val)⟩⟩
instance : Sub (Traced k) := ⟨fun a b => ⟨a.v - b.v, a.ok && b.ok && fits k (a.v.val - b.v.val)⟩⟩
instance : Neg (Traced k) := ⟨fun a => ⟨-a.v, a.ok⟩⟩
instance : Mul (Traced k) := ⟨fun a b => ⟨a.v * b.v,
  a.ok && b.ok && a.v.isFin && b.v.isFin && normal (a.v.val * b.v.val) && fits k (a.v.val * b.v.val)⟩⟩
instance : Lit (Traced k) := ⟨fun q => fresh k (lit q)⟩
end Traced

/-! ## Rounding -/

/-- A number below the normal range that is a multiple of the least float is a float. -/
theorem rep_subnormal {m : ℤ} (h : |m| ≤ 2 ^ 23) : Rep ((m : ℚ) / unit) := by
  have key : ∀ n : ℕ, n ≤ 2 ^ 23 → Rep ((n : ℚ) / unit) := by
    intro n hn
    refine ⟨pack false n, ?_, ?_⟩
    · rw [isFin_iff, mag_pack_of_lt (by omega)]; unfold infMag; omega
    · rw [val_of_pos (by simp), mag_pack_of_lt (by omega)]
      unfold magVal magInt
      split
      · rfl
      · obtain rfl : n = 2 ^ 23 := by omega
        norm_num
  rcases le_total 0 m with h0 | h0
  · obtain ⟨n, rfl⟩ := Int.eq_ofNat_of_zero_le h0
    rw [abs_of_nonneg h0] at h
    simpa using key n (by exact_mod_cast h)
  · obtain ⟨n, hn⟩ := Int.eq_ofNat_of_zero_le (neg_nonneg.2 h0)
    rw [abs_of_nonpos h0, hn] at h
    have := (key n (by exact_mod_cast h)).neg
    rw [show (m : ℚ) = -(n : ℚ) by have : m = -(n:ℤ) := by omega
                                   rw [this]; push_cast; rfl, neg_div]
    exact this

theorem val_units (x : F32) : ∃ m : ℤ, x.val = m / unit := by
  rw [val_eq]
  unfold magVal
  split
  · exact ⟨-(magInt x.mag : ℤ), by push_cast; ring⟩
  · exact ⟨(magInt x.mag : ℤ), by push_cast; ring⟩

theorem fits_iff {k : ℕ} {q : ℚ} (h : fits k q = true) (s : Bool) : (rnd s (2 ^ k * q)).isFin = true := by
  unfold fits at h
  rw [isFin_iff, rnd_mag] at h ⊢
  exact h

theorem up_rnd {k : ℕ} {q : ℚ} (s t : Bool) (hn : q = 0 ∨ 1 / 2 ^ 126 ≤ |q|) (hf : fits k q = true) : Up k (rnd s q) (rnd t (2 ^ k * q)) := by
  have hF := fits_iff hf
  rcases hn with rfl | h
  · rw [mul_zero] at hF ⊢
    exact ⟨hF s, hF t, by rw [rnd_val_zero, rnd_val_zero, mul_zero]⟩
  · have h0 : q ≠ 0 := by rintro rfl; rw [abs_zero] at h; exact absurd h (by norm_num)
    rw [rnd_sign_irrel (s := t) (t := s) (mul_ne_zero (by positivity) h0)]
    obtain ⟨a, b⟩ := rnd_scale k h (hF s)
    exact ⟨a, hF s, b⟩

theorem up_rnd_exact {k : ℕ} {q : ℚ} (s t : Bool) {m : ℤ} (hm : q = m / unit) (hf : fits k q = true) : Up k (rnd s q) (rnd t (2 ^ k * q)) := by
  rcases le_or_gt (1 / 2 ^ 126) |q| with h | h
  · exact up_rnd s t (.inr h) hf
  have hr : Rep q := by
    rw [hm]
    apply rep_subnormal
    have : |(m : ℚ)| ≤ 2 ^ 23 := by
      rw [hm, abs_div, abs_of_pos unit_pos, div_lt_iff₀ unit_pos] at h
      refine h.le.trans (le_of_eq ?_)
      unfold unit; norm_num
    exact_mod_cast this
  have hF := fits_iff hf
  have hr' : (rnd t (2 ^ k * q)).val = 2 ^ k * q := by
    obtain ⟨x, xf, xv⟩ := hr
    have hb : |x.val * 2 ^ k| < 2 ^ 128 := by
      by_contra hc
      rw [not_lt, xv, mul_comm] at hc
      have := hF t
      rw [isFin_iff, rnd_mag] at this
      have h2 : infMag ≤ roundIdx (|2 ^ k * q| * unit) := by
        rw [← magVal_infMag] at hc
        have e : roundIdx (magInt infMag : ℚ) = infMag := roundIdx_exact _
        rw [← e]
        apply roundIdx_mono (by positivity)
        unfold magVal at hc
        rwa [div_le_iff₀ unit_pos] at hc
      omega
    have := rep_scale xf k hb
    rw [xv, mul_comm] at this
    exact this.rnd_val t
  exact ⟨hr.rnd_fin s, hF t, by rw [hr', hr.rnd_val s]⟩

/-! ## The same code over two kinds of numbers -/

section
variable {α β : Type} [Add α] [Sub α] [Mul α] [Neg α] [Lit α] [Add β] [Sub β] [Mul β] [Neg β] [Lit β]

/-- Two relations between two kinds of numbers that their arithmetic respects: `R` for samples, `S` for settings. Samples are added and
subtracted, turned over and scaled by settings. -/
structure Respects (R S : α → β → Prop) : Prop where
  add {a b x y} : R a x → R b y → R (a + b) (x + y)
  sub {a b x y} : R a x → R b y → R (a - b) (x - y)
  mulR {a b x y} : R a x → S b y → R (a * b) (x * y)
  mulL {a b x y} : S a x → R b y → R (a * b) (x * y)
  neg {a x} : R a x → R (-a) (-x)
  lit (q : ℚ) : S (lit q) (lit q)

def MemOver (R : α → β → Prop) (mem : Mem α) (mem' : Mem β) : Prop := ∀ b, Option.Rel (List.Forall₂ R) (mem b) (mem' b)

/-- The same processor with related numbers in it. -/
inductive ProcOver (R S : α → β → Prop) : Proc α → Proc β → Prop
  | delay (d : DelayLine) : ProcOver R S (.delay d) (.delay d)
  | comb (d : DelayLine) {f s p q f' s' p' q'} : S f f' → R s s' → S p p' → S q q' → ProcOver R S (.comb ⟨d, f, s, p, q⟩) (.comb ⟨d, f', s', p', q'⟩)
  | allPass (k : AllPass) : ProcOver R S (.allPass k) (.allPass k)

def WireOver (R : α → β → Prop) (w : α → List α → α) (w' : β → List β → β) : Prop :=
  ∀ x y os os', R x y → List.Forall₂ R os os' → R (w x os) (w' y os')

def NodeOver (R S : α → β → Prop) (p : Node α) (q : Node β) : Prop := WireOver R p.wire q.wire ∧ ProcOver R S p.proc q.proc

omit [Add α] [Sub α] [Mul α] [Neg α] [Lit α] [Add β] [Sub β] [Mul β] [Neg β] [Lit β] in
theorem MemOver.load {R : α → β → Prop} {mem : Mem α} {mem' : Mem β} (h : MemOver R mem mem') (p : Ptr) (i : ℕ) :
    MRel R (Verif.load mem p i) (Verif.load mem' p i) := by
  unfold Verif.load
  cases p.block with
  | none => exact MRel.error _
  | some b =>
    simp only
    have hb := h b
    generalize hm' : mem' b = o at hb
    cases hm : mem b with
    | none => rw [hm] at hb; cases hb; exact MRel.error _
    | some xs =>
      rw [hm] at hb
      cases hb with
      | some hl =>
        simp only
        rcases Nat.lt_or_ge (p.off + i) xs.length with hi | hi
        · rw [List.getElem?_eq_getElem hi, List.getElem?_eq_getElem (by rw [← hl.length_eq]; exact hi)]
          exact (List.forall₂_iff_get.1 hl).2 _ hi (by rw [← hl.length_eq]; exact hi)
        · rw [List.getElem?_eq_none hi, List.getElem?_eq_none (by rw [← hl.length_eq]; exact hi)]
          exact MRel.error _

omit [Add α] [Sub α] [Mul α] [Neg α] [Lit α] [Add β] [Sub β] [Mul β] [Neg β] [Lit β] in
theorem MemOver.store {R : α → β → Prop} {mem : Mem α} {mem' : Mem β} (h : MemOver R mem mem') (p : Ptr) (i : ℕ) {x : α} {y : β} (hv : R x y) :
    MRel (MemOver R) (Verif.store mem p i x) (Verif.store mem' p i y) := by
  unfold Verif.store
  cases p.block with
  | none => exact MRel.error _
  | some b =>
    simp only
    have hb := h b
    generalize hm' : mem' b = o at hb
    cases hm : mem b with
    | none => rw [hm] at hb; cases hb; exact MRel.error _
    | some xs =>
      rw [hm] at hb
      cases hb with
      | some hl =>
        simp only
        rw [← hl.length_eq]
        split
        · intro b'
          show Option.Rel _ (if b' = b then _ else _) (if b' = b then _ else _)
          split
          · exact .some (forall₂_set hv _ hl)
          · exact h b'
        · exact MRel.error _

variable {R S : α → β → Prop} {mem : Mem α} {mem' : Mem β}

omit [Add α] [Sub α] [Mul α] [Neg α] [Lit α] [Add β] [Sub β] [Mul β] [Neg β] [Lit β] in
theorem over_write (c : Cfg) (h : MemOver R mem mem') (d : DelayLine) {x : α} {y : β} (hv : R x y) :
    MRel (fun u v => MemOver R u.1 v.1 ∧ u.2 = v.2) (d.writeAndAdvance c mem x) (d.writeAndAdvance c mem' y) :=
  (h.store _ _ hv).bind fun _ _ hm => MRel.step fun _ => MRel.ok ⟨hm, rfl⟩

theorem over_tick (hR : Respects R S) (c : Cfg) (h : MemOver R mem mem') {p : Proc α} {q : Proc β} (hp : ProcOver R S p q) {x : α} {y : β} (hx : R x y) :
    MRel (fun u v => MemOver R u.1 v.1 ∧ ProcOver R S u.2.1 v.2.1 ∧ R u.2.2 v.2.2) (p.tick c mem x) (q.tick c mem' y) := by
  cases hp with
  | delay d =>
    exact (h.load _ _).bind fun o o' ho => (over_write c h d hx).bind fun u v huv => MRel.ok ⟨huv.1, huv.2 ▸ .delay _, ho⟩
  | comb d h1 h2 h3 h4 =>
    refine MRel.bind (R := fun u v => MemOver R u.1 v.1 ∧ ProcOver R S (.comb u.2.1) (.comb v.2.1) ∧ R u.2.2 v.2.2) ?_
      fun u v huv => MRel.ok huv
    unfold Comb.tick
    refine (h.load _ _).bind fun o o' ho => ?_
    have hf := hR.add (hR.mulR ho h4) (hR.mulR h2 h3)
    refine (over_write c h d (hR.add hx (hR.mulR hf h1))).bind fun u v huv => MRel.ok ⟨huv.1, ?_, ho⟩
    obtain ⟨-, e⟩ := huv
    simp only [← e]
    exact ProcOver.comb _ h1 hf h3 h4
  | allPass k =>
    refine MRel.bind (R := fun u v => MemOver R u.1 v.1 ∧ u.2.1 = v.2.1 ∧ R u.2.2 v.2.2) ?_
      fun u v huv => MRel.ok ⟨huv.1, huv.2.1 ▸ .allPass _, huv.2.2⟩
    unfold AllPass.tick
    exact (h.load _ _).bind fun o o' ho => (over_write c h k.delayLine (hR.add hx (hR.mulR ho (hR.lit _)))).bind fun u v huv =>
      MRel.ok ⟨huv.1, by rw [huv.2], hR.add (hR.neg hx) ho⟩

theorem over_netTick (hR : Respects R S) (c : Cfg) {x : α} {y : β} (hx : R x y) {nds : List (Node α)} {nds' : List (Node β)}
    (hn : List.Forall₂ (NodeOver R S) nds nds') :
    ∀ {mem : Mem α} {mem' : Mem β} {os : List α} {os' : List β}, MemOver R mem mem' → List.Forall₂ R os os' →
    MRel (fun u v => MemOver R u.1 v.1 ∧ List.Forall₂ (NodeOver R S) u.2.1 v.2.1 ∧ List.Forall₂ R u.2.2 v.2.2)
      (Net.tick c x mem os nds) (Net.tick c y mem' os' nds') := by
  induction hn with
  | nil => intro mem mem' os os' hm ho; exact ⟨hm, .nil, ho⟩
  | cons hd _ ih =>
    intro mem mem' os os' hm ho
    obtain ⟨hw, hp⟩ := hd
    unfold Net.tick
    refine (over_tick hR c hm hp (hw x y os os' hx ho)).bind fun u v huv =>
      (ih huv.1 (List.rel_append ho (.cons huv.2.2 .nil))).bind fun u' v' h' => ⟨h'.1, .cons ⟨hw, huv.2.1⟩ h'.2.1, h'.2.2⟩

/-- Networks over related numbers run alike. -/
theorem over_network (hR : Respects R S) (c : Cfg) (hm : MemOver R mem mem') {nds : List (Node α)} {nds' : List (Node β)}
    (hn : List.Forall₂ (NodeOver R S) nds nds') {x : ℕ → α} {y : ℕ → β} (hx : ∀ n, R (x n) (y n)) (n : ℕ) :
    MRel (List.Forall₂ R) (Net.outAt c mem nds x n) (Net.outAt c mem' nds' y n) := by
  have hs : MRel (fun u v => MemOver R u.1 v.1 ∧ List.Forall₂ (NodeOver R S) u.2 v.2) (Net.stateAt c mem nds x n)
      (Net.stateAt c mem' nds' y n) := by
    induction n with
    | zero => exact ⟨hm, hn⟩
    | succ n ih => exact ih.bind fun u v h => (over_netTick hR c (hx n) h.2 h.1 .nil).bind fun u' v' h' => ⟨h'.1, h'.2.1⟩
  exact hs.bind fun u v h => (over_netTick hR c (hx n) h.2 h.1 .nil).bind fun u' v' h' => h'.2.2

def CoeffsOver (S : α → β → Prop) (a : BiquadCoeffs α) (b : BiquadCoeffs β) : Prop :=
  S a.b0 b.b0 ∧ S a.b1 b.b1 ∧ S a.b2 b.b2 ∧ S a.a1 b.a1 ∧ S a.a2 b.a2

theorem over_process (hR : Respects R S) {f : Biquad α} {g : Biquad β} (h1 : R f.z1 g.z1) (h2 : R f.z2 g.z2) (hc : CoeffsOver S f.coeffs g.coeffs)
    {x : α} {y : β} (hx : R x y) : R (f.process x).1.z1 (g.process y).1.z1 ∧ R (f.process x).1.z2 (g.process y).1.z2 ∧
      R (f.process x).2 (g.process y).2 := by
  obtain ⟨c0, c1, c2, c3, c4⟩ := hc
  have ho := hR.add (hR.mulL c0 hx) h1
  exact ⟨hR.sub (hR.add (hR.mulL c1 hx) h2) (hR.mulL c3 ho), hR.sub (hR.mulL c2 hx) (hR.mulL c4 ho), ho⟩

/-- So do biquads, with their coefficients replaced before any sample. -/
theorem over_biquad (hR : Respects R S) {f : Biquad α} {g : Biquad β} (h1 : R f.z1 g.z1) (h2 : R f.z2 g.z2)
    {h : ℕ → BiquadCoeffs α × α} {h' : ℕ → BiquadCoeffs β × β} (hh : ∀ n, CoeffsOver S (h n).1 (h' n).1 ∧ R (h n).2 (h' n).2) (n : ℕ) :
    R (f.outAtVar h n) (g.outAtVar h' n) := by
  have hs : R (f.stateAtVar h n).z1 (g.stateAtVar h' n).z1 ∧ R (f.stateAtVar h n).z2 (g.stateAtVar h' n).z2 := by
    induction n with
    | zero => exact ⟨h1, h2⟩
    | succ n ih =>
      have := over_process hR (f := { f.stateAtVar h n with coeffs := (h n).1 }) (g := { g.stateAtVar h' n with coeffs := (h' n).1 })
        ih.1 ih.2 (hh n).1 (hh n).2
      exact ⟨this.1, this.2.1⟩
  exact (over_process hR (f := { f.stateAtVar h n with coeffs := (h n).1 }) (g := { g.stateAtVar h' n with coeffs := (h' n).1 })
    hs.1 hs.2 (hh n).1 (hh n).2).2.2
end

/-- A mix: the input and the answers so far, each with its gain. -/
def mix {α : Type} [Add α] [Mul α] (g : α) (gs : List α) (x : α) (os : List α) : α :=
  (os.zip gs).foldl (fun acc p => acc + p.1 * p.2) (x * g)

theorem over_mix {α β : Type} [Add α] [Sub α] [Mul α] [Neg α] [Lit α] [Add β] [Sub β] [Mul β] [Neg β] [Lit β] {R S : α → β → Prop}
    (hR : Respects R S) {g : α} {g' : β} (hg : S g g') {gs : List α} {gs' : List β} (hs : List.Forall₂ S gs gs') :
    WireOver R (mix g gs) (mix g' gs') := by
  intro x y os os' hx ho
  have h0 := hR.mulR hx hg
  unfold mix
  generalize x * g = a at h0
  generalize y * g' = b at h0
  induction ho generalizing gs gs' a b with
  | nil => exact h0
  | cons hd _ ih =>
    cases hs with
    | nil => exact h0
    | cons hk hs => exact ih hs _ _ (hR.add h0 (hR.mulR hd hk))

/-! ## The two runs -/

/-- The marks do not change the numbers. -/
theorem respects_erase (k : ℕ) : Respects (fun (t : Traced k) (x : F32) => t.v = x) (fun t x => t.v = x) where
  add := by rintro a b _ _ rfl rfl; rfl
  sub := by rintro a b _ _ rfl rfl; rfl
  mulR := by rintro a b _ _ rfl rfl; rfl
  mulL := by rintro a b _ _ rfl rfl; rfl
  neg := by rintro a _ rfl; rfl
  lit _ := rfl

/-- While the marks are good, the louder signal is the signal made louder. -/
def Louder (k : ℕ) (t : Traced k) (y : F32) : Prop := t.ok = true → Up k t.v y

theorem respects_louder (k : ℕ) : Respects (Louder k) (fun t y => t.v = y) where
  lit _ := rfl
  neg := by
    intro a x h hok
    have := h hok
    exact ⟨by show (-a.v).isFin = true; simpa using this.fin, by simpa using this.fin', by
      show (-x).val = 2 ^ k * (-a.v).val
      rw [val_neg', val_neg', this.val]; ring⟩
  add := by
    intro a b x y ha hb hok
    change (a.ok && b.ok && fits k (a.v.val + b.v.val)) = true at hok
    show Up k (a.v + b.v) (x + y)
    simp only [Bool.and_eq_true] at hok
    obtain ⟨⟨o1, o2⟩, o3⟩ := hok
    have h1 := ha o1
    have h2 := hb o2
    rw [add_fin h1.fin h2.fin, add_fin h1.fin' h2.fin', h1.val, h2.val, ← mul_add]
    obtain ⟨m, em⟩ := val_units a.v
    obtain ⟨n, en⟩ := val_units b.v
    exact up_rnd_exact _ _ (m := m + n) (by rw [em, en]; push_cast; ring) o3
  sub := by
    intro a b x y ha hb hok
    change (a.ok && b.ok && fits k (a.v.val - b.v.val)) = true at hok
    show Up k (a.v - b.v) (x - y)
    simp only [Bool.and_eq_true] at hok
    obtain ⟨⟨o1, o2⟩, o3⟩ := hok
    have h1 := ha o1
    have h2 := hb o2
    rw [sub_fin h1.fin h2.fin, sub_fin h1.fin' h2.fin', h1.val, h2.val, ← mul_sub]
    obtain ⟨m, em⟩ := val_units a.v
    obtain ⟨n, en⟩ := val_units b.v
    exact up_rnd_exact _ _ (m := m - n) (by rw [em, en]; push_cast; ring) o3
  mulR := by
    rintro a b x _ ha rfl hok
    change (a.ok && b.ok && a.v.isFin && b.v.isFin && normal (a.v.val * b.v.val) && fits k (a.v.val * b.v.val)) = true at hok
    show Up k (a.v * b.v) (x * b.v)
    simp only [Bool.and_eq_true, normal, Bool.or_eq_true, decide_eq_true_eq] at hok
    obtain ⟨⟨⟨⟨⟨o1, -⟩, -⟩, f2⟩, hn⟩, hf⟩ := hok
    have h1 := ha o1
    rw [mul_fin h1.fin f2, mul_fin h1.fin' f2, h1.val, mul_assoc]
    exact up_rnd _ _ hn hf
  mulL := by
    rintro a b _ y rfl hb hok
    change (a.ok && b.ok && a.v.isFin && b.v.isFin && normal (a.v.val * b.v.val) && fits k (a.v.val * b.v.val)) = true at hok
    show Up k (a.v * b.v) (a.v * y)
    simp only [Bool.and_eq_true, normal, Bool.or_eq_true, decide_eq_true_eq] at hok
    obtain ⟨⟨⟨⟨⟨-, o1⟩, f2⟩, -⟩, hn⟩, hf⟩ := hok
    have h1 := hb o1
    rw [mul_fin f2 h1.fin, mul_fin f2 h1.fin', h1.val, show a.v.val * (2 ^ k * b.v.val) = 2 ^ k * (a.v.val * b.v.val) by ring]
    exact up_rnd _ _ hn hf

/-! ## C163 -/

/-- C163: a biquad, its coefficients replaced before any sample. The marked run returns what the run returns; where its mark is good, the
run on the louder signal returns exactly `2^k` times that. -/
theorem C163_biquad {k : ℕ} {f g : Biquad F32} (h1 : Up k f.z1 g.z1) (h2 : Up k f.z2 g.z2) (co : ℕ → BiquadCoeffs F32) {x y : ℕ → F32}
    (hx : ∀ n, Up k (x n) (y n)) (n : ℕ) :
    let t := (⟨.fresh k f.z1, .fresh k f.z2, f.coeffs.map (.fresh k)⟩ : Biquad (Traced k)).outAtVar (fun n => ((co n).map (.fresh k), .fresh k (x n))) n
    t.v = f.outAtVar (fun n => (co n, x n)) n ∧
    (t.ok = true → Up k (f.outAtVar (fun n => (co n, x n)) n) (g.outAtVar (fun n => (co n, y n)) n)) := by
  intro t
  have e1 : t.v = f.outAtVar (fun n => (co n, x n)) n :=
    over_biquad (respects_erase k) (f := ⟨.fresh k f.z1, .fresh k f.z2, f.coeffs.map (.fresh k)⟩) (g := f) rfl rfl
      (h := fun n => ((co n).map (.fresh k), .fresh k (x n))) (fun n => ⟨⟨rfl, rfl, rfl, rfl, rfl⟩, rfl⟩) n
  have e2 : Louder k t (g.outAtVar (fun n => (co n, y n)) n) :=
    over_biquad (respects_louder k) (f := ⟨.fresh k f.z1, .fresh k f.z2, f.coeffs.map (.fresh k)⟩) (g := g) (fun _ => h1) (fun _ => h2)
      (h := fun n => ((co n).map (.fresh k), .fresh k (x n))) (h' := fun n => (co n, y n)) (fun n => ⟨⟨rfl, rfl, rfl, rfl, rfl⟩, fun _ => hx n⟩) n
  exact ⟨e1, fun h => e1 ▸ e2 h⟩

/-- A mixing node. -/
structure MixNode (α : Type) where
  gain : α
  gains : List α
  proc : Proc α

def MixNode.node {α : Type} [Add α] [Mul α] (m : MixNode α) : Node α := ⟨mix m.gain m.gains, m.proc⟩

/-- The same with marks. -/
def Proc.traced (k : ℕ) : Proc F32 → Proc (Traced k)
  | .delay d => .delay d
  | .comb b => .comb ⟨b.delayLine, .fresh k b.feedback, .fresh k b.filterState, .fresh k b.dampening, .fresh k b.dampeningInverse⟩
  | .allPass a => .allPass a

def MixNode.traced (k : ℕ) (m : MixNode F32) : MixNode (Traced k) := ⟨.fresh k m.gain, m.gains.map (.fresh k), m.proc.traced k⟩

/-- The same node in the louder run: the low-pass state of a comb is louder, nothing else differs. -/
inductive MixNode.Up (k : ℕ) : MixNode F32 → MixNode F32 → Prop
  | delay (g gs d) : MixNode.Up k ⟨g, gs, .delay d⟩ ⟨g, gs, .delay d⟩
  | comb (g gs) (b : Comb F32) {z : F32} : Verif.Up k b.filterState z → MixNode.Up k ⟨g, gs, .comb b⟩ ⟨g, gs, .comb { b with filterState := z }⟩
  | allPass (g gs a) : MixNode.Up k ⟨g, gs, .allPass a⟩ ⟨g, gs, .allPass a⟩

theorem fresh_list (k : ℕ) : ∀ xs : List F32, List.Forall₂ (fun (t : Traced k) x => t.v = x) (xs.map (Traced.fresh k)) xs
  | [] => .nil
  | _ :: xs => .cons rfl (fresh_list k xs)

/-- C163: the same for networks of delay lines, combs and all-passes with mixers between them, for every sample of every node. -/
theorem C163_network {k : ℕ} (c : Cfg) {mem mem' : Mem F32} (hm : MemOver (Up k) mem mem') {nds nds' : List (MixNode F32)}
    (hn : List.Forall₂ (MixNode.Up k) nds nds') {x y : ℕ → F32} (hx : ∀ n, Up k (x n) (y n)) (n : ℕ) :
    let t := Net.outAt c (fun b => (mem b).map (List.map (Traced.fresh k))) (nds.map fun m => (m.traced k).node) (fun n => .fresh k (x n)) n
    MRel (List.Forall₂ fun o v => o.v = v) t (Net.outAt c mem (nds.map MixNode.node) x n) ∧
    MRel (List.Forall₂ fun o v => o.ok = true → Up k o.v v) t (Net.outAt c mem' (nds'.map MixNode.node) y n) := by
  intro t
  constructor
  · refine over_network (respects_erase k) c (fun b => ?_) ?_ (fun n => rfl) n
    · cases mem b with
      | none => exact .none
      | some xs => exact .some (fresh_list k xs)
    · clear hn
      induction nds with
      | nil => exact .nil
      | cons m nds ih =>
        refine .cons ⟨over_mix (respects_erase k) rfl (fresh_list k _), ?_⟩ ih
        obtain ⟨g, gs, p⟩ := m
        cases p with
        | delay d => exact .delay d
        | comb b => exact .comb b.delayLine rfl rfl rfl rfl
        | allPass a => exact .allPass a
  · refine over_network (respects_louder k) c (fun b => ?_) ?_ (fun n _ => hx n) n
    · have hb := hm b
      generalize mem' b = o at hb
      cases hmb : mem b with
      | none => rw [hmb] at hb; cases hb; exact .none
      | some xs =>
        rw [hmb] at hb
        cases hb with
        | some hl =>
          refine .some ?_
          clear hmb
          induction hl with
          | nil => exact .nil
          | cons h _ ih => exact .cons (fun _ => h) ih
    · induction hn with
      | nil => exact .nil
      | cons h _ ih =>
        refine .cons ?_ ih
        cases h with
        | delay g gs d => exact ⟨over_mix (respects_louder k) rfl (fresh_list k _), .delay d⟩
        | comb g gs b hz => exact ⟨over_mix (respects_louder k) rfl (fresh_list k _), .comb b.delayLine rfl (fun _ => hz) rfl rfl⟩
        | allPass g gs a => exact ⟨over_mix (respects_louder k) rfl (fresh_list k _), .allPass a⟩

/-- C163: the condition is needed. The biquad that halves its input sends the least float to 0 and twice the least float to the least float. -/
theorem C163_needed : ∃ (f : Biquad F32) (x y : F32), Up 1 x y ∧ (f.process x).2 = lit 0 ∧ (f.process y).2 = x ∧ x.val ≠ 0 := by
  refine ⟨⟨lit 0, lit 0, ⟨lit (1 / 2), lit 0, lit 0, lit 0, lit 0⟩⟩, lit (1 / 2 ^ 149), lit (1 / 2 ^ 148), ⟨?_, ?_, ?_⟩, ?_, ?_, ?_⟩ <;> decide +kernel

/-- A run whose marks stay good: a resonant biquad, its first six samples. -/
def loudBiquad : Biquad (Traced 3) :=
  ⟨.fresh 3 (lit 0), .fresh 3 (lit 0), (⟨lit (1 / 4), lit (1 / 2), lit (1 / 4), lit (-1 / 3), lit (7 / 10)⟩ : BiquadCoeffs F32).map (.fresh 3)⟩

example : ∀ n < 6, (loudBiquad.outAtVar (fun n => (loudBiquad.coeffs, .fresh 3 (lit (n + 1)))) n).ok = true := by decide +kernel

/-- A comb of two cells: the run eight times as loud, sample by sample. -/
def loudMem : Mem F32 := fun b => if b = 0 then some [lit (1 / 3), lit (1 / 7)] else none
def loudComb : Comb F32 := ⟨⟨⟨⟨some 0, 0⟩, 2⟩, 0⟩, lit (7 / 10), lit (1 / 5), lit (1 / 4), lit (3 / 4)⟩

example : ∀ n < 5, (Net.outAt Cfg.debug64 (fun b => (loudMem b).map (List.map (Traced.fresh 3)))
    [((⟨lit (1 / 2), [], .comb loudComb⟩ : MixNode F32).traced 3).node] (fun _ => .fresh 3 (lit (1 / 10))) n).toOption.map (List.map (·.ok)) =
      some [true] := by decide +kernel

end Verif
