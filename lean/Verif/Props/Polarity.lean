import Verif.Props.Network
import Verif.Props.Level
import Verif.Model.Oscillator

/-! # C154: turning a signal upside down turns the output upside down -/

namespace Verif
open F32

/-- `y` is `x` (for `s = false`) or `-x` (for `s = true`), where the sign of a zero and the bits of a NaN do not matter. -/
def Flip (s : Bool) (x y : F32) : Prop :=
  (x.isNaN = true ∧ y.isNaN = true) ∨ (x.isNaN = false ∧ y.isNaN = false ∧ y.val = if s then -x.val else x.val)

theorem Flip.of_bits {s : Bool} {x y : F32} (hx : x.isNaN = false) (hm : y.mag = x.mag) (hn : x.mag ≠ 0 → y.neg = (x.neg != s)) :
    Flip s x y := by
  refine .inr ⟨hx, by unfold isNaN at hx ⊢; rw [hm]; exact hx, ?_⟩
  by_cases h0 : x.mag = 0
  · rw [val_eq_zero.2 h0, val_eq_zero.2 (hm.trans h0)]; cases s <;> simp
  · rw [val_eq, val_eq, hm, hn h0]; cases s <;> cases x.neg <;> simp

/-- The same, in bits. -/
theorem Flip.bits {s : Bool} {x y : F32} (h : Flip s x y) (hx : x.isNaN = false) :
    y.isNaN = false ∧ y.mag = x.mag ∧ (x.mag ≠ 0 → y.neg = (x.neg != s)) := by
  obtain ⟨h, -⟩ | ⟨-, hy, hv⟩ := h
  · rw [hx] at h; cases h
  · refine ⟨hy, ?_, fun h0 => ?_⟩
    · have := congrArg (fun q : ℚ => |q|) hv
      simp only [abs_val] at this
      rw [← magVal_inj, this]
      cases s <;> simp [abs_val]
    · have h0 : x.val ≠ 0 := fun h => h0 (val_eq_zero.1 h)
      rcases lt_or_gt_of_ne h0 with h | h
      · rw [neg_of_val_neg h]
        cases s
        · exact neg_of_val_neg (by rw [hv]; simpa using h)
        · exact neg_of_val_pos (by rw [hv]; simpa using h)
      · rw [neg_of_val_pos h]
        cases s
        · exact neg_of_val_pos (by rw [hv]; simpa using h)
        · exact neg_of_val_neg (by rw [hv]; simpa using h)

theorem Flip.nan {s : Bool} {x y : F32} (hx : x.isNaN = true) (hy : y.isNaN = true) : Flip s x y := .inl ⟨hx, hy⟩

theorem Flip.isNaN_eq {s : Bool} {x y : F32} (h : Flip s x y) : y.isNaN = x.isNaN := by
  obtain ⟨h, h'⟩ | ⟨h, h', -⟩ := h <;> rw [h, h']

theorem Flip.isInf_eq {s : Bool} {x y : F32} (h : Flip s x y) (hx : x.isNaN = false) : y.isInf = x.isInf := by
  unfold isInf; rw [(h.bits hx).2.1]

theorem Flip.isFin_eq {s : Bool} {x y : F32} (h : Flip s x y) : y.isFin = x.isFin := by
  cases hx : x.isNaN
  · unfold isFin; rw [(h.bits hx).2.1]
  · have hy := h.isNaN_eq.trans hx
    rw [isNaN_iff] at hx hy
    have h1 : ¬ x.mag < infMag := by omega
    have h2 : ¬ y.mag < infMag := by omega
    unfold isFin; simp only [h1, h2]

theorem Flip.val_eq {s : Bool} {x y : F32} (h : Flip s x y) (hx : x.isNaN = false) : y.val = if s then -x.val else x.val := by
  obtain ⟨h, -⟩ | ⟨-, -, hv⟩ := h
  · rw [hx] at h; cases h
  · exact hv

theorem Flip.refl (x : F32) : Flip false x x := by
  cases h : x.isNaN
  · exact .inr ⟨h, h, rfl⟩
  · exact .inl ⟨h, h⟩

theorem Flip.self (x : F32) : Flip true x (-x) := by
  cases h : x.isNaN
  · exact .inr ⟨h, by simpa using h, by simp⟩
  · exact .inl ⟨h, by simpa using h⟩

theorem flip_rnd (s a b : Bool) (q : ℚ) : Flip s (rnd a q) (rnd b (if s then -q else q)) := by
  refine Flip.of_bits (rnd_not_nan _ _) ?_ ?_
  · rw [rnd_mag, rnd_mag]; cases s <;> simp
  · intro h0
    have hq : q ≠ 0 := by
      rintro rfl
      rw [rnd_zero, mag_pack] at h0; simp at h0
    rcases lt_or_gt_of_ne hq with h | h
    · rw [rnd_neg_of_neg h]
      cases s
      · simpa using rnd_neg_of_neg h
      · simpa using rnd_neg_of_nonneg (q := -q) (by linarith)
    · rw [rnd_neg_of_nonneg h]
      cases s
      · simpa using rnd_neg_of_nonneg h
      · simpa using rnd_neg_of_neg (q := -q) (by linarith)

theorem Flip.neg {s : Bool} {x y : F32} (h : Flip s x y) : Flip s (-x) (-y) := by
  obtain ⟨h, h'⟩ | ⟨h, h', hv⟩ := h
  · exact .inl ⟨by simpa using h, by simpa using h'⟩
  · refine .inr ⟨by simpa using h, by simpa using h', ?_⟩
    rw [val_neg', val_neg', hv]; cases s <;> simp

theorem Flip.add {s : Bool} {x y u v : F32} (h : Flip s x y) (h' : Flip s u v) : Flip s (x + u) (y + v) := by
  rw [add_def, add_def]
  unfold F32.add
  rw [h.isNaN_eq, h'.isNaN_eq]
  cases hx : x.isNaN
  · cases hu : u.isNaN
    · obtain ⟨-, hm, hn⟩ := h.bits hx
      obtain ⟨-, hm', hn'⟩ := h'.bits hu
      simp only [Bool.or_self, Bool.false_eq_true, if_false]
      rw [h.isInf_eq hx, h'.isInf_eq hu]
      cases hi : x.isInf
      · cases hj : u.isInf
        · simp only [Bool.false_eq_true, if_false]
          have := flip_rnd s (x.neg && u.neg) (y.neg && v.neg) (x.val + u.val)
          rw [h.val_eq hx, h'.val_eq hu]
          cases s
          · exact this
          · simpa [neg_add, add_comm] using this
        · simpa using h'
      · cases hj : u.isInf
        · simpa using h
        · have h1 : x.mag ≠ 0 := by rw [isInf_iff.1 hi]; decide
          have h2 : u.mag ≠ 0 := by rw [isInf_iff.1 hj]; decide
          rw [hn h1, hn' h2]
          have he : ((x.neg != s) != (u.neg != s)) = (x.neg != u.neg) := by cases s <;> cases x.neg <;> cases u.neg <;> rfl
          rw [he]
          cases (x.neg != u.neg)
          · simpa using h
          · simpa using Flip.nan isNaN_nan isNaN_nan
    · simpa using Flip.nan isNaN_nan isNaN_nan
  · simpa using Flip.nan isNaN_nan isNaN_nan

theorem Flip.sub {s : Bool} {x y u v : F32} (h : Flip s x y) (h' : Flip s u v) : Flip s (x - u) (y - v) := by
  rw [← add_neg_bits, ← add_neg_bits]; exact h.add h'.neg

theorem Flip.mul {s t : Bool} {x y u v : F32} (h : Flip s x y) (h' : Flip t u v) : Flip (s != t) (x * u) (y * v) := by
  rw [mul_def, mul_def]
  unfold F32.mul
  rw [h.isNaN_eq, h'.isNaN_eq]
  cases hx : x.isNaN
  · cases hu : u.isNaN
    · obtain ⟨-, hm, hn⟩ := h.bits hx
      obtain ⟨-, hm', hn'⟩ := h'.bits hu
      simp only [Bool.or_self, Bool.false_eq_true, if_false]
      rw [h.isInf_eq hx, h'.isInf_eq hu, hm, hm']
      cases hi : (x.isInf || u.isInf)
      · simp only [Bool.false_eq_true, if_false]
        have := flip_rnd (s != t) (x.neg != u.neg) (y.neg != v.neg) (x.val * u.val)
        rw [h.val_eq hx, h'.val_eq hu]
        cases s <;> cases t <;> simpa using this
      · by_cases h0 : x.mag = 0
        · simpa [h0] using Flip.nan isNaN_nan isNaN_nan
        · by_cases h1 : u.mag = 0
          · simpa [h1] using Flip.nan isNaN_nan isNaN_nan
          · simp only [h0, h1, decide_false, Bool.or_self, Bool.false_eq_true, if_false, if_true]
            rw [hn h0, hn' h1]
            have hp : ∀ b, (pack b infMag).isNaN = false := by decide
            refine Flip.of_bits (hp _) ?_ fun _ => ?_
            · rw [mag_pack, mag_pack]
            · rw [neg_pack, neg_pack]; cases s <;> cases t <;> cases x.neg <;> cases u.neg <;> rfl
    · simpa using Flip.nan isNaN_nan isNaN_nan
  · simpa using Flip.nan isNaN_nan isNaN_nan

/-- Scaling by one and the same number. -/
theorem Flip.mul_right {s : Bool} {x y : F32} (h : Flip s x y) (k : F32) : Flip s (x * k) (y * k) := by
  simpa using h.mul (Flip.refl k)
theorem Flip.mul_left {s : Bool} {x y : F32} (h : Flip s x y) (k : F32) : Flip s (k * x) (k * y) := by
  simpa using (Flip.refl k).mul h

theorem Flip.zero (s : Bool) : Flip s (lit 0 : F32) (lit 0) := by
  have h := isFin.not_nan (lit0_fin)
  refine .inr ⟨h, h, ?_⟩
  cases s <;> simp

theorem Flip.div_right {s : Bool} {x y : F32} (h : Flip s x y) (k : F32) : Flip s (x / k) (y / k) := by
  rw [div_def, div_def]
  unfold F32.div
  rw [h.isNaN_eq]
  have hp : ∀ m ≤ infMag, m < 2 ^ 31 → x.mag ≠ 0 → y.neg = (x.neg != s) →
      Flip s (pack (x.neg != k.neg) m) (pack (y.neg != k.neg) m) := by
    intro m hm hm' _ hn
    refine Flip.of_bits ?_ ?_ fun _ => ?_
    · rw [isNaN_false_iff, mag_pack_of_lt hm']; exact hm
    · rw [mag_pack, mag_pack]
    · rw [neg_pack, neg_pack, hn]; cases s <;> cases x.neg <;> cases k.neg <;> rfl
  cases hx : x.isNaN
  · cases hk : k.isNaN
    · obtain ⟨-, hm, hn⟩ := h.bits hx
      simp only [Bool.or_self, Bool.false_eq_true, if_false]
      rw [h.isInf_eq hx, hm]
      cases hi : x.isInf
      · cases hj : k.isInf
        · simp only [Bool.false_eq_true, if_false]
          by_cases hk0 : k.mag = 0
          · by_cases hx0 : x.mag = 0
            · simpa [hk0, hx0] using Flip.nan isNaN_nan isNaN_nan
            · rw [if_pos hk0, if_neg hx0, if_pos hk0, if_neg hx0]
              exact hp _ le_rfl (by decide) hx0 (hn hx0)
          · rw [if_neg hk0, if_neg hk0]
            have := flip_rnd s (x.neg != k.neg) (y.neg != k.neg) (x.val / k.val)
            rw [h.val_eq hx]
            cases s
            · exact this
            · simpa [neg_div] using this
        · simp only [Bool.false_eq_true, if_false, if_true]
          refine Flip.of_bits ?_ ?_ fun h0 => ?_
          · rw [isNaN_false_iff, mag_pack_of_lt (by norm_num)]; exact Nat.zero_le _
          · rw [mag_pack, mag_pack]
          · rw [mag_pack_of_lt (by norm_num)] at h0; exact absurd rfl h0
      · have h1 : x.mag ≠ 0 := by rw [isInf_iff.1 hi]; decide
        cases hj : k.isInf
        · simpa using hp _ le_rfl (by decide) h1 (hn h1)
        · simpa using Flip.nan isNaN_nan isNaN_nan
    · simpa using Flip.nan isNaN_nan isNaN_nan
  · simpa using Flip.nan isNaN_nan isNaN_nan

/-! ## Programs -/

/-- Both stop in the same way, or both return, and what they return is related. -/
def MRel {β γ : Type} (R : β → γ → Prop) : M β → M γ → Prop
  | .ok x, .ok y => R x y
  | .error e, .error e' => e = e'
  | _, _ => False

namespace MRel
variable {β γ β' γ' : Type} {R : β → γ → Prop} {R' : β' → γ' → Prop}

theorem bind {a : M β} {b : M γ} {f : β → M β'} {g : γ → M γ'} (h : MRel R a b) (hf : ∀ x y, R x y → MRel R' (f x) (g y)) :
    MRel R' (a >>= f) (b >>= g) := by
  cases a <;> cases b
  · exact h
  · exact h.elim
  · exact h.elim
  · exact hf _ _ h

theorem ok {x : β} {y : γ} (h : R x y) : MRel R (.ok x : M β) (.ok y) := h
theorem error (e : Fault) : MRel R (.error e : M β) (.error e : M γ) := rfl
theorem eq (a : M β) : MRel (fun x y : β => x = y) a a := by cases a <;> exact rfl
/-- A step that does not look at the samples. -/
theorem step {a : M β'} {f : β' → M β} {g : β' → M γ} (hf : ∀ x, MRel R (f x) (g x)) : MRel R (a >>= f) (a >>= g) :=
  (eq a).bind fun x _ e => e ▸ hf x
end MRel

/-- Two memories of the same shape whose cells are related. -/
def MemFlip (s : Bool) (mem mem' : Mem F32) : Prop :=
  ∀ b, Option.Rel (List.Forall₂ (Flip s)) (mem b) (mem' b)

variable {s : Bool} {mem mem' : Mem F32}

theorem MemFlip.load (h : MemFlip s mem mem') (p : Ptr) (i : ℕ) : MRel (Flip s) (load mem p i) (load mem' p i) := by
  unfold Verif.load
  cases p.block with
  | none => exact MRel.error _
  | some b =>
    simp only
    have hb := h b
    generalize hm' : mem' b = o at hb
    cases hm : mem b with
    | none => rw [hm] at hb; cases hb; exact MRel.error _
    | some xs =>
      rw [hm] at hb
      cases hb with
      | some hl =>
        rename_i ys
        simp only
        rcases Nat.lt_or_ge (p.off + i) xs.length with hi | hi
        · rw [List.getElem?_eq_getElem hi, List.getElem?_eq_getElem (by rw [← hl.length_eq]; exact hi)]
          exact (List.forall₂_iff_get.1 hl).2 _ hi (by rw [← hl.length_eq]; exact hi)
        · rw [List.getElem?_eq_none hi, List.getElem?_eq_none (by rw [← hl.length_eq]; exact hi)]
          exact MRel.error _

theorem forall₂_set {α β : Type} {R : α → β → Prop} {x : α} {y : β} (hv : R x y) : ∀ {xs : List α} {ys : List β} (i : ℕ),
    List.Forall₂ R xs ys → List.Forall₂ R (xs.set i x) (ys.set i y)
  | [], _, _, h => by cases h; simp
  | _ :: _, _, 0, h => by cases h with | cons h h' => exact .cons hv h'
  | _ :: _, _, i + 1, h => by cases h with | cons h h' => exact .cons h (forall₂_set hv i h')

theorem MemFlip.store (h : MemFlip s mem mem') (p : Ptr) (i : ℕ) {x y : F32} (hv : Flip s x y) :
    MRel (MemFlip s) (store mem p i x) (store mem' p i y) := by
  unfold Verif.store
  cases p.block with
  | none => exact MRel.error _
  | some b =>
    simp only
    have hb := h b
    generalize hm' : mem' b = o at hb
    cases hm : mem b with
    | none => rw [hm] at hb; cases hb; exact MRel.error _
    | some xs =>
      rw [hm] at hb
      cases hb with
      | some hl =>
        rename_i ys
        simp only
        rw [← hl.length_eq]
        split
        · intro b'
          show Option.Rel _ (if b' = b then _ else _) (if b' = b then _ else _)
          split
          · exact .some (forall₂_set hv _ hl)
          · exact h b'
        · exact MRel.error _

/-! ## Interpolation -/

open Interpolation in
theorem flip_lerp {a b a' b' : F32} (ha : Flip s a a') (hb : Flip s b b') (t : F32) :
    Flip s (lerpUnchecked a b t) (lerpUnchecked a' b' t) := (ha.mul_right _).add (hb.mul_right _)

open Interpolation in
theorem flip_lagrange4 {a b d e a' b' d' e' : F32} (ha : Flip s a a') (hb : Flip s b b') (hd : Flip s d d') (he : Flip s e e')
    (x : F32) : Flip s (lagrange4 a b d e x) (lagrange4 a' b' d' e' x) := by
  have step : ∀ {t t' : F32}, Flip s t t' → ∀ u k : F32, Flip s ((t * u) / k) ((t' * u) / k) := fun h u k =>
    (h.mul_right u).div_right k
  exact ((((Flip.zero s).add (step (step (step ha _ _) _ _) _ _)).add (step (step (step hb _ _) _ _) _ _)).add
    (step (step (step hd _ _) _ _) _ _)).add (step (step (step he _ _) _ _) _ _)

open Interpolation in
theorem flip_lagrangeTerm (n i : ℕ) {y y' : F32} (h : Flip s y y') (x : F32) :
    Flip s (lagrangeTerm n i y x) (lagrangeTerm n i y' x) := by
  unfold lagrangeTerm
  generalize List.range n = l
  induction l generalizing y y' with
  | nil => exact h
  | cons j l ih =>
    simp only [List.foldl_cons]
    apply ih
    split
    · exact (h.mul_right _).div_right _
    · exact h

open Interpolation in
theorem flip_lagrange (c : Cfg) {ys ys' : List F32} (h : List.Forall₂ (Flip s) ys ys') (x : F32) :
    MRel (Flip s) (lagrange c ys x) (lagrange c ys' x) := by
  unfold lagrange
  rw [h.length_eq]
  refine MRel.step fun n => ?_
  split
  · show Flip s _ _
    unfold lagrangeSum
    rw [h.length_eq]
    have : ∀ (l : List ℕ) {z z' : F32}, Flip s z z' →
        Flip s (l.foldl (fun acc i => acc + lagrangeTerm ys'.length i (ys.getD i (lit 0)) x) z)
          (l.foldl (fun acc i => acc + lagrangeTerm ys'.length i (ys'.getD i (lit 0)) x) z') := by
      intro l
      induction l with
      | nil => intro z z' hz; exact hz
      | cons i l ih =>
        intro z z' hz
        simp only [List.foldl_cons]
        refine ih (hz.add (flip_lagrangeTerm _ _ ?_ x))
        rw [List.getD_eq_getElem?_getD, List.getD_eq_getElem?_getD]
        rcases Nat.lt_or_ge i ys.length with hi | hi
        · rw [List.getElem?_eq_getElem hi, List.getElem?_eq_getElem (by rw [← h.length_eq]; exact hi)]
          exact (List.forall₂_iff_get.1 h).2 _ hi (by rw [← h.length_eq]; exact hi)
        · rw [List.getElem?_eq_none hi, List.getElem?_eq_none (by rw [← h.length_eq]; exact hi)]
          exact Flip.zero s
    exact this _ (Flip.zero s)
  · exact MRel.error _

section slices
variable (c : Cfg) (sl : MemorySlice)

theorem flip_getWrappedUnchecked (h : MemFlip s mem mem') (i : ℤ) :
    MRel (Flip s) (sl.getWrappedUnchecked c mem i) (sl.getWrappedUnchecked c mem' i) :=
  MRel.step fun _ => h.load _ _

theorem flip_getWrapped (h : MemFlip s mem mem') (i : ℤ) : MRel (Flip s) (sl.getWrapped c mem i) (sl.getWrapped c mem' i) := by
  unfold MemorySlice.getWrapped
  split
  · exact flip_getWrappedUnchecked c sl h i
  · exact h.load _ _

theorem flip_four (h : MemFlip s mem mem') (i : ℤ) :
    MRel (fun u v => Flip s u.1 v.1 ∧ Flip s u.2.1 v.2.1 ∧ Flip s u.2.2.1 v.2.2.1 ∧ Flip s u.2.2.2 v.2.2.2)
      (sl.getSliceOfFourWrapped c mem i) (sl.getSliceOfFourWrapped c mem' i) := by
  unfold MemorySlice.getSliceOfFourWrapped
  refine MRel.step fun i3 => ?_
  split
  · exact MRel.step fun _ => (flip_getWrappedUnchecked c sl h _).bind fun _ _ h1 => MRel.step fun _ =>
      (flip_getWrappedUnchecked c sl h _).bind fun _ _ h2 => MRel.step fun _ =>
      (flip_getWrappedUnchecked c sl h _).bind fun _ _ h3 => MRel.step fun _ =>
      (flip_getWrappedUnchecked c sl h _).bind fun _ _ h4 => ⟨h1, h2, h3, h4⟩
  · exact MRel.step fun _ => (h.load _ _).bind fun _ _ h1 => MRel.step fun _ =>
      (h.load _ _).bind fun _ _ h2 => MRel.step fun _ => (h.load _ _).bind fun _ _ h3 => MRel.step fun _ =>
      (h.load _ _).bind fun _ _ h4 => ⟨h1, h2, h3, h4⟩

theorem flip_lerpWrapped (h : MemFlip s mem mem') (floor : F32 → F32) (x : F32) :
    MRel (Flip s) (sl.lerpWrapped c mem floor x) (sl.lerpWrapped c mem' floor x) :=
  (flip_getWrapped c sl h _).bind fun _ _ h1 => MRel.step fun _ => (flip_getWrapped c sl h _).bind fun _ _ h2 => flip_lerp h1 h2 _

theorem flip_window (h : MemFlip s mem mem') (i : ℤ) (n : ℕ) : ∀ lo : ℤ,
    MRel (List.Forall₂ (Flip s)) (sl.lagrangeWindow c mem i lo n) (sl.lagrangeWindow c mem' i lo n) := by
  induction n with
  | zero => intro lo; exact List.Forall₂.nil
  | succ n ih =>
    intro lo
    exact MRel.step fun _ => (flip_getWrappedUnchecked c sl h _).bind fun _ _ h1 => (ih (lo + 1)).bind fun _ _ h2 => .cons h1 h2

theorem flip_lagrangeWrapped (h : MemFlip s mem mem') (floor : F32 → F32) (x : F32) (n : ℕ) :
    MRel (Flip s) (sl.lagrangeWrapped c mem floor x n) (sl.lagrangeWrapped c mem' floor x n) := by
  unfold MemorySlice.lagrangeWrapped
  refine (flip_window c sl h _ _ _).bind fun xs ys hl => flip_lagrange c (List.rel_append hl ?_) _
  generalize (if n > 100 then 100 else n) - 2 * ((if n > 100 then 100 else n) / 2) = m
  induction m with
  | zero => exact .nil
  | succ m ih => exact .cons (Flip.zero s) ih

theorem flip_get (h : MemFlip s mem mem') (i : ℕ) :
    MRel (fun u v => (∃ e, u = .error e ∧ v = .error e) ∨ ∃ a b, u = .ok a ∧ v = .ok b ∧ Flip s a b) (sl.get mem i) (sl.get mem' i) := by
  unfold MemorySlice.get
  split
  · exact MRel.ok (.inl ⟨_, rfl, rfl⟩)
  · exact (h.load _ _).bind fun a b hab => MRel.ok (.inr ⟨a, b, rfl, rfl, hab⟩)

/-- C154: reads of a memory turned upside down, with or without interpolation, checked or not; ... -/
theorem C154_readers (h : MemFlip s mem mem') (floor : F32 → F32) (x : F32) (n : ℕ) (i : ℤ) (d : DelayLine) :
    MRel (fun u v => (∃ e, u = .error e ∧ v = .error e) ∨ ∃ a b, u = .ok a ∧ v = .ok b ∧ Flip s a b)
      (sl.lerp c mem x) (sl.lerp c mem' x) ∧
    MRel (Flip s) (sl.lerpUnchecked c mem x) (sl.lerpUnchecked c mem' x) ∧
    MRel (Flip s) (sl.lerpWrapped c mem floor x) (sl.lerpWrapped c mem' floor x) ∧
    MRel (Flip s) (sl.lagrangeWrapped c mem floor x n) (sl.lagrangeWrapped c mem' floor x n) ∧
    MRel (Flip s) (sl.lagrangeFourPointsWrapped c mem floor x) (sl.lagrangeFourPointsWrapped c mem' floor x) ∧
    MRel (Flip s) (d.readWrappedAt c mem i) (d.readWrappedAt c mem' i) ∧
    MRel (Flip s) (d.readLerpWrappedAt c floor mem x) (d.readLerpWrappedAt c floor mem' x) ∧
    MRel (Flip s) (d.readLagrangeWrappedAt c floor mem x) (d.readLagrangeWrappedAt c floor mem' x) := by
  refine ⟨?_, (h.load _ _).bind fun _ _ h1 => MRel.step fun _ => (h.load _ _).bind fun _ _ h2 => flip_lerp h1 h2 _,
    flip_lerpWrapped c sl h floor x, flip_lagrangeWrapped c sl h floor x n,
    (flip_four c sl h _).bind fun _ _ hh => flip_lagrange4 hh.1 hh.2.1 hh.2.2.1 hh.2.2.2 _,
    MRel.step fun _ => flip_getWrapped c _ h _, flip_lerpWrapped c _ h floor _, flip_lagrangeWrapped c _ h floor _ _⟩
  unfold MemorySlice.lerp
  split
  · exact MRel.ok (.inl ⟨_, rfl, rfl⟩)
  · refine MRel.step fun n1 => ?_
    split
    · exact (h.load _ _).bind fun a b hab => MRel.ok (.inr ⟨a, b, rfl, rfl, hab⟩)
    · refine (flip_get sl h _).bind fun u v huv => ?_
      rcases huv with ⟨e, rfl, rfl⟩ | ⟨a, b, rfl, rfl, hab⟩
      · exact MRel.ok (.inl ⟨_, rfl, rfl⟩)
      · refine MRel.step fun _ => (flip_get sl h _).bind fun u v huv => ?_
        rcases huv with ⟨e, rfl, rfl⟩ | ⟨a', b', rfl, rfl, hab'⟩
        · exact MRel.ok (.inl ⟨_, rfl, rfl⟩)
        · exact MRel.ok (.inr ⟨_, _, rfl, rfl, flip_lerp hab hab' _⟩)

end slices

/-! ## Biquads -/

/-- Coefficients equal, state turned over. -/
def BiquadFlip (s : Bool) (f g : Biquad F32) : Prop := f.coeffs = g.coeffs ∧ Flip s f.z1 g.z1 ∧ Flip s f.z2 g.z2

theorem flip_process {f g : Biquad F32} (h : BiquadFlip s f g) {x y : F32} (hx : Flip s x y) :
    BiquadFlip s (f.process x).1 (g.process y).1 ∧ Flip s (f.process x).2 (g.process y).2 := by
  obtain ⟨hc, h1, h2⟩ := h
  unfold Biquad.process
  simp only [hc]
  have ho := (hx.mul_left g.coeffs.b0).add h1
  exact ⟨⟨rfl, ((hx.mul_left _).add h2).sub (ho.mul_left _), (hx.mul_left _).sub (ho.mul_left _)⟩, ho⟩

/-- C154: ... biquads, also while their coefficients change; ... -/
theorem C154_biquad {f g : Biquad F32} (h1 : Flip s f.z1 g.z1) (h2 : Flip s f.z2 g.z2) (co : ℕ → BiquadCoeffs F32) {x y : ℕ → F32}
    (hx : ∀ n, Flip s (x n) (y n)) (n : ℕ) :
    Flip s (f.outAtVar (fun n => (co n, x n)) n) (g.outAtVar (fun n => (co n, y n)) n) := by
  have hs : Flip s (f.stateAtVar (fun n => (co n, x n)) n).z1 (g.stateAtVar (fun n => (co n, y n)) n).z1 ∧
      Flip s (f.stateAtVar (fun n => (co n, x n)) n).z2 (g.stateAtVar (fun n => (co n, y n)) n).z2 := by
    induction n with
    | zero => exact ⟨h1, h2⟩
    | succ n ih => exact (flip_process (f := { f.stateAtVar (fun n => (co n, x n)) n with coeffs := co n })
        (g := { g.stateAtVar (fun n => (co n, y n)) n with coeffs := co n }) ⟨rfl, ih.1, ih.2⟩ (hx n)).1.2
  exact (flip_process (f := { f.stateAtVar (fun n => (co n, x n)) n with coeffs := co n })
    (g := { g.stateAtVar (fun n => (co n, y n)) n with coeffs := co n }) ⟨rfl, hs.1, hs.2⟩ (hx n)).2

/-! ## Networks -/

/-- The same processors, the filter states turned over. -/
inductive ProcFlip (s : Bool) : Proc F32 → Proc F32 → Prop
  | delay (d : DelayLine) : ProcFlip s (.delay d) (.delay d)
  | comb (k : Comb F32) {z : F32} : Flip s k.filterState z → ProcFlip s (.comb k) (.comb { k with filterState := z })
  | allPass (k : AllPass) : ProcFlip s (.allPass k) (.allPass k)

/-- A wire that turns its signal over with what it is fed: any sum of scaled signals, for example. -/
def OddWire (w : F32 → List F32 → F32) : Prop :=
  ∀ s x y os os', Flip s x y → List.Forall₂ (Flip s) os os' → Flip s (w x os) (w y os')

/-- The same wiring, the processors turned over. -/
def NodeFlip (s : Bool) (p q : Node F32) : Prop := p.wire = q.wire ∧ OddWire p.wire ∧ ProcFlip s p.proc q.proc

theorem flip_write (c : Cfg) (h : MemFlip s mem mem') (d : DelayLine) {x y : F32} (hv : Flip s x y) :
    MRel (fun u v => MemFlip s u.1 v.1 ∧ u.2 = v.2) (d.writeAndAdvance c mem x) (d.writeAndAdvance c mem' y) :=
  (h.store _ _ hv).bind fun _ _ hm => MRel.step fun _ => MRel.ok ⟨hm, rfl⟩

theorem flip_tick (c : Cfg) (h : MemFlip s mem mem') {p q : Proc F32} (hp : ProcFlip s p q) {x y : F32} (hx : Flip s x y) :
    MRel (fun u v => MemFlip s u.1 v.1 ∧ ProcFlip s u.2.1 v.2.1 ∧ Flip s u.2.2 v.2.2) (p.tick c mem x) (q.tick c mem' y) := by
  cases hp with
  | delay d =>
    exact (h.load _ _).bind fun o o' ho => (flip_write c h d hx).bind fun u v huv => MRel.ok ⟨huv.1, huv.2 ▸ .delay _, ho⟩
  | comb k hz =>
    refine MRel.bind (R := fun u v => MemFlip s u.1 v.1 ∧ ProcFlip s (.comb u.2.1) (.comb v.2.1) ∧ Flip s u.2.2 v.2.2) ?_
      fun u v huv => MRel.ok huv
    unfold Comb.tick
    refine (h.load _ _).bind fun o o' ho => ?_
    have hf := (ho.mul_right k.dampeningInverse).add (hz.mul_right k.dampening)
    refine (flip_write c h k.delayLine (hx.add (hf.mul_right k.feedback))).bind fun u v huv => MRel.ok ⟨huv.1, ?_, ho⟩
    obtain ⟨-, e⟩ := huv
    simp only [← e]
    exact ProcFlip.comb { k with delayLine := u.2, filterState := _ } hf
  | allPass k =>
    refine MRel.bind (R := fun u v => MemFlip s u.1 v.1 ∧ u.2.1 = v.2.1 ∧ Flip s u.2.2 v.2.2) ?_
      fun u v huv => MRel.ok ⟨huv.1, huv.2.1 ▸ .allPass _, huv.2.2⟩
    unfold AllPass.tick
    exact (h.load _ _).bind fun o o' ho => (flip_write c h k.delayLine (hx.add (ho.mul_right _))).bind fun u v huv =>
      MRel.ok ⟨huv.1, by rw [huv.2], hx.neg.add ho⟩

theorem flip_netTick (c : Cfg) {x y : F32} (hx : Flip s x y) {nds nds' : List (Node F32)} (hn : List.Forall₂ (NodeFlip s) nds nds') :
    ∀ {mem mem' : Mem F32} {os os' : List F32}, MemFlip s mem mem' → List.Forall₂ (Flip s) os os' →
    MRel (fun u v => MemFlip s u.1 v.1 ∧ List.Forall₂ (NodeFlip s) u.2.1 v.2.1 ∧ List.Forall₂ (Flip s) u.2.2 v.2.2)
      (Net.tick c x mem os nds) (Net.tick c y mem' os' nds') := by
  induction hn with
  | nil => intro mem mem' os os' hm ho; exact ⟨hm, .nil, ho⟩
  | cons hd _ ih =>
    intro mem mem' os os' hm ho
    obtain ⟨hw, hodd, hp⟩ := hd
    unfold Net.tick
    refine (flip_tick c hm hp (hw ▸ hodd s x y os os' hx ho)).bind fun u v huv =>
      (ih huv.1 (List.rel_append ho (.cons huv.2.2 .nil))).bind fun u' v' h' => ⟨h'.1, .cons ⟨hw, hodd, huv.2.1⟩ h'.2.1, h'.2.2⟩

/-- C154: ... and networks of delay lines, combs and all-passes, at every tick; ... -/
theorem C154_network (c : Cfg) (hm : MemFlip s mem mem') {nds nds' : List (Node F32)} (hn : List.Forall₂ (NodeFlip s) nds nds')
    {x y : ℕ → F32} (hx : ∀ n, Flip s (x n) (y n)) (n : ℕ) :
    MRel (List.Forall₂ (Flip s)) (Net.outAt c mem nds x n) (Net.outAt c mem' nds' y n) := by
  have hs : MRel (fun u v => MemFlip s u.1 v.1 ∧ List.Forall₂ (NodeFlip s) u.2 v.2) (Net.stateAt c mem nds x n)
      (Net.stateAt c mem' nds' y n) := by
    induction n with
    | zero => exact ⟨hm, hn⟩
    | succ n ih => exact ih.bind fun u v h => (flip_netTick c (hx n) h.2 h.1 .nil).bind fun u' v' h' => ⟨h'.1, h'.2.1⟩
  exact hs.bind fun u v h => (flip_netTick c (hx n) h.2 h.1 .nil).bind fun u' v' h' => h'.2.2

/-! ## Level -/

/-- C154: ... panning, crossfading and clipping. -/
theorem C154_level (sqrt : F32 → F32) (a : F32) {x y u v : F32} (h : Flip s x y) (h' : Flip s u v) :
    Flip s (Stereo.monoPanUnchecked a x).1 (Stereo.monoPanUnchecked a y).1 ∧
    Flip s (Stereo.monoPanUnchecked a x).2 (Stereo.monoPanUnchecked a y).2 ∧
    Flip s (Stereo.stereoPanUnchecked sqrt a (x, u)).1 (Stereo.stereoPanUnchecked sqrt a (y, v)).1 ∧
    Flip s (Stereo.stereoPanUnchecked sqrt a (x, u)).2 (Stereo.stereoPanUnchecked sqrt a (y, v)).2 ∧
    Flip s (Stereo.crossfadeCorrelatedUnchecked a (x, u)) (Stereo.crossfadeCorrelatedUnchecked a (y, v)) ∧
    MRel (Flip s) (Clipping.digitalClip x) (Clipping.digitalClip y) := by
  refine ⟨h.mul_right _, h.mul_right _, h.mul_right _, h'.mul_right _, (h.mul_right _).add (h'.mul_right _), ?_⟩
  obtain ⟨r, hr, hn, hf, -⟩ := C78_clip x
  obtain ⟨r', hr', hn', hf', -⟩ := C78_clip y
  rw [hr, hr']
  show Flip s r r'
  cases hx : x.isNaN
  · obtain ⟨h1, h2, -⟩ := hf hx
    obtain ⟨h3, h4, -⟩ := hf' (h.isNaN_eq.trans hx)
    refine .inr ⟨isFin.not_nan h1, isFin.not_nan h3, ?_⟩
    rw [h2, h4, h.val_eq hx]
    unfold clip1
    cases s
    · rfl
    · simp only [if_true]
      simp only [max_def, min_def]
      split_ifs <;> linarith
  · rw [hn hx, hn' (h.isNaN_eq.trans hx)]; exact h

/-- C154: ... and a wavetable oscillator whose table is turned over. -/
theorem C154_wavetable (c : Cfg) (h : MemFlip s mem mem') (o : WavetableOscillator SoftPhaseAccumulator) :
    MRel (fun u v => u.1 = v.1 ∧ Flip s u.2 v.2) (o.next c mem) (o.next c mem') :=
  MRel.bind (R := Flip s) ((h.load _ _).bind fun _ _ h1 => MRel.step fun _ => (h.load _ _).bind fun _ _ h2 => flip_lerp h1 h2 _)
    fun _ _ hv => ⟨rfl, hv⟩

/-! ## Examples -/

/-- Mixing with fixed gains is an odd wire. -/
theorem oddWire_mix (g : F32) (gs : List F32) :
    OddWire fun x os => (os.zip gs).foldl (fun acc p => acc + p.1 * p.2) (x * g) := by
  intro s x y os os' hx ho
  have h0 := hx.mul_right g
  simp only
  generalize x * g = a at h0
  generalize y * g = b at h0
  induction ho generalizing gs a b with
  | nil => exact h0
  | cons hd _ ih =>
    cases gs with
    | nil => exact h0
    | cons k gs => exact ih gs _ _ (h0.add (hd.mul_right k))

/-- A zero keeps its sign where a number would change it: hence "up to the sign of a zero". -/
example : (lit 1 + -lit 1 : F32) = lit 0 ∧ (-lit 1 + -(-lit 1) : F32) = lit 0 ∧ Flip true (lit 1 + -lit 1) (-lit 1 + -(-lit 1)) := by
  refine ⟨by decide +kernel, by decide +kernel, ?_⟩
  exact (Flip.self (lit 1)).add (Flip.self (-lit 1))

/-- Turning over cannot be read off the code: a step that adds a constant breaks it. -/
example : ¬ Flip true ((lit 1 : F32) + lit 1) (-lit 1 + lit 1) := by
  rintro (⟨h, -⟩ | ⟨-, -, h⟩)
  · revert h; decide +kernel
  · revert h; decide +kernel

/-- A comb fed with the negated signal. -/
example (c : Cfg) (mem mem' : Mem F32) (hm : MemFlip true mem mem') (k : Comb F32) (x : ℕ → F32) (n : ℕ) :
    MRel (List.Forall₂ (Flip true)) (Net.outAt c mem [⟨fun x _ => x, .comb k⟩] x n)
      (Net.outAt c mem' [⟨fun x _ => x, .comb { k with filterState := -k.filterState }⟩] (fun n => -x n) n) := by
  refine C154_network c hm ?_ (fun n => Flip.self (x n)) n
  exact .cons ⟨rfl, fun _ _ _ _ _ h _ => h, .comb k (Flip.self _)⟩ .nil
end Verif
