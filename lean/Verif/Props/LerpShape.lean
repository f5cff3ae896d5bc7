import Verif.Props.Interpolation

/-! # C126: the shape of `lerp` between its endpoints -/

namespace Verif
open F32 Interpolation

/-- C126 in full: moving the factor from 0 to 1 moves the result from one endpoint towards the other, never back and never
past an endpoint; between equal samples nothing moves. -/
def C126_full : Prop :=
  ∀ a b t t' r r' : F32, t.val ≤ t'.val → lerp a b t = .ok r → lerp a b t' = .ok r' →
    (a.val ≤ b.val → r.val ≤ r'.val ∧ a.val ≤ r.val ∧ r.val ≤ b.val) ∧ (a.val = b.val → r.val = a.val)

/-- The three parts fail separately. Between 3 and 3 at one tenth `lerp` gives 2.9999998. -/
theorem C126_constant_refuted :
    ¬ ∀ a t r : F32, lerp a a t = .ok r → t.isNaN = false → r.val = a.val := by
  intro h
  have h1 : lerp (lit 3) (lit 3) (lit (1/10)) = .ok ⟨0x403fffff#32⟩ := by decide +kernel
  exact absurd (h _ _ _ h1 (by decide +kernel)) (by decide +kernel)

/-- Between 0.7 and 0.7 at 0.15 it gives more than 0.7. -/
theorem C126_range_refuted :
    ¬ ∀ a b t r : F32, lerp a b t = .ok r → t.isNaN = false → a.val ≤ b.val → r.val ≤ b.val := by
  intro h
  have h1 : lerp (lit (7/10)) (lit (7/10)) (lit (15/100)) = .ok ⟨0x3f333334#32⟩ := by decide +kernel
  exact absurd (h _ _ _ _ h1 (by decide +kernel) le_rfl) (by decide +kernel)

/-- Between 1 and 2 the result goes back by one unit in the last place from one factor to the next. -/
theorem C126_monotone_refuted :
    ¬ ∀ a b t t' r r' : F32, t.val ≤ t'.val → lerp a b t = .ok r → lerp a b t' = .ok r' → a.val ≤ b.val → r.val ≤ r'.val := by
  intro h
  have h1 : lerp (lit 1) (lit 2) ⟨0x3e6a40a5#32⟩ = .ok ⟨0x3f9d4815#32⟩ := by decide +kernel
  have h2 : lerp (lit 1) (lit 2) ⟨0x3e6a40a6#32⟩ = .ok ⟨0x3f9d4814#32⟩ := by decide +kernel
  exact absurd (h _ _ _ _ _ _ (by decide +kernel) h1 h2 (by decide +kernel)) (by decide +kernel)

theorem C126_refuted : ¬ C126_full := by
  intro h
  refine C126_monotone_refuted fun a b t t' r r' ht hr hr' hab => ?_
  exact ((h a b t t' r r' ht hr hr').1 hab).1

/-- In exact arithmetic all of it holds. -/
theorem C126_exact_partial {α : Type} [Field α] [LinearOrder α] [IsStrictOrderedRing α] {a b t t' : α} (h0 : 0 ≤ t)
    (htt : t ≤ t') (h1 : t' ≤ 1) (hab : a ≤ b) :
    lerpUnchecked a b t ≤ lerpUnchecked a b t' ∧ a ≤ lerpUnchecked a b t ∧ lerpUnchecked a b t' ≤ b ∧
      lerpUnchecked a a t = a := by
  have e : ∀ a b t : α, lerpUnchecked a b t = a * (1 - t) + b * t := fun a b t => by simp [lerpUnchecked, Lit.lit]
  rw [e, e, e]
  refine ⟨by nlinarith, by nlinarith, by nlinarith, by ring⟩

/-- In floats it holds without any error when the endpoints lie on different sides of zero (or at zero): the two products then move in
the same direction. -/
theorem C126_partial {a b t t' : F32} (ha : a.isFin = true) (hb : b.isFin = true) (h0 : 0 ≤ t.val) (htt : t.val ≤ t'.val)
    (h1 : t'.val ≤ 1) (ha0 : a.val ≤ 0) (hb0 : 0 ≤ b.val) :
    ∃ r r', lerp a b t = .ok r ∧ lerp a b t' = .ok r' ∧ r.val ≤ r'.val ∧ a.val ≤ r.val ∧ r'.val ≤ b.val := by
  have mono : ∀ t t' : F32, 0 ≤ t.val → t.val ≤ t'.val → t'.val ≤ 1 → (lerpUnchecked a b t).val ≤ (lerpUnchecked a b t').val := by
    intro t t' h0 htt h1
    have ft : t.isFin = true := fin_of_val (by rw [abs_of_nonneg h0]; linarith)
    have ft' : t'.isFin = true := fin_of_val (by rw [abs_of_nonneg (by linarith)]; linarith)
    have c1 : (lit 1 - t' : F32).val ≤ (lit 1 - t : F32).val := by
      rw [sub_fin lit1_fin ft, sub_fin lit1_fin ft', lit1_val]; exact rnd_mono (by linarith)
    have i1 : ∀ s : F32, s.isFin = true → 0 ≤ s.val → s.val ≤ 1 → (lit 1 - s : F32).isFin = true ∧ 0 ≤ (lit 1 - s : F32).val ∧
        (lit 1 - s : F32).val ≤ 1 := by
      intro s hs s0 s1
      rw [sub_fin lit1_fin hs, lit1_val]
      have hb := rnd_pow_bound (s := (lit 1 : F32).neg && !s.neg) (k := 0) (by norm_num)
        (show |1 - s.val| ≤ 2 ^ 0 by rw [abs_le]; constructor <;> norm_num <;> linarith)
      exact ⟨hb.1, rnd_val_nonneg (by linarith), (le_abs_self _).trans (by simpa using hb.2)⟩
    obtain ⟨it1, it2, it3⟩ := i1 t ft h0 (by linarith)
    obtain ⟨iu1, iu2, iu3⟩ := i1 t' ft' (by linarith) h1
    have fa : ∀ s : F32, s.isFin = true → 0 ≤ s.val → s.val ≤ 1 → (a * s).isFin = true ∧ (b * s).isFin = true := by
      intro s hs s0 s1
      rw [mul_fin ha hs, mul_fin hb hs]
      have k : ∀ x : F32, |x.val * s.val| ≤ |x.val| := by
        intro x; rw [abs_mul, abs_of_nonneg s0]; exact mul_le_of_le_one_right (abs_nonneg _) s1
      exact ⟨rnd_fin ha (k a), rnd_fin hb (k b)⟩
    unfold lerpUnchecked
    rw [add_fin (fa _ it1 it2 it3).1 (fa _ ft h0 (by linarith)).2, add_fin (fa _ iu1 iu2 iu3).1 (fa _ ft' (by linarith) h1).2]
    refine rnd_mono (add_le_add ?_ ?_)
    · rw [mul_fin ha it1, mul_fin ha iu1]; exact rnd_mono (by nlinarith)
    · rw [mul_fin hb ft, mul_fin hb ft']; exact rnd_mono (by nlinarith)
  have z := lerpUnchecked_zero (t := lit 0) ha hb lit0_fin lit0_val
  have o := lerpUnchecked_one (t := lit 1) ha hb lit1_fin lit1_val
  refine ⟨_, _, lerp_ok ha hb (Or.inr ⟨h0, by linarith⟩), lerp_ok ha hb (Or.inr ⟨by linarith, h1⟩), mono t t' h0 htt h1, ?_, ?_⟩
  · rw [← z.2]; exact mono _ _ (by rw [lit0_val]) (by rw [lit0_val]; exact h0) (by linarith)
  · rw [← o.2]; exact mono _ _ (by linarith) (by rw [lit1_val]; exact h1) (by rw [lit1_val])

/-- In general it holds up to `6/2^24` of the larger endpoint. -/
theorem C126_near_partial {a b t t' : F32} (ha : a.isFin = true) (hb : b.isFin = true) (h0 : 0 ≤ t.val) (htt : t.val ≤ t'.val)
    (h1 : t'.val ≤ 1) (hab : a.val ≤ b.val) :
    ∃ r r', lerp a b t = .ok r ∧ lerp a b t' = .ok r' ∧
      r.val ≤ r'.val + (6 / 2 ^ 24 * max |a.val| |b.val| + 2 / 2 ^ 148) := by
  obtain ⟨r, e, -, hr⟩ := C49_lerp ha hb h0 (htt.trans h1)
  obtain ⟨r', e', -, hr'⟩ := C49_lerp ha hb (h0.trans htt) h1
  refine ⟨r, r', e, e', ?_⟩
  have hm : (1 - t.val) * a.val + t.val * b.val ≤ (1 - t'.val) * a.val + t'.val * b.val := by nlinarith
  rw [abs_le] at hr hr'
  have e1 : (6:ℚ) / 2 ^ 24 * max |a.val| |b.val| + 2 / 2 ^ 148 = 2 * (3 / 2 ^ 24 * max |a.val| |b.val| + 1 / 2 ^ 148) := by ring
  rw [e1]
  linarith [hr.1, hr.2, hr'.1, hr'.2]

-- from -0.3 to 0.7 at one tenth and two tenths
example : (lit (-3/10) : F32).isFin = true ∧ (lit (7/10) : F32).isFin = true ∧ 0 ≤ (lit (1/10) : F32).val ∧
    (lit (1/10) : F32).val ≤ (lit (2/10) : F32).val ∧ (lit (2/10) : F32).val ≤ 1 ∧ (lit (-3/10) : F32).val ≤ 0 ∧
    0 ≤ (lit (7/10) : F32).val := by decide +kernel

end Verif
