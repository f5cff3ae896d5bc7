import Verif.Props.Conversion
import Verif.Props.Level

/-! # C40 and C76 for the functions a caller uses

`from_f32_components` on floats rather than on words, and the panners with their checks. -/

namespace Verif
open F32 Conversion Stereo

/-- C40: the float made of a component triple, for every triple: the plain sum of the fields read as bits. -/
theorem C40_oversized_float (checks : Bool) {k : F32Components} (he : k.exponent < 256) (hm : k.mantissa < 2 ^ 32) :
    let s := (if k.sign then 2 ^ 31 else 0) + k.exponent * 2 ^ 23 + k.mantissa
    fromComponents checks k =
      if s < 2 ^ 32 then .ok ⟨BitVec.ofNat 32 s⟩ else if checks then .error .panic else .ok ⟨BitVec.ofNat 32 (s % 2 ^ 32)⟩ := by
  intro s
  have h : wordFromComponents checks k = if s < 2 ^ 32 then .ok s else if checks then .error .panic else .ok (s % 2 ^ 32) :=
    C40_oversized_actual checks he hm
  have word : ∀ v < 2 ^ 32, fromRawWord v = ⟨BitVec.ofNat 32 v⟩ := fun v hv => by
    apply F32.ext; apply BitVec.eq_of_toNat_eq
    rw [fromRawWord_bits hv, BitVec.toNat_ofNat, Nat.mod_eq_of_lt hv]
  rw [fromComponents, h]
  clear_value s
  by_cases hs : s < 2 ^ 32
  · rw [if_pos hs, if_pos hs, ← word s hs]; rfl
  · rw [if_neg hs, if_neg hs]
    cases checks with
    | true => rfl
    | false =>
      have := word (s % 2 ^ 32) (Nat.mod_lt _ (by norm_num))
      simp only [Bool.false_eq_true, if_false]
      rw [← this]; rfl

/-- A sign, an exponent and a mantissa; and a mantissa that spills over into the exponent. -/
example : fromComponents true ⟨true, 127, 2 ^ 22⟩ = .ok (lit (-3/2)) ∧ fromComponents true ⟨false, 127, 2 ^ 23⟩ = .ok (lit 2) := by
  constructor <;> decide +kernel

/-- C76 for the checked panners: the swap law where the amount is accepted, and the two refusals change places. -/
theorem C76_checked (sqrt : F32 → F32) (a x : F32) (xy : F32 × F32) :
    ((a.isNaN = true ∨ -1 ≤ a.val ∧ a.val ≤ 1) →
      monoPan (-a) x = (monoPan a x).map Prod.swap ∧ stereoPan sqrt (-a) xy = (stereoPan sqrt a xy.swap).map Prod.swap) ∧
    (monoPan (-a) x = .error .tooLeft ↔ monoPan a x = .error .tooRight) ∧
    (stereoPan sqrt (-a) xy = .error .tooLeft ↔ stereoPan sqrt a xy = .error .tooRight) := by
  obtain ⟨m1, m2, m3, s1, s2, s3⟩ := C74_pan sqrt a x xy
  obtain ⟨n1, -, n3, t1, -, t3⟩ := C74_pan sqrt (-a) x xy
  obtain ⟨-, -, -, -, -, u3⟩ := C74_pan sqrt a x xy.swap
  obtain ⟨-, -, w1, w2⟩ := C76_swap sqrt a x xy
  refine ⟨fun h => ?_, ?_, ?_⟩
  · have h' : (-a).isNaN = true ∨ -1 ≤ (-a).val ∧ (-a).val ≤ 1 := by
      rw [isNaN_neg', val_neg']
      exact h.imp id fun h => ⟨by linarith [h.2], by linarith [h.1]⟩
    rw [n3 h', t3 h', m3 h, u3 h, w1, w2]
    exact ⟨rfl, rfl⟩
  · rw [n1, m2, isNaN_neg', val_neg']
    constructor <;> rintro ⟨p, r⟩ <;> exact ⟨p, by linarith⟩
  · rw [t1, s2, isNaN_neg', val_neg']
    constructor <;> rintro ⟨p, r⟩ <;> exact ⟨p, by linarith⟩

/-- C76 at the extremes, for the checked panners and every finite sample: left is left and right is right. -/
theorem C76_checked_extremes {sqrt : F32 → F32} (hs0 : (sqrt (lit 0)).isFin = true ∧ (sqrt (lit 0)).val = 0)
    (hs1 : sqrt (lit 1) = lit 1) {x y : F32} (hx : x.isFin = true) (hy : y.isFin = true) :
    (∃ z, monoPan (lit (-1)) x = .ok (x, z) ∧ z.isFin = true ∧ z.val = 0) ∧
    (∃ z, monoPan (lit 1) x = .ok (z, x) ∧ z.isFin = true ∧ z.val = 0) ∧
    (∃ z, stereoPan sqrt (lit (-1)) (x, y) = .ok (x, z) ∧ z.isFin = true ∧ z.val = 0) ∧
    (∃ z, stereoPan sqrt (lit 1) (x, y) = .ok (z, y) ∧ z.isFin = true ∧ z.val = 0) := by
  obtain ⟨e1, e2, e3, e4, e5, e6, e7, e8, e9, e10, e11, e12⟩ := C76_extremes_partial hs0 hs1 hx hy
  have l : (lit (-1) : F32).isNaN = true ∨ -1 ≤ (lit (-1) : F32).val ∧ (lit (-1) : F32).val ≤ 1 := by decide +kernel
  have r : (lit 1 : F32).isNaN = true ∨ -1 ≤ (lit 1 : F32).val ∧ (lit 1 : F32).val ≤ 1 := by decide +kernel
  obtain ⟨-, -, m3, -, -, s3⟩ := C74_pan sqrt (lit (-1)) x (x, y)
  obtain ⟨-, -, n3, -, -, t3⟩ := C74_pan sqrt (lit 1) x (x, y)
  rw [m3 l, s3 l, n3 r, t3 r]
  exact ⟨⟨_, congrArg _ (Prod.ext e1 rfl), e2, e3⟩, ⟨_, congrArg _ (Prod.ext rfl e4), e5, e6⟩, ⟨_, congrArg _ (Prod.ext e7 rfl), e8, e9⟩,
    ⟨_, congrArg _ (Prod.ext rfl e10), e11, e12⟩⟩

/-- A beep on the right stays there; an amount of two is refused on the right, of minus two on the left. -/
example : monoPan (lit 1) (lit 3) = .ok (lit 0, lit 3) ∧ monoPan (lit 2) (lit 3) = .error .tooRight ∧
    monoPan (-lit 2) (lit 3) = .error .tooLeft := by decide +kernel

end Verif
