import Verif.Props.FixedSin

/-! # C164: the shape of the fixed-point sine, from each phase to the next

The 65536 phases are the whole domain of the function. What the kernel evaluates is a copy of the polynomial in natural numbers,
shown below to be the same function. -/

namespace Verif
open FixedPoint

/-! ## Specification -/

/-- C164: a later phase never gives a lower value: on [-π/2, π/2] the sine rises. -/
def C164_Full : Prop :=
  ∀ (checks : Bool) (z z' r r' : Int), -32768 ≤ z → z ≤ z' → z' ≤ 32767 → sinI16 checks z 4 = .ok r → sinI16 checks z' 4 = .ok r' → r ≤ r'

/-! ## The polynomial in natural numbers -/

namespace SinShape

/-- division by 2^15, rounded up -/
def cdiv (n : Nat) : Nat := Nat.div (Nat.add n 32767) 32768
/-- division by 2^15, rounded down -/
def fdiv (n : Nat) : Nat := Nat.div n 32768

/-- the value at the phase `y` -/
def sinPos (y : Nat) : Nat :=
  Nat.div (min 2147483647 (Nat.mul (Nat.sub 102944 (cdiv (Nat.mul (cdiv (Nat.mul (Nat.sub 42334 (fdiv (Nat.mul (fdiv (Nat.mul (Nat.sub 5223
    (cdiv (Nat.mul (cdiv (Nat.mul (Nat.sub 307 (fdiv (Nat.mul (fdiv (Nat.mul 10 y)) y))) y)) y))) y)) y))) y)) y))) y)) 65536

/-- minus the value at the phase `-y` -/
def sinNeg (y : Nat) : Nat :=
  Nat.div (Nat.add (min 2147483648 (Nat.mul (Nat.sub 102944 (cdiv (Nat.mul (fdiv (Nat.mul (Nat.sub 42334 (fdiv (Nat.mul (cdiv (Nat.mul (Nat.sub 5223
    (cdiv (Nat.mul (fdiv (Nat.mul (Nat.sub 307 (fdiv (Nat.mul (cdiv (Nat.mul 10 y)) y))) y)) y))) y)) y))) y)) y))) y)) 65535) 65536

theorem int_fdiv (n : Nat) : (n : Int) / 2 ^ 15 = (fdiv n : Int) := by
  show (n : Int) / 2 ^ 15 = ((n / 32768 : Nat) : Int)
  norm_num
theorem int_cdiv (n : Nat) : -(n : Int) / 2 ^ 15 = -(cdiv n : Int) := by
  show -(n : Int) / 2 ^ 15 = -(((n + 32767) / 32768 : Nat) : Int)
  omega

theorem pp (n y : Nat) : (n : Int) * (y : Int) / 2 ^ 15 * y / 2 ^ 15 = (fdiv (fdiv (n * y) * y) : Int) := by
  rw [← Nat.cast_mul, int_fdiv, ← Nat.cast_mul, int_fdiv]
theorem np (n y : Nat) : -(n : Int) * (y : Int) / 2 ^ 15 * y / 2 ^ 15 = -(cdiv (cdiv (n * y) * y) : Int) := by
  rw [neg_mul, ← Nat.cast_mul, int_cdiv, neg_mul, ← Nat.cast_mul, int_cdiv]
theorem pn (n y : Nat) : (n : Int) * -(y : Int) / 2 ^ 15 * -(y : Int) / 2 ^ 15 = (fdiv (cdiv (n * y) * y) : Int) := by
  rw [mul_neg (n : Int), ← Nat.cast_mul, int_cdiv, neg_mul_neg, ← Nat.cast_mul, int_fdiv]
theorem nn (n y : Nat) : -(n : Int) * -(y : Int) / 2 ^ 15 * -(y : Int) / 2 ^ 15 = -(cdiv (fdiv (n * y) * y) : Int) := by
  rw [neg_mul_neg, ← Nat.cast_mul, int_fdiv, mul_neg, ← Nat.cast_mul, int_cdiv]

theorem cast_flip {a b : Nat} (h : a ≤ b) : (a : Int) + -(b : Int) = -((b - a : Nat) : Int) := by omega
theorem cast_flip' {a b : Nat} (h : a ≤ b) : -(a : Int) + (b : Int) = ((b - a : Nat) : Int) := by omega

theorem abs_cast_le {a n : Nat} (h : |(a : Int)| ≤ n) : a ≤ n := by
  rw [abs_of_nonneg (by positivity)] at h; exact_mod_cast h

theorem sat_pos (n y : Nat) : max (-2 ^ 31) (min (2 ^ 31 - 1) ((n : Int) * y)) / 2 ^ 16 =
    ((Nat.div (min 2147483647 (Nat.mul n y)) 65536 : Nat) : Int) := by
  show _ = (((min 2147483647 (n * y)) / 65536 : Nat) : Int)
  rw [← Nat.cast_mul]
  generalize n * y = k
  omega

theorem sat_neg (n y : Nat) : max (-2 ^ 31) (min (2 ^ 31 - 1) ((n : Int) * -(y : Int))) / 2 ^ 16 =
    -((Nat.div (Nat.add (min 2147483648 (Nat.mul n y)) 65535) 65536 : Nat) : Int) := by
  show _ = -(((min 2147483648 (n * y) + 65535) / 65536 : Nat) : Int)
  rw [mul_neg, ← Nat.cast_mul]
  generalize n * y = k
  omega

theorem sinPos_eq {y : Nat} (hy : y ≤ 32767) : fixedSinSpec y 4 = sinPos y := by
  have hz : |(y : Int)| ≤ 2 ^ 15 := by rw [abs_le]; constructor <;> omega
  have h1 : hornerFloor y [10] = (fdiv (fdiv (10 * y) * y) : Nat) := by
    have := pp 10 y
    simpa [hornerFloor] using this
  have b1 := horner_bound hz [10]
  rw [h1] at b1
  have c1 := abs_cast_le (n := 307) (b1.trans (by decide))
  have h2 : hornerFloor y [-307, 10] = -(cdiv (cdiv ((307 - fdiv (fdiv (10 * y) * y)) * y) * y) : Nat) := by
    show (hornerFloor y [10] + -307) * (y : Int) / 2 ^ 15 * y / 2 ^ 15 = _
    rw [h1, show (-307 : Int) = -((307 : Nat) : Int) from rfl, cast_flip c1, np]
  have b2 := horner_bound hz [-307, 10]
  rw [h2, abs_neg] at b2
  have c2 := abs_cast_le (n := 5223) (b2.trans (by decide))
  have h3 : hornerFloor y [5223, -307, 10] = (fdiv (fdiv ((5223 - cdiv (cdiv ((307 - fdiv (fdiv (10 * y) * y)) * y) * y)) * y) * y) : Nat) := by
    show (hornerFloor y [-307, 10] + 5223) * (y : Int) / 2 ^ 15 * y / 2 ^ 15 = _
    rw [h2, show (5223 : Int) = ((5223 : Nat) : Int) from rfl, cast_flip' c2, pp]
  have b3 := horner_bound hz [5223, -307, 10]
  rw [h3] at b3
  have c3 := abs_cast_le (n := 42334) (b3.trans (by decide))
  have h4 : hornerFloor y [-42334, 5223, -307, 10] = -(cdiv (cdiv ((42334 - fdiv (fdiv ((5223 - cdiv (cdiv ((307 -
      fdiv (fdiv (10 * y) * y)) * y) * y)) * y) * y)) * y) * y) : Nat) := by
    show (hornerFloor y [5223, -307, 10] + -42334) * (y : Int) / 2 ^ 15 * y / 2 ^ 15 = _
    rw [h3, show (-42334 : Int) = -((42334 : Nat) : Int) from rfl, cast_flip c3, np]
  have b4 := horner_bound hz [-42334, 5223, -307, 10]
  rw [h4, abs_neg] at b4
  have c4 := abs_cast_le (n := 102944) (b4.trans (by decide))
  unfold fixedSinSpec
  rw [show sinCoeffs.tail.take 4 = [-42334, 5223, -307, 10] from rfl, show sinCoeffs.head! = ((102944 : Nat) : Int) from rfl, h4,
    cast_flip' c4]
  exact sat_pos _ _

theorem sinNeg_eq {y : Nat} (hy : y ≤ 32768) : fixedSinSpec (-(y : Int)) 4 = -(sinNeg y : Int) := by
  have hz : |-(y : Int)| ≤ 2 ^ 15 := by rw [abs_le]; constructor <;> omega
  have h1 : hornerFloor (-(y : Int)) [10] = (fdiv (cdiv (10 * y) * y) : Nat) := by
    have := pn 10 y
    simpa [hornerFloor] using this
  have b1 := horner_bound hz [10]
  rw [h1] at b1
  have c1 := abs_cast_le (n := 307) (b1.trans (by decide))
  have h2 : hornerFloor (-(y : Int)) [-307, 10] = -(cdiv (fdiv ((307 - fdiv (cdiv (10 * y) * y)) * y) * y) : Nat) := by
    show (hornerFloor (-(y : Int)) [10] + -307) * -(y : Int) / 2 ^ 15 * -(y : Int) / 2 ^ 15 = _
    rw [h1, show (-307 : Int) = -((307 : Nat) : Int) from rfl, cast_flip c1, nn]
  have b2 := horner_bound hz [-307, 10]
  rw [h2, abs_neg] at b2
  have c2 := abs_cast_le (n := 5223) (b2.trans (by decide))
  have h3 : hornerFloor (-(y : Int)) [5223, -307, 10] =
      (fdiv (cdiv ((5223 - cdiv (fdiv ((307 - fdiv (cdiv (10 * y) * y)) * y) * y)) * y) * y) : Nat) := by
    show (hornerFloor (-(y : Int)) [-307, 10] + 5223) * -(y : Int) / 2 ^ 15 * -(y : Int) / 2 ^ 15 = _
    rw [h2, show (5223 : Int) = ((5223 : Nat) : Int) from rfl, cast_flip' c2, pn]
  have b3 := horner_bound hz [5223, -307, 10]
  rw [h3] at b3
  have c3 := abs_cast_le (n := 42334) (b3.trans (by decide))
  have h4 : hornerFloor (-(y : Int)) [-42334, 5223, -307, 10] = -(cdiv (fdiv ((42334 - fdiv (cdiv ((5223 - cdiv (fdiv ((307 -
      fdiv (cdiv (10 * y) * y)) * y) * y)) * y) * y)) * y) * y) : Nat) := by
    show (hornerFloor (-(y : Int)) [5223, -307, 10] + -42334) * -(y : Int) / 2 ^ 15 * -(y : Int) / 2 ^ 15 = _
    rw [h3, show (-42334 : Int) = -((42334 : Nat) : Int) from rfl, cast_flip c3, nn]
  have b4 := horner_bound hz [-42334, 5223, -307, 10]
  rw [h4, abs_neg] at b4
  have c4 := abs_cast_le (n := 102944) (b4.trans (by decide))
  unfold fixedSinSpec
  rw [show sinCoeffs.tail.take 4 = [-42334, 5223, -307, 10] from rfl, show sinCoeffs.head! = ((102944 : Nat) : Int) from rfl, h4,
    cast_flip' c4]
  exact sat_neg _ _

/-! ## Running through the table -/

/-- Runs through the `2^d` places from `s` on with the highest value so far and the last value; `none` if a value lies more than
2 below the highest so far, or more than 1 below or 2 above the last. -/
def scan (f : Nat → Nat) : Nat → Nat → Nat → Nat → Option (Nat × Nat)
  | 0, s, m, l => bif Nat.ble m (Nat.add (f s) 2) && (Nat.ble l (Nat.add (f s) 1) && Nat.ble (f s) (Nat.add l 2)) then
      some (bif Nat.ble m (f s) then f s else m, f s) else none
  | d + 1, s, m, l =>
    match scan f d s m l with
    | some (m', l') => scan f d (Nat.add s (2 ^ d)) m' l'
    | none => none

/-- what a completed run says -/
structure Scanned (f : Nat → Nat) (s n m l m' l' : Nat) : Prop where
  up : m ≤ m'
  top : ∀ k < n, f (s + k) ≤ m' ∧ m ≤ f (s + k) + 2
  pair : ∀ j k, j ≤ k → k < n → f (s + j) ≤ f (s + k) + 2
  first : 0 < n → l ≤ f s + 1 ∧ f s ≤ l + 2
  last : 0 < n → l' = f (s + (n - 1))
  step : ∀ k, k + 1 < n → f (s + k) ≤ f (s + (k + 1)) + 1 ∧ f (s + (k + 1)) ≤ f (s + k) + 2

theorem scan_sound (f : Nat → Nat) : ∀ d s m l m' l', scan f d s m l = some (m', l') → Scanned f s (2 ^ d) m l m' l'
  | 0, s, m, l, m', l', h => by
    unfold scan at h
    cases hc : Nat.ble m (Nat.add (f s) 2) && (Nat.ble l (Nat.add (f s) 1) && Nat.ble (f s) (Nat.add l 2)) with
    | false => rw [hc] at h; cases h
    | true =>
      rw [hc, cond_true, Option.some.injEq, Prod.mk.injEq] at h
      obtain ⟨h1, rfl⟩ := h
      simp only [Bool.and_eq_true, Nat.ble_eq, Nat.add_eq] at hc
      have h2 : m' = max m (f s) := by
        rw [← h1]
        cases hb : Nat.ble m (f s) with
        | true => rw [Nat.ble_eq] at hb; simp [hb]
        | false =>
          have : ¬ m ≤ f s := fun h' => by rw [← Nat.ble_eq, hb] at h'; cases h'
          simp; omega
      refine ⟨by omega, ?_, ?_, fun _ => hc.2, fun _ => by simp, ?_⟩
      · intro k hk; obtain rfl : k = 0 := by omega
        simp only [Nat.add_zero]; omega
      · intro j k hj hk
        obtain rfl : k = 0 := by omega
        obtain rfl : j = 0 := by omega
        omega
      · intro k hk; omega
  | d + 1, s, m, l, m', l', h => by
    unfold scan at h
    cases h1 : scan f d s m l with
    | none => rw [h1] at h; cases h
    | some p =>
      obtain ⟨m1, l1⟩ := p
      rw [h1] at h
      have a := scan_sound f d s m l m1 l1 h1
      have b := scan_sound f d (s + 2 ^ d) m1 l1 m' l' h
      have hp : 0 < 2 ^ d := by positivity
      have e : 2 ^ (d + 1) = 2 ^ d + 2 ^ d := by ring
      rw [e]
      have hsplit : ∀ k, ¬ k < 2 ^ d → s + k = s + 2 ^ d + (k - 2 ^ d) := by intro k hk; omega
      refine ⟨a.up.trans b.up, ?_, ?_, fun _ => a.first hp, ?_, ?_⟩
      · intro k hk
        by_cases hk' : k < 2 ^ d
        · exact ⟨(a.top k hk').1.trans b.up, (a.top k hk').2⟩
        · rw [hsplit k hk']
          have := b.top (k - 2 ^ d) (by omega)
          exact ⟨this.1, a.up.trans this.2⟩
      · intro j k hj hk
        by_cases hk' : k < 2 ^ d
        · exact a.pair j k hj hk'
        · rw [hsplit k hk']
          by_cases hj' : j < 2 ^ d
          · exact (a.top j hj').1.trans (b.top (k - 2 ^ d) (by omega)).2
          · rw [hsplit j hj']; exact b.pair _ _ (by omega) (by omega)
      · intro _
        rw [hsplit (2 ^ d + 2 ^ d - 1) (by omega), show 2 ^ d + 2 ^ d - 1 - 2 ^ d = 2 ^ d - 1 by omega]
        exact b.last hp
      · intro k hk
        by_cases hk1 : k + 1 < 2 ^ d
        · exact a.step k hk1
        · by_cases hk2 : k < 2 ^ d
          · obtain rfl : k = 2 ^ d - 1 := by omega
            rw [← a.last hp, show s + (2 ^ d - 1 + 1) = s + 2 ^ d by omega]
            exact b.first hp
          · rw [hsplit k hk2, hsplit (k + 1) hk1, show k + 1 - 2 ^ d = k - 2 ^ d + 1 by omega]
            exact b.step _ (by omega)

set_option maxRecDepth 100000 in
theorem scan_pos : (scan sinPos 15 0 0 0).isSome = true := by decide +kernel
set_option maxRecDepth 100000 in
theorem scan_neg : (scan sinNeg 15 1 0 0).isSome = true := by decide +kernel

theorem scanned {f : Nat → Nat} {s : Nat} (h : (scan f 15 s 0 0).isSome = true) : ∃ m l, Scanned f s 32768 0 0 m l := by
  obtain ⟨⟨m, l⟩, hm⟩ := Option.isSome_iff_exists.1 h
  exact ⟨m, l, scan_sound f 15 s 0 0 m l hm⟩

end SinShape

/-! ## C164 -/

open SinShape

theorem C164_refuted : ¬ C164_Full := fun h => by
  have := h true 32760 32761 32765 32764 (by norm_num) (by norm_num) (by norm_num) (by decide +kernel) (by decide +kernel)
  norm_num at this

/-- the value at a phase, by its sign -/
theorem sinI16_val (checks : Bool) {z : Int} (h1 : -32768 ≤ z) (h2 : z ≤ 32767) :
    (∃ y : Nat, z = y ∧ y ≤ 32767 ∧ sinI16 checks z 4 = .ok (sinPos y)) ∨
    (∃ y : Nat, z = -y ∧ 1 ≤ y ∧ y ≤ 32768 ∧ sinI16 checks z 4 = .ok (-(sinNeg y : Int))) := by
  have hs := (C58_sin checks h1 h2 4).1
  rw [min_self] at hs
  rcases le_or_gt 0 z with h | h
  · obtain ⟨y, rfl⟩ := Int.eq_ofNat_of_zero_le h
    exact .inl ⟨y, rfl, by omega, by rw [hs, sinPos_eq (by omega)]⟩
  · obtain ⟨y, hy⟩ := Int.eq_ofNat_of_zero_le (show 0 ≤ -z by omega)
    obtain rfl : z = -(y : Int) := by omega
    exact .inr ⟨y, rfl, by omega, by omega, by rw [hs, sinNeg_eq (by omega)]⟩

/-- What holds: a later phase never gives a value more than 2 units lower. -/
theorem C164_partial (checks : Bool) {z z' : Int} (h1 : -32768 ≤ z) (h : z ≤ z') (h2 : z' ≤ 32767) :
    ∃ r r', sinI16 checks z 4 = .ok r ∧ sinI16 checks z' 4 = .ok r' ∧ r ≤ r' + 2 := by
  obtain ⟨m, l, P⟩ := scanned scan_pos
  obtain ⟨m', l', Q⟩ := scanned scan_neg
  rcases sinI16_val checks h1 (h.trans h2) with ⟨y, rfl, hy, e⟩ | ⟨y, rfl, hy1, hy, e⟩ <;>
    rcases sinI16_val checks (h1.trans h) h2 with ⟨w, rfl, hw, e'⟩ | ⟨w, rfl, hw1, hw, e'⟩ <;>
    refine ⟨_, _, e, e', ?_⟩
  · have := P.pair y w (by omega) (by omega)
    simp only [Nat.zero_add] at this; omega
  · omega
  · omega
  · have := Q.pair (w - 1) (y - 1) (by omega) (by omega)
    rw [show 1 + (w - 1) = w by omega, show 1 + (y - 1) = y by omega] at this; omega

/-- What holds: from each phase to the next the value falls by at most 1 and rises by at most 2 units: no clicks. -/
theorem C164_step_partial (checks : Bool) {z : Int} (h1 : -32768 ≤ z) (h2 : z < 32767) :
    ∃ r r', sinI16 checks z 4 = .ok r ∧ sinI16 checks (z + 1) 4 = .ok r' ∧ r - 1 ≤ r' ∧ r' ≤ r + 2 := by
  obtain ⟨m, l, P⟩ := scanned scan_pos
  obtain ⟨m', l', Q⟩ := scanned scan_neg
  have h3 : -32768 ≤ z + 1 := by omega
  have h4 : z + 1 ≤ 32767 := by omega
  rcases sinI16_val checks h1 h2.le with ⟨y, rfl, hy, e⟩ | ⟨y, rfl, hy1, hy, e⟩ <;>
    rcases sinI16_val checks h3 h4 with ⟨w, hz, hw, e'⟩ | ⟨w, hz, hw1, hw, e'⟩ <;>
    refine ⟨_, _, e, e', ?_⟩
  · obtain rfl : w = y + 1 := by omega
    have := P.step y (by omega)
    simp only [Nat.zero_add] at this; omega
  · omega
  · obtain rfl : y = 1 := by omega
    obtain rfl : w = 0 := by omega
    rw [show sinPos 0 = 0 by decide +kernel, show sinNeg 1 = 2 by decide +kernel]; omega
  · obtain rfl : y = w + 1 := by omega
    have := Q.step (w - 1) (by omega)
    rw [show 1 + (w - 1) = w by omega, show 1 + (w - 1 + 1) = w + 1 by omega] at this; omega

/-- `p` at each of the `2^d` places from `s` on -/
def every (p : Nat → Bool) : Nat → Nat → Bool
  | 0, s => p s
  | d + 1, s => every p d s && every p d (Nat.add s (2 ^ d))

theorem every_sound (p : Nat → Bool) : ∀ d s, every p d s = true → ∀ k < 2 ^ d, p (s + k) = true
  | 0, s, h, k, hk => by obtain rfl : k = 0 := by omega
                         exact h
  | d + 1, s, h, k, hk => by
    unfold every at h
    rw [Bool.and_eq_true] at h
    by_cases hk' : k < 2 ^ d
    · exact every_sound p d s h.1 k hk'
    · have := every_sound p d (s + 2 ^ d) h.2 (k - 2 ^ d) (by rw [pow_succ] at hk; omega)
      rwa [show s + 2 ^ d + (k - 2 ^ d) = s + k by omega] at this

/-- the two halves differ by 0 to 3 units -/
def mirrored (y : Nat) : Bool := Nat.ble (sinPos y) (sinNeg y) && Nat.ble (sinNeg y) (Nat.add (sinPos y) 3)

set_option maxRecDepth 100000 in
theorem every_mirrored : every mirrored 15 0 = true := by decide +kernel

/-- The sine is odd up to the rounding, which is always downwards: the values at `z` and `-z` sum to 0, -1, -2 or -3 units. -/
theorem C164_odd (checks : Bool) {z : Int} (h1 : -32767 ≤ z) (h2 : z ≤ 32767) :
    ∃ r r', sinI16 checks z 4 = .ok r ∧ sinI16 checks (-z) 4 = .ok r' ∧ -3 ≤ r + r' ∧ r + r' ≤ 0 := by
  have key : ∀ y : Nat, y ≤ 32767 → sinPos y ≤ sinNeg y ∧ sinNeg y ≤ sinPos y + 3 := by
    intro y hy
    have := every_sound _ _ _ every_mirrored y (by omega)
    simp only [mirrored, Nat.zero_add, Bool.and_eq_true, Nat.ble_eq, Nat.add_eq] at this
    exact this
  have two : ∀ y : Nat, y ≤ 32767 → ∃ r r', sinI16 checks y 4 = .ok r ∧ sinI16 checks (-(y : Int)) 4 = .ok r' ∧ -3 ≤ r + r' ∧ r + r' ≤ 0 := by
    intro y hy
    have a := (C58_sin checks (show -32768 ≤ (y : Int) by omega) (by omega) 4).1
    have b := (C58_sin checks (show -32768 ≤ -(y : Int) by omega) (by omega) 4).1
    rw [min_self] at a b
    rw [sinPos_eq hy] at a
    rw [sinNeg_eq (by omega)] at b
    have := key y hy
    exact ⟨_, _, a, b, by omega, by omega⟩
  rcases le_or_gt 0 z with h | h
  · obtain ⟨y, rfl⟩ := Int.eq_ofNat_of_zero_le h
    exact two y (by omega)
  · obtain ⟨y, hy⟩ := Int.eq_ofNat_of_zero_le (show 0 ≤ -z by omega)
    obtain ⟨r, r', g1, g2, g3, g4⟩ := two y (by omega)
    rw [hy, show z = -(y : Int) by omega]
    exact ⟨r', r, g2, g1, by omega, by omega⟩

/-- the bounds are reached: a fall of 1, a rise of 2, values 2 lower further on, sum -3 -/
example : sinI16 true 32760 4 = .ok 32765 ∧ sinI16 true 32761 4 = .ok 32764 ∧ sinI16 true 0 4 = .ok 0 ∧ sinI16 true (-1) 4 = .ok (-2) ∧
    sinI16 true (-32439) 4 = .ok (-32763) ∧ sinI16 true (-32433) 4 = .ok (-32765) ∧
    sinI16 true 22387 4 = .ok 28792 ∧ sinI16 true (-22387) 4 = .ok (-28795) := by
  decide +kernel

end Verif
