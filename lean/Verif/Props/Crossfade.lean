import Verif.Props.Level
import Verif.Props.Slice
import Verif.Props.Si

/-! # C112: crossfading; C113: slices made from slices -/

namespace Verif
open F32 Stereo

/-! ## C112 -/

/-- C112: exactly, the two samples weighted by (1-a)/2 and (1+a)/2. -/
theorem C112_exact {α : Type} [Field α] [CharZero α] (a x y : α) :
    crossfadeCorrelatedUnchecked a (x, y) = (1 - a) / 2 * x + (1 + a) / 2 * y := by
  simp only [crossfadeCorrelatedUnchecked, equalAmplitudePan, Lit.lit]
  push_cast
  ring

/-- C112: the same in floats, to 2^-21 of the larger sample. -/
theorem C112_float {a x y : F32} (h0 : -1 ≤ a.val) (h1 : a.val ≤ 1) (hx : x.isFin = true) (hy : y.isFin = true) {m : ℚ}
    (bx : |x.val| ≤ m) (bY : |y.val| ≤ m) (hm : m ≤ 2 ^ 98) :
    (crossfadeCorrelatedUnchecked a (x, y)).isFin = true ∧
      |(crossfadeCorrelatedUnchecked a (x, y)).val - ((1 - a.val) / 2 * x.val + (1 + a.val) / 2 * y.val)| ≤ m / 2 ^ 21 + 1 / 2 ^ 148 := by
  obtain ⟨f1, f2, v1, v2⟩ := pan_val h0 h1
  obtain ⟨g1, g2, g3, g4, -, -⟩ := C75_gains h0 h1
  have m0 : 0 ≤ m := (abs_nonneg _).trans bx
  have r1 := (rnd_near (s := false) (q := 1 - a.val) (B := 2) (by rw [abs_le]; constructor <;> linarith) (by norm_num)).2
  have r2 := (rnd_near (s := false) (q := 1 + a.val) (B := 2) (by rw [abs_le]; constructor <;> linarith) (by norm_num)).2
  have e1 : |(equalAmplitudePan a).1.val - (1 - a.val) / 2| ≤ 11 / 10 / 2 ^ 24 := by
    rw [v1, ← sub_div, abs_div, abs_two]
    refine (div_le_div_of_nonneg_right r1 (by norm_num)).trans (by norm_num)
  have e2 : |(equalAmplitudePan a).2.val - (1 + a.val) / 2| ≤ 11 / 10 / 2 ^ 24 := by
    rw [v2, ← sub_div, abs_div, abs_two]
    refine (div_le_div_of_nonneg_right r2 (by norm_num)).trans (by norm_num)
  unfold crossfadeCorrelatedUnchecked
  simp only
  generalize (equalAmplitudePan a).1 = p at *
  generalize (equalAmplitudePan a).2 = q at *
  have hxp : |x.val * p.val| ≤ m := by
    rw [abs_mul, abs_of_nonneg g1]; exact (mul_le_of_le_one_right (abs_nonneg _) g2).trans bx
  have hyq : |y.val * q.val| ≤ m := by
    rw [abs_mul, abs_of_nonneg g3]; exact (mul_le_of_le_one_right (abs_nonneg _) g4).trans bY
  obtain ⟨k1, k2⟩ := mul_near hx f1 hxp (hm.trans (by norm_num))
  obtain ⟨k3, k4⟩ := mul_near hy f2 hyq (hm.trans (by norm_num))
  have t150 : (0:ℚ) < 1 / 2 ^ 150 := by norm_num
  have eps : (1:ℚ) / 2 ^ 148 = 4 * (1 / 2 ^ 150) := by norm_num
  obtain ⟨ε, hε⟩ : ∃ ε : ℚ, ε = 1 / 2 ^ 150 := ⟨_, rfl⟩
  have ε1 : ε ≤ 1 := by rw [hε]; norm_num
  rw [← hε] at t150 k2 k4 eps
  have hs : |(x * p).val + (y * q).val| ≤ 21 / 10 * m + 2 * ε := by
    have a1 := abs_le.1 k2; have a2 := abs_le.1 k4; have a3 := abs_le.1 hxp; have a4 := abs_le.1 hyq
    norm_num at a1 a2
    rw [abs_le]; constructor <;> linarith
  obtain ⟨k5, k6⟩ := add_near k1 k3 hs (by norm_num at hm ⊢; linarith)
  refine ⟨k5, ?_⟩
  rw [← hε] at k6
  have d1 : |x.val * p.val - (1 - a.val) / 2 * x.val| ≤ m * (11 / 10 / 2 ^ 24) := by
    rw [mul_comm x.val, ← sub_mul, abs_mul, mul_comm]
    exact mul_le_mul bx e1 (abs_nonneg _) m0
  have d2 : |y.val * q.val - (1 + a.val) / 2 * y.val| ≤ m * (11 / 10 / 2 ^ 24) := by
    rw [mul_comm y.val, ← sub_mul, abs_mul, mul_comm]
    exact mul_le_mul bY e2 (abs_nonneg _) m0
  rw [eps]
  generalize (x * p + y * q).val = R at *
  generalize (x * p).val = P at *
  generalize (y * q).val = Q at *
  generalize x.val * p.val = U at *
  generalize y.val * q.val = V at *
  generalize (1 - a.val) / 2 * x.val = W at *
  generalize (1 + a.val) / 2 * y.val = Z at *
  rw [abs_le] at k2 k4 k6 d1 d2 ⊢
  norm_num at k2 k4 k6 d1 d2 ⊢
  constructor <;> linarith [k2.1, k2.2, k4.1, k4.2, k6.1, k6.2, d1.1, d1.2, d2.1, d2.2]

/-- C112: at the ends one sample alone remains, for finite samples. -/
theorem C112_ends {x y : F32} (hx : x.isFin = true) (hy : y.isFin = true) :
    (crossfadeCorrelatedUnchecked (lit (-1)) (x, y)).isFin = true ∧
    (crossfadeCorrelatedUnchecked (lit (-1)) (x, y)).val = x.val ∧
    (crossfadeCorrelatedUnchecked (lit 1) (x, y)).isFin = true ∧ (crossfadeCorrelatedUnchecked (lit 1) (x, y)).val = y.val := by
  have hl : equalAmplitudePan (lit (-1) : F32) = (lit 1, lit 0) := pan_left
  have z : ∀ {w : F32}, w.isFin = true → (w * lit 0).isFin = true ∧ (w * lit 0).val = 0 := by
    intro w hw
    have := mul_exact hw lit0_fin (by rw [lit0_val, mul_zero]; exact rep_zero)
    rw [lit0_val, mul_zero] at this; exact this
  unfold crossfadeCorrelatedUnchecked
  rw [hl, pan_right]
  simp only [mul_one_bits hx, mul_one_bits hy]
  have a := add_exact hx (z hy).1 (by rw [(z hy).2, add_zero]; exact rep_val hx)
  have b := add_exact (z hx).1 hy (by rw [(z hx).2, zero_add]; exact rep_val hy)
  rw [(z hy).2, add_zero] at a
  rw [(z hx).2, zero_add] at b
  exact ⟨a.1, a.2, b.1, b.2⟩

/-- C112: fading the other way between the swapped samples gives the same bits. -/
theorem C112_swap (a x y : F32) :
    crossfadeCorrelatedUnchecked (-a) (x, y) = crossfadeCorrelatedUnchecked a (y, x) := by
  unfold crossfadeCorrelatedUnchecked
  rw [(C76_swap (fun v => v) a x (x, y)).1]
  exact add_comm_bits _ _

-- a quarter of the way: 3/8 of 2 and 5/8 of 4
example : crossfadeCorrelatedUnchecked (lit (1 / 4)) (lit 2, lit 4) = (lit (13 / 4) : F32) ∧ -1 ≤ (lit (1 / 4) : F32).val ∧
    (lit (1 / 4) : F32).val ≤ 1 := by decide +kernel

/-! ## C113 -/

variable {α : Type} {c : Cfg} {mem : Mem α}

theorem fromSlice_views {b off len : ℕ} {zs : List α} (hz : mem b = some zs) (hl : off + len ≤ zs.length)
    (hc : 4 * (zs.length : Int) ≤ c.isizeMax) :
    Views c mem (MemorySlice.fromSlice b off len) ((zs.drop off).take len) := by
  have e : zs.take off ++ (zs.drop off).take len ++ (zs.drop off).drop len = zs := by
    rw [List.append_assoc, List.take_append_drop, List.take_append_drop]
  refine ⟨b, zs.take off, (zs.drop off).drop len, ?_, ?_, by rw [e]; exact hz, by rw [e]; exact hc⟩
  · simp only [MemorySlice.fromSlice, List.length_take]
    rw [min_eq_left (by omega)]
  · simp only [MemorySlice.fromSlice, List.length_take, List.length_drop]
    omega

/-- C113: a slice made of part of a live array has its length and serves its samples, and nothing else, -/
theorem C113_from_slice {b off len : ℕ} {zs : List α} (hz : mem b = some zs) (hl : off + len ≤ zs.length)
    (hc : 4 * (zs.length : Int) ≤ c.isizeMax) :
    (MemorySlice.fromSlice b off len).len = len ∧
    ∀ i : ℕ, (MemorySlice.fromSlice b off len).get mem i =
      .ok (if h : i < len then .ok (zs[off + i]'(by omega)) else .error .indexOutOfBound) := by
  refine ⟨rfl, fun i => ?_⟩
  rw [C01_get (fromSlice_views hz hl hc)]
  have hlen : ((zs.drop off).take len).length = len := by simp only [List.length_take, List.length_drop]; omega
  by_cases hi : i < len
  · rw [dif_pos hi, dif_pos (by rw [hlen]; exact hi)]
    simp only [List.getElem_take, List.getElem_drop]
  · rw [dif_neg hi, dif_neg (by rw [hlen]; exact hi)]

/-- C113: and writes through it are writes to the array. -/
theorem C113_from_slice_mut {b off len : ℕ} {zs : List α} (hz : mem b = some zs) (hl : off + len ≤ zs.length)
    (hc : 4 * (zs.length : Int) ≤ c.isizeMax) {i : ℕ} (hi : i < len) (v : α) :
    ∃ mem', (MemorySlice.fromSlice b off len).assign mem i v = .ok (.ok mem') ∧
      ∀ b' j, cell mem' b' j = if b' = b ∧ j = off + i then some v else cell mem b' j := by
  have hlen : ((zs.drop off).take len).length = len := by simp only [List.length_take, List.length_drop]; omega
  obtain ⟨mem', h1, -, h3⟩ := C01_assign_in (fromSlice_views hz hl hc) (i := i) (by rw [hlen]; exact hi) v
  refine ⟨mem', h1, fun b' j => ?_⟩
  rw [h3]
  refine if_congr ?_ rfl rfl
  simp only [MemorySlice.fromSlice, Option.some.injEq]
  constructor <;> rintro ⟨rfl, rfl⟩ <;> exact ⟨rfl, rfl⟩

/-- C113: a slice exposes the part of the array it was made of, -/
theorem C113_as_slice (b off len : ℕ) : (MemorySlice.fromSlice b off len).asSlice = (⟨some b, off⟩, len) := rfl

/-- C113: and pointing a slice at what another one exposes makes it serve the samples of that one. -/
theorem C113_change_slice {s t : MemorySlice} {xs : List α} (h : Views c mem t xs) (i : ℕ) :
    (s.changeSliceUnchecked t.asSlice.1 t.asSlice.2).len = t.len ∧
    (s.changeSliceUnchecked t.asSlice.1 t.asSlice.2).get mem i =
      .ok (if h : i < xs.length then .ok xs[i] else .error .indexOutOfBound) :=
  ⟨rfl, C01_get (s := s.changeSliceUnchecked t.asSlice.1 t.asSlice.2) h i⟩

-- the middle of three samples
example : (MemorySlice.fromSlice 0 1 1).get (fun b => if b = 0 then some [10, 20, 30] else none) 0 = .ok (.ok 20) ∧
    (MemorySlice.fromSlice 0 1 1).get (fun b => if b = 0 then some [10, 20, 30] else none) 1 = .ok (.error .indexOutOfBound) :=
  ⟨rfl, rfl⟩

end Verif
