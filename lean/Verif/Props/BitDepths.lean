import Verif.Props.Conversion

/-! # C129: reducing twice -/

namespace Verif
open F32 BitReduction

/-- Truncating to a grid and then to a coarser one (a multiple of the step) is truncating to the coarser one. -/
theorem IsTrunc.coarser {step v r s : ℚ} {m : ℕ} (h1 : IsTrunc step v r) (h2 : IsTrunc (m * step) r s)
    (hs : 0 < step) : IsTrunc (m * step) v s := by
  obtain ⟨⟨n, hn⟩, h3, h4⟩ := h1
  obtain ⟨⟨k, hk⟩, h5, h6⟩ := h2
  refine ⟨⟨k, hk⟩, h5.trans h3, ?_⟩
  have e1 : (n : ℚ) < k * m + m := by
    by_contra hc
    have := mul_le_mul_of_nonneg_right (not_lt.1 hc) hs.le
    rw [hn, hk] at h6
    linarith
  have e2 : (n : ℚ) + 1 ≤ k * m + m := by exact_mod_cast e1
  have := mul_le_mul_of_nonneg_right e2 hs.le
  rw [hk]; rw [hn] at h4
  linarith

/-- Truncating to a grid leaves the points of a coarser grid where they are. -/
theorem IsTrunc.finer {step v r s : ℚ} {m : ℕ} (h1 : IsTrunc (m * step) v r) (h2 : IsTrunc step r s)
    (hs : 0 < step) : s = r := by
  obtain ⟨⟨n, hn⟩, -, -⟩ := h1
  refine IsTrunc.unique hs h2 ⟨⟨n * m, by rw [hn]; push_cast; ring⟩, le_rfl, by linarith⟩

theorem depth_step {d e : ℕ} (h : d ≤ e) : ((2 : ℚ) ^ e / 2 ^ 31) = ((2 ^ (e - d) : ℕ) : ℚ) * (2 ^ d / 2 ^ 31) := by
  push_cast
  rw [← mul_div_assoc, ← pow_add, Nat.sub_add_cancel h]

/-- C129: two reductions one after the other, in either order, are one reduction by the larger of the two depths, bit for bit. -/
theorem C129_bit_reduce (checks : Bool) {x : F32} (hx : |x.val| ≤ 1) {d e : ℕ} (hd : d ≤ 30) (he : e ≤ 30) :
    ∃ r s, bitReduce checks x d = .ok (.ok r) ∧ bitReduce checks r e = .ok (.ok s) ∧
      bitReduce checks x (max d e) = .ok (.ok s) := by
  obtain ⟨r, hr, -, -⟩ := C41_bit_reduce checks hx hd
  obtain ⟨rn, r0, r1⟩ := bitReduce_form checks hx hd hr
  have hr' : |r.val| ≤ 1 := (C42_error checks hx hd hr).1.trans hx
  obtain ⟨s, hs, -, -⟩ := C41_bit_reduce checks hr' he
  obtain ⟨sn, s0, s1⟩ := bitReduce_form checks hr' he hs
  obtain ⟨u, hu, -, -⟩ := C41_bit_reduce checks hx (d := max d e) (by omega)
  obtain ⟨un, u0, u1⟩ := bitReduce_form checks hx (by omega) hu
  refine ⟨r, s, hr, hs, ?_⟩
  rw [hu]
  congr 2
  by_cases hd0 : d = 0
  · subst hd0
    rw [r0 rfl] at hs
    rw [show max 0 e = e by omega, hs] at hu
    cases hu; rfl
  by_cases he0 : e = 0
  · subst he0
    rw [show max d 0 = d by omega, hr] at hu
    cases hu
    exact (s0 rfl).symm
  refine eq_of_neg_abs (by rw [un, sn, rn]) ?_
  have t1 := r1 hd0
  have t2 := s1 he0
  have t3 := u1 (by omega)
  rcases le_total d e with hde | hde
  · rw [max_eq_right hde] at t3
    rw [depth_step hde] at t2 t3
    exact IsTrunc.unique (mul_pos (by positivity) (step_pos d)) t3 (t1.coarser t2 (step_pos d))
  · rw [max_eq_left hde] at t3
    have e1 : |u.val| = |r.val| := IsTrunc.unique (step_pos d) t3 t1
    rw [depth_step hde] at t1
    rw [e1, t1.finer t2 (step_pos e)]

/-- C129: the same for the exponent-relative reduction, for every float. -/
theorem C129_bit_reduce_exp (checks : Bool) (x : F32) {d e : ℕ} (hd : d ≤ 23) (he : e ≤ 23) :
    ∃ r s, bitReduceExp checks x d = .ok (.ok r) ∧ bitReduceExp checks r e = .ok (.ok s) ∧
      bitReduceExp checks x (max d e) = .ok (.ok s) := by
  obtain ⟨r, hr, r1⟩ := C44_bits checks x hd
  obtain ⟨s, hs, s1⟩ := C44_bits checks r he
  obtain ⟨u, hu, u1⟩ := C44_bits checks x (d := max d e) (by omega)
  refine ⟨r, s, hr, hs, ?_⟩
  rw [hu]
  congr 2
  have : u.bits = s.bits := by
    refine BitVec.eq_of_getLsbD_eq fun i _ => ?_
    rw [u1, s1, r1]
    by_cases h1 : d ≤ i <;> by_cases h2 : e ≤ i <;> simp [h1, h2]
  cases u; cases s; simp_all

example : |(lit (7/10) : F32).val| ≤ 1 ∧ bitReduce true (lit (7/10)) 20 = .ok (.ok ⟨0x3f332000#32⟩) ∧
    bitReduce true ⟨0x3f332000#32⟩ 25 = .ok (.ok ⟨0x3f300000#32⟩) ∧
    bitReduce true (lit (7/10)) 25 = .ok (.ok ⟨0x3f300000#32⟩) := by decide +kernel

end Verif
