import Verif.Props.LowCutoff

/-! # C116 further down

C116 bounds every rounding error of the designs by the size of its result. With the exact half unit in the last place of each step, and the
error of `norm` cancelling between the two feedback coefficients, the six designs without a gain in the denominator are stable down to a
10000th of the sample rate. -/

namespace Verif
open F32 Butterworth

theorem roundIdx_half {Q : ℚ} (hQ : 0 ≤ Q) {E : ℕ} (h : Q ≤ magInt ((E + 1) * 2 ^ 23)) :
    |(magInt (roundIdx Q) : ℚ) - Q| ≤ 2 ^ (E - 1) / 2 := by
  rcases h.eq_or_lt with h | h
  · rw [h, roundIdx_exact, sub_self, abs_zero]; positivity
  obtain ⟨n, a1, a2, a3⟩ := roundIdx_cases hQ
  have hn : n < (E + 1) * 2 ^ 23 := by
    rw [← magInt_lt]; exact_mod_cast a1.trans_lt h
  have hE : n / 2 ^ 23 ≤ E := Nat.lt_succ_iff.1 ((Nat.div_lt_iff_lt_mul (by norm_num)).2 hn)
  have hg : (gap n : ℚ) ≤ 2 ^ (E - 1) := by
    unfold gap; push_cast; exact pow_le_pow_right₀ (by norm_num) (Nat.sub_le_sub_right hE 1)
  have hs : (magInt (n + 1) : ℚ) = magInt n + gap n := by exact_mod_cast magInt_succ n
  rcases a3 with ⟨b1, b2, -⟩ | ⟨b1, b2, -⟩
  · rw [b1, abs_le]; constructor <;> linarith
  · rw [b1, abs_le]; constructor <;> linarith

theorem rnd_half {s : Bool} {q B : ℚ} {E : ℕ} (h : |q| * unit ≤ magInt ((E + 1) * 2 ^ 23)) (hE : (E + 1) * 2 ^ 23 < infMag)
    (hB : (2:ℚ) ^ (E - 1) / 2 = B * unit) : (rnd s q).isFin = true ∧ |(rnd s q).val - q| ≤ B := by
  have hQ : 0 ≤ |q| * unit := mul_nonneg (abs_nonneg _) unit_pos.le
  have hi : roundIdx (|q| * unit) < infMag := lt_of_le_of_lt (roundIdx_le_of_le hQ h) hE
  have hm : (rnd s q).mag = roundIdx (|q| * unit) := by rw [rnd_mag, min_eq_left hi.le]
  refine ⟨isFin_iff.2 (hm ▸ hi), ?_⟩
  have key := roundIdx_half hQ h
  rw [hB] at key
  have e : |(rnd s q).val - q| * unit = |(magInt (roundIdx (|q| * unit)) : ℚ) - |q| * unit| := by
    rcases lt_trichotomy q 0 with hq | hq | hq
    · rw [val_of_neg (rnd_neg_of_neg hq), hm, abs_of_neg hq]
      unfold magVal
      rw [← abs_of_pos unit_pos, ← abs_mul, abs_of_pos unit_pos, ← abs_neg, sub_mul, neg_mul, div_mul_cancel₀ _ unit_pos.ne']
      congr 1; ring
    · subst hq
      rw [rnd_val_zero, abs_zero, zero_mul, sub_zero, abs_zero, zero_mul]
      have := roundIdx_exact 0; rw [magInt_zero] at this
      push_cast at this
      rw [this, magInt_zero]; simp
    · rw [val_of_pos (rnd_neg_of_nonneg hq), hm, abs_of_pos hq]
      unfold magVal
      rw [← abs_of_pos unit_pos, ← abs_mul, abs_of_pos unit_pos, sub_mul, div_mul_cancel₀ _ unit_pos.ne']
  rw [← e] at key
  exact le_of_mul_le_mul_right key unit_pos

/-- Half a unit in the last place, for results up to 1 and up to 2. -/
theorem rnd_half_one {s : Bool} {q : ℚ} (h : |q| ≤ 1) : (rnd s q).isFin = true ∧ |(rnd s q).val - q| ≤ 1 / 2 ^ 25 :=
  rnd_half (E := 126) (by
    have e : ((magInt ((126 + 1) * 2 ^ 23) : ℕ) : ℚ) = 1 * unit := by decide +kernel
    rw [e]; exact mul_le_mul_of_nonneg_right h unit_pos.le) (by decide) (by unfold unit; norm_num)

theorem rnd_half_two {s : Bool} {q : ℚ} (h : |q| ≤ 2) : (rnd s q).isFin = true ∧ |(rnd s q).val - q| ≤ 1 / 2 ^ 24 :=
  rnd_half (E := 127) (by
    have e : ((magInt ((127 + 1) * 2 ^ 23) : ℕ) : ℚ) = 2 * unit := by decide +kernel
    rw [e]; exact mul_le_mul_of_nonneg_right h unit_pos.le) (by decide) (by unfold unit; norm_num)

/-- The three inequalities of the stability triangle, from the error of each rounding on the way. -/
theorem triangle_low {k2 kq N a0 c D a1 a2 : ℚ} (k0 : 0 ≤ k2) (kql : 0 ≤ kq) (hNp : 0 ≤ N) (hN0 : 98134 / 100000 ≤ N)
    (hNa : N * a0 ≤ 1 + 51 / 1677721600) (hk : 31 / 83886080 < 4 * k2) (hq : 5 / 16777216 < 2 * kq)
    (ha0 : 0 ≤ a0 ∧ 1 + kq + k2 ≤ a0 + 2 / 16777216) (hc : k2 ≤ c + 1 / 33554432 + 1)
    (hD : 1 - kq + k2 - 1 / 16777216 ≤ D ∧ D ≤ 1 - kq + k2 + 1 / 16777216) (h1 : 2 * N * c ≤ a1 + 1 / 16777216) (h1n : a1 < 1 / 2)
    (h2 : N * D - 1 / 33554432 ≤ a2 ∧ a2 ≤ N * D + 1 / 33554432) (_h2n : -1 / 4 ≤ a2) (_hN1 : N ≤ 1) :
    0 < 1 + a1 + a2 ∧ 0 < 1 - a1 + a2 ∧ a2 < 1 := by
  have p1 : N * (k2 - 1 - 1 / 33554432) ≤ N * c := mul_le_mul_of_nonneg_left (by linarith) hNp
  have p2 : N * (1 - kq + k2 - 1 / 16777216) ≤ N * D := mul_le_mul_of_nonneg_left (by linarith) hNp
  have p3 : N * D ≤ N * (1 - kq + k2 + 1 / 16777216) := mul_le_mul_of_nonneg_left (by linarith) hNp
  have p4 : N * (1 + kq + k2) ≤ N * (a0 + 2 / 16777216) := mul_le_mul_of_nonneg_left (by linarith) hNp
  have p5 : 98134 / 100000 * k2 ≤ N * k2 := mul_le_mul_of_nonneg_right hN0 k0
  have p6 : 98134 / 100000 * kq ≤ N * kq := mul_le_mul_of_nonneg_right hN0 kql
  have e1 : 2 * N * c = 2 * (N * c) := by ring
  rw [e1] at h1
  ring_nf at p1 p2 p3 p4 p5 p6 h1 h2 hNa ⊢
  refine ⟨by linarith, by linarith, by linarith⟩

/-- The rounding errors of the two feedback coefficients for small `k`, in both ways of writing `a1`. -/
theorem feedback_err {k2 kq : F32} (f1 : k2.isFin = true) (f2 : kq.isFin = true) (k0 : 0 ≤ k2.val) (k1 : k2.val ≤ 1 / 1000) (_kql : 0 ≤ kq.val)
    (kqu : kq.val ≤ 18 / 1000) (hkk : k2.val + 1 / 2 ^ 24 ≤ kq.val) {a1 : F32}
    (h1 : a1 = lit 1 / (lit 1 + kq + k2) * lit 2 * (k2 - lit 1) ∨ a1 = lit 1 / (lit 1 + kq + k2) * (lit 2 * (k2 - lit 1))) :
    ∃ a0 N c D : ℚ, (98134 / 100000 ≤ N ∧ N ≤ 1) ∧ (N * a0 ≤ 1 + 51 / 1677721600 ∧ 1 - 51 / 1677721600 ≤ N * a0) ∧
      (0 ≤ a0 ∧ 1 + kq.val + k2.val ≤ a0 + 2 / 16777216 ∧ a0 ≤ 1 + kq.val + k2.val + 2 / 16777216) ∧ k2.val ≤ c + 1 / 33554432 + 1 ∧
      (1 - kq.val + k2.val - 1 / 16777216 ≤ D ∧ D ≤ 1 - kq.val + k2.val + 1 / 16777216) ∧ 2 * N * c ≤ a1.val + 1 / 16777216 ∧ a1.val < 1 / 2 ∧
      (N * D - 1 / 33554432 ≤ (lit 1 / (lit 1 + kq + k2) * (lit 1 - kq + k2) : F32).val ∧
        (lit 1 / (lit 1 + kq + k2) * (lit 1 - kq + k2) : F32).val ≤ N * D + 1 / 33554432) := by
  norm_num at hkk
  have l1 := lit1_fin
  -- a0
  obtain ⟨s1f, s1e⟩ : (lit 1 + kq : F32).isFin = true ∧ |(lit 1 + kq : F32).val - (1 + kq.val)| ≤ 1 / 2 ^ 24 := by
    rw [add_fin l1 f2, lit1_val]; exact rnd_half_two (by rw [abs_le]; constructor <;> linarith)
  have s10 : 1 ≤ (lit 1 + kq : F32).val := by
    rw [add_fin l1 f2, lit1_val, ← lit1_val]
    exact le_rnd (q := (lit 1 : F32).val + kq.val) (isFin.not_nan l1) (by linarith)
  have s1' := abs_le.1 s1e
  norm_num at s1'
  generalize lit 1 + kq = S1 at *
  obtain ⟨s2f, s2e⟩ : (S1 + k2 : F32).isFin = true ∧ |(S1 + k2 : F32).val - (S1.val + k2.val)| ≤ 1 / 2 ^ 24 := by
    rw [add_fin s1f f1]; exact rnd_half_two (by rw [abs_le]; constructor <;> linarith)
  have s20 : 1 ≤ (S1 + k2 : F32).val := by
    rw [add_fin s1f f1, ← lit1_val]
    exact le_rnd (q := S1.val + k2.val) (isFin.not_nan l1) (by rw [lit1_val]; linarith)
  have s2' := abs_le.1 s2e
  norm_num at s2'
  generalize S1 + k2 = a0 at *
  have a0p : 0 < a0.val := by linarith
  have a0u : a0.val ≤ 1019001 / 1000000 := by linarith
  -- norm
  have i1 : 1 / a0.val ≤ 1 := by rw [div_le_one a0p]; exact s20
  have i0 : 98135 / 100000 ≤ 1 / a0.val := by rw [le_div_iff₀ a0p]; linarith
  have ia : 1 / a0.val * a0.val = 1 := div_mul_cancel₀ _ a0p.ne'
  obtain ⟨nf, ne⟩ : (lit 1 / a0 : F32).isFin = true ∧ |(lit 1 / a0 : F32).val - 1 / a0.val| ≤ 1 / 2 ^ 25 := by
    rw [div_fin l1 s2f a0p.ne', lit1_val]; exact rnd_half_one (by rw [abs_le]; constructor <;> linarith)
  have n1 : (lit 1 / a0 : F32).val ≤ 1 := by
    rw [div_fin l1 s2f a0p.ne', ← lit1_val]
    exact rnd_le (isFin.not_nan l1) (by simp only [lit1_val]; exact i1)
  have ne' : 1 / a0.val ≤ (lit 1 / a0 : F32).val + 1 / 33554432 ∧ (lit 1 / a0 : F32).val ≤ 1 / a0.val + 1 / 33554432 := by
    have h := abs_le.1 ne
    have e : (1 : ℚ) / 2 ^ 25 = 1 / 33554432 := by norm_num
    rw [e] at h; constructor <;> linarith
  generalize lit 1 / a0 = N at *
  -- k2 - 1
  obtain ⟨cf, ce⟩ : (k2 - lit 1 : F32).isFin = true ∧ |(k2 - lit 1 : F32).val - (k2.val - 1)| ≤ 1 / 2 ^ 25 := by
    rw [sub_fin f1 l1, lit1_val]; exact rnd_half_one (by rw [abs_le]; constructor <;> linarith)
  have c0 : -1 ≤ (k2 - lit 1 : F32).val := by
    have hm : (lit (-1) : F32).val = -1 := by decide +kernel
    rw [sub_fin f1 l1, lit1_val, ← hm]
    exact le_rnd (q := k2.val - 1) (by decide +kernel) (by rw [hm]; linarith)
  have ce' := abs_le.1 ce
  norm_num at ce'
  have hN0 : 98134 / 100000 ≤ N.val := by linarith
  have hNp : 0 < N.val := by linarith
  have hNa : N.val * a0.val ≤ 1 + 51 / 100 / 2 ^ 24 := by
    have : N.val * a0.val ≤ (1 / a0.val + 1 / 33554432) * a0.val := mul_le_mul_of_nonneg_right (by linarith) a0p.le
    rw [add_mul, ia] at this
    norm_num at this ⊢; linarith
  have hNa' : 1 - 51 / 100 / 2 ^ 24 ≤ N.val * a0.val := by
    have : (1 / a0.val - 1 / 33554432) * a0.val ≤ N.val * a0.val := mul_le_mul_of_nonneg_right (by linarith) a0p.le
    rw [sub_mul, ia] at this
    norm_num at this ⊢; linarith
  -- a1
  have hc2 : -2 ≤ 2 * N.val * (k2 - lit 1 : F32).val ∧ 2 * N.val * (k2 - lit 1 : F32).val ≤ 0 := by
    have cn : (k2 - lit 1 : F32).val ≤ 0 := by linarith
    have t1 : N.val * -(k2 - lit 1 : F32).val ≤ 1 * 1 := mul_le_mul n1 (by linarith) (by linarith) (by norm_num)
    have t2 : 0 ≤ N.val * -(k2 - lit 1 : F32).val := mul_nonneg hNp.le (by linarith)
    constructor <;> linarith
  have ha1 : |a1.val - 2 * N.val * (k2 - lit 1 : F32).val| ≤ 1 / 2 ^ 24 := by
    rcases h1 with h1 | h1
    · obtain ⟨d1, d2, -⟩ := double_val nf (by rw [abs_of_pos hNp]; norm_num; linarith)
      rw [h1, mul_fin d1 cf, d2]
      exact (rnd_half_two (by rw [abs_le]; constructor <;> linarith)).2
    · obtain ⟨-, -, d1, d2, -⟩ := double_val cf (by rw [abs_le]; constructor <;> norm_num <;> linarith)
      rw [h1, mul_fin nf d1, d2, show N.val * (2 * (k2 - lit 1 : F32).val) = 2 * N.val * (k2 - lit 1 : F32).val by ring]
      exact (rnd_half_two (by rw [abs_le]; constructor <;> linarith)).2
  -- 1 - kq + k2
  obtain ⟨d1f, d1e⟩ : (lit 1 - kq : F32).isFin = true ∧ |(lit 1 - kq : F32).val - (1 - kq.val)| ≤ 1 / 2 ^ 25 := by
    rw [sub_fin l1 f2, lit1_val]; exact rnd_half_one (by rw [abs_le]; constructor <;> linarith)
  have d1' := abs_le.1 d1e
  norm_num at d1'
  generalize lit 1 - kq = D1 at *
  obtain ⟨df, de⟩ : (D1 + k2 : F32).isFin = true ∧ |(D1 + k2 : F32).val - (D1.val + k2.val)| ≤ 1 / 2 ^ 25 := by
    rw [add_fin d1f f1]; exact rnd_half_one (by rw [abs_le]; constructor <;> linarith)
  have de' := abs_le.1 de
  norm_num at de'
  have d1 : (D1 + k2 : F32).val ≤ 1 := by
    rw [add_fin d1f f1, ← lit1_val]
    exact rnd_le (isFin.not_nan l1) (by rw [lit1_val]; linarith)
  generalize D1 + k2 = D at *
  have d0 : 9 / 10 ≤ D.val := by linarith
  have hnd : 0 ≤ N.val * D.val ∧ N.val * D.val ≤ 1 := ⟨mul_nonneg hNp.le (by linarith), by
    have := mul_le_mul n1 d1 (by linarith) (by norm_num); linarith⟩
  have ha2 : |(N * D).val - N.val * D.val| ≤ 1 / 2 ^ 25 := by
    rw [mul_fin nf df]; exact (rnd_half_one (by rw [abs_le]; constructor <;> linarith)).2
  have ha1' := abs_le.1 ha1
  have ha2' := abs_le.1 ha2
  norm_num at ha1' ha2' hNa hNa'
  generalize (k2 - lit 1 : F32).val = c at *
  generalize (N * D).val = a2 at *
  exact ⟨a0.val, N.val, c, D.val, ⟨hN0, n1⟩, ⟨by linarith, by linarith⟩, ⟨a0p.le, by linarith, by linarith⟩, ce'.1,
    ⟨by linarith, by linarith⟩, ha1'.1, by linarith, by linarith, by linarith⟩

/-- The two feedback coefficients for small `k`. -/
theorem feedback_low {k2 kq : F32} (f1 : k2.isFin = true) (f2 : kq.isFin = true) (k0 : 0 ≤ k2.val) (k1 : k2.val ≤ 1 / 1000) (kql : 0 ≤ kq.val)
    (kqu : kq.val ≤ 18 / 1000) (hk : 62 / 10 / 2 ^ 24 < 4 * k2.val) (hq : 5 / 2 ^ 24 < 2 * kq.val) (hkk : k2.val + 1 / 2 ^ 24 ≤ kq.val) {a1 : F32}
    (h1 : a1 = lit 1 / (lit 1 + kq + k2) * lit 2 * (k2 - lit 1) ∨ a1 = lit 1 / (lit 1 + kq + k2) * (lit 2 * (k2 - lit 1))) :
    0 < 1 + a1.val + (lit 1 / (lit 1 + kq + k2) * (lit 1 - kq + k2) : F32).val ∧
    0 < 1 - a1.val + (lit 1 / (lit 1 + kq + k2) * (lit 1 - kq + k2) : F32).val ∧
    (lit 1 / (lit 1 + kq + k2) * (lit 1 - kq + k2) : F32).val < 1 := by
  norm_num at hk hq
  obtain ⟨a0, N, c, D, ⟨n0, n1⟩, ⟨hNa, -⟩, ⟨a00, a01, -⟩, hc, hD, g1, g1n, g2⟩ := feedback_err f1 f2 k0 k1 kql kqu hkk h1
  have N0 : 0 ≤ N := by linarith
  have : 0 ≤ N * D := mul_nonneg N0 (by linarith [hD.1])
  exact triangle_low (c := c) (D := D) (a0 := a0) (N := N) k0 kql N0 n0 hNa hk hq ⟨a00, a01⟩ hc hD g1 g1n g2 (by linarith [g2.1]) n1

/-- What `setup_coeffs` makes of a low warped frequency. -/
theorem setup_low {k q : F32} (k0 : 3141 / 1000 / 10000 ≤ k.val) (k1 : k.val ≤ 3142 / 1000 * (1 / 3000)) (q0 : 1 / 16 ≤ q.val)
    (q1 : q.val ≤ 64) :
    (k * k).isFin = true ∧ (k / q).isFin = true ∧ 62 / 10 / 2 ^ 24 < 4 * (k * k).val ∧ (k * k).val ≤ 1 / 1000 ∧
    5 / 2 ^ 24 < 2 * (k / q).val ∧ (k / q).val ≤ 18 / 1000 ∧ (k * k).val + 1 / 2 ^ 24 ≤ (k / q).val := by
  norm_num at k0 k1
  have kp : 0 < k.val := lt_of_lt_of_le (by norm_num) k0
  have qp : 0 < q.val := lt_of_lt_of_le (by norm_num) q0
  have kf : k.isFin = true := fin_of_val (by rw [abs_of_pos kp]; norm_num; linarith)
  have qf : q.isFin = true := fin_of_val (by rw [abs_of_pos qp]; norm_num; linarith)
  have b0 : (3141 / 10000000 : ℚ) * (3141 / 10000000) ≤ k.val ^ 2 := by rw [sq]; exact mul_le_mul k0 k0 (by norm_num) kp.le
  have b1 : k.val ^ 2 ≤ (1571 / 1500000 : ℚ) * (1571 / 1500000) := by rw [sq]; exact mul_le_mul k1 k1 kp.le (by norm_num)
  have b2 : k.val / q.val ≤ 17 / 1000 := by rw [div_le_iff₀ qp]; linarith
  have b3 : k.val / 64 ≤ k.val / q.val := div_le_div_of_nonneg_left kp.le qp q1
  obtain ⟨f1, g1⟩ := mul_near (B := k.val ^ 2) kf kf (by rw [← sq, abs_of_nonneg (sq_nonneg _)]) (by norm_num at b1 ⊢; linarith)
  obtain ⟨f2, g2⟩ := div_near (B := k.val / q.val) kf qf qp.ne' (by rw [abs_of_pos (div_pos kp qp)]) (by norm_num; linarith)
  rw [← sq] at g1
  obtain ⟨g1a, g1b⟩ := abs_le.1 g1
  obtain ⟨g2a, g2b⟩ := abs_le.1 g2
  have t : (1:ℚ) / 2 ^ 150 ≤ 1 / 2 ^ 100 := by norm_num
  norm_num at b0 b1 t g1a g1b g2a g2b
  refine ⟨f1, f2, ?_, ?_, ?_, ?_, ?_⟩ <;> norm_num <;> linarith

/-- The stability triangle for float coefficients. -/
theorem stable_of_vals {co : BiquadCoeffs F32} (h : 0 < 1 + co.a1.val + co.a2.val ∧ 0 < 1 - co.a1.val + co.a2.val ∧ co.a2.val < 1) :
    co.real.Stable := by
  apply stable_of_triangle
  · have := (Rat.cast_lt (K := ℝ)).2 h.1
    push_cast at this; exact this
  · have := (Rat.cast_lt (K := ℝ)).2 h.2.1
    push_cast at this; exact this
  · have := (Rat.cast_lt (K := ℝ)).2 h.2.2
    push_cast at this; exact this

/-- C116: stable from a 10000th to a 3000th of the sample rate. -/
theorem C116_low {powi : F32 → ℕ → F32} (hp : PowiNear powi) {fc q sr : F32} (s0 : 1 ≤ sr.val) (s1 : sr.val ≤ 2 ^ 30)
    (r0 : 1 / 10000 ≤ fc.val / sr.val) (r1 : fc.val / sr.val ≤ 1 / 3000) (q0 : 1 / 16 ≤ q.val) (q1 : q.val ≤ 64)
    (sqrt : F32 → F32) (gain : F32) :
    (lowpass powi fc q sr).real.Stable ∧ (highpass powi fc q sr).real.Stable ∧ (allpass powi fc q sr).real.Stable ∧
    (notch powi fc q sr).real.Stable ∧ (bellBoost powi fc q gain sr).real.Stable ∧
    (lowShelfBoost powi sqrt fc q gain sr).real.Stable := by
  obtain ⟨k0, -⟩ := warpF_range hp s0 s1 (l := 1 / 10000) (by norm_num) r0 (r1.trans (by norm_num))
  have k1 := warpF_low hp s0 s1 (le_trans (by norm_num) r0) le_rfl r1
  obtain ⟨f1, f2, l1, u1, l2, u2, lk⟩ := setup_low (le_trans (by norm_num) k0) k1 q0 q1
  simp only [lowpass, highpass, allpass, notch, bellBoost, lowShelfBoost, setupCoeffs]
  change ((lowpassOf (warpF powi fc sr * warpF powi fc sr) (warpF powi fc sr / q)).real.Stable) ∧
    ((highpassOf (warpF powi fc sr * warpF powi fc sr) (warpF powi fc sr / q)).real.Stable) ∧
    ((allpassOf (warpF powi fc sr * warpF powi fc sr) (warpF powi fc sr / q)).real.Stable) ∧
    ((notchOf (warpF powi fc sr * warpF powi fc sr) (warpF powi fc sr / q)).real.Stable) ∧
    ((bellBoostOf gain (warpF powi fc sr * warpF powi fc sr) (warpF powi fc sr / q)).real.Stable) ∧
    ((lowShelfBoostOf sqrt gain (warpF powi fc sr * warpF powi fc sr) (warpF powi fc sr / q)).real.Stable)
  generalize warpF powi fc sr = k at *
  generalize k * k = k2 at *
  generalize k / q = kq at *
  have p2 : 0 ≤ k2.val := by norm_num at l1; linarith
  have pq : 0 ≤ kq.val := by norm_num at l2; linarith
  have A := feedback_low f1 f2 p2 u1 pq u2 l1 l2 lk (Or.inl rfl)
  have B := feedback_low f1 f2 p2 u1 pq u2 l1 l2 lk (Or.inr rfl)
  exact ⟨stable_of_vals A, stable_of_vals B, stable_of_vals B, stable_of_vals B, stable_of_vals B, stable_of_vals B⟩

/-- C116: stable from a 10000th of the sample rate up to 0.318 of it. -/
theorem C116_down {powi : F32 → ℕ → F32} (hp : PowiNear powi) {fc q sr : F32} (s0 : 1 ≤ sr.val) (s1 : sr.val ≤ 2 ^ 30)
    (r0 : 1 / 10000 ≤ fc.val / sr.val) (r1 : fc.val / sr.val ≤ 318 / 1000) (q0 : 1 / 16 ≤ q.val) (q1 : q.val ≤ 64)
    (sqrt : F32 → F32) (gain : F32) :
    (lowpass powi fc q sr).real.Stable ∧ (highpass powi fc q sr).real.Stable ∧ (allpass powi fc q sr).real.Stable ∧
    (notch powi fc q sr).real.Stable ∧ (bellBoost powi fc q gain sr).real.Stable ∧
    (lowShelfBoost powi sqrt fc q gain sr).real.Stable := by
  rcases le_total (fc.val / sr.val) (1 / 3000) with h | h
  · exact C116_low hp s0 s1 r0 h q0 q1 sqrt gain
  · exact C116_stable hp s0 s1 (le_trans (by norm_num) h) r1 q0 q1 sqrt gain

/-- At 48 kHz a 5 Hz high pass, such as removes an offset, is stable in floats. -/
example : (highpass powiMul (lit 5) (lit (707 / 1000)) (lit 48000)).real.Stable := by
  have e1 : (lit 48000 : F32).val = 48000 := by decide +kernel
  have e2 : (lit 5 : F32).val = 5 := by decide +kernel
  have e3 : 7 / 10 ≤ (lit (707 / 1000) : F32).val ∧ (lit (707 / 1000) : F32).val ≤ 1 := by decide +kernel
  exact (C116_down powiMul_near (by rw [e1]; norm_num) (by rw [e1]; norm_num) (by rw [e1, e2]; norm_num) (by rw [e1, e2]; norm_num)
    (by linarith [e3.1]) (by linarith [e3.2]) id (lit 1)).2.1

end Verif
