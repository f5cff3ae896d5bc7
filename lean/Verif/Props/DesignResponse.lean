import Verif.Spec.Analog
import Verif.Props.DesignGain
import Verif.Props.Magnitude

/-! # C162: the designs as computed in floats against the analogue filters, at every frequency -/

namespace Verif
open F32 Butterworth

/-! ## The designs in exact arithmetic -/

/-- The denominator of the designs, times `a0`. -/
noncomputable def denE (k2 kq : ℝ) (z : ℂ) : ℂ := (1 + kq + k2 : ℝ) * z ^ 2 + (2 * (k2 - 1) : ℝ) * z + (1 - kq + k2 : ℝ)

theorem denE_norm {k2 kq : ℝ} {z : ℂ} (hz : ‖z‖ = 1) :
    ‖denE k2 kq z‖ ^ 2 = 4 * ((k2 * (1 + z.re) - (1 - z.re)) ^ 2 + kq ^ 2 * ((1 - z.re) * (1 + z.re))) := by
  unfold denE
  rw [quad_norm hz]; ring

theorem denE_lower {k2 kq m L : ℝ} (m0 : 0 ≤ m) (m1 : m ≤ 1) (hm : 4 * m ^ 2 * k2 ≤ kq ^ 2) (h1 : L ≤ 4 * m * k2)
    (h2 : L ≤ 4 * m) {z : ℂ} (hz : ‖z‖ = 1) : L ≤ ‖denE k2 kq z‖ := by
  obtain ⟨v0, u0⟩ := re_range hz
  have e := denE_norm (k2 := k2) (kq := kq) hz
  have key : (2 * m * (k2 * (1 + z.re) + (1 - z.re))) ^ 2 ≤ ‖denE k2 kq z‖ ^ 2 := by
    rw [e]
    have a1 := mul_le_mul_of_nonneg_right hm (mul_nonneg v0 u0)
    have a2 : m ^ 2 * (k2 * (1 + z.re) - (1 - z.re)) ^ 2 ≤ (k2 * (1 + z.re) - (1 - z.re)) ^ 2 :=
      mul_le_of_le_one_left (sq_nonneg _) (pow_le_one₀ m0 m1)
    nlinarith
  have := (abs_le_of_sq_le_sq' key (norm_nonneg _)).2
  have b1 := mul_le_mul_of_nonneg_right h1 u0
  have b2 := mul_le_mul_of_nonneg_right h2 v0
  nlinarith

theorem denE_analog {K Q : ℝ} {z s : ℂ} (hs : z - 1 = s * K * (z + 1)) :
    denE (K ^ 2) (K / Q) z = K ^ 2 * (z + 1) ^ 2 * (s ^ 2 + s / Q + 1) := by
  unfold denE
  push_cast
  linear_combination ((z - 1) + s * K * (z + 1) + K / Q * (z + 1)) * hs

/-- Quotients whose numerator is off by a factor. -/
theorem quot_rel {N D D' d : ℂ} {η δ : ℝ} (hD : D ≠ 0) (hη : ‖D' - D‖ ≤ η * ‖D‖) (hδ : ‖d‖ ≤ δ) (h1 : η < 1) :
    ‖(1 + d) * N / D' - N / D‖ ≤ (η + δ) / (1 - η) * ‖N / D‖ := by
  have D0 : 0 < ‖D‖ := norm_pos_iff.2 hD
  have lo : (1 - η) * ‖D‖ ≤ ‖D'‖ := by
    have := norm_sub_norm_le D (D - D')
    rw [show D - (D - D') = D' by ring, norm_sub_rev D D'] at this
    linarith
  have p : 0 < 1 - η := by linarith
  have D0' : 0 < ‖D'‖ := lt_of_lt_of_le (mul_pos p D0) lo
  have hD' : D' ≠ 0 := norm_pos_iff.1 D0'
  have e : (1 + d) * N / D' - N / D = ((D - D') + d * D) / D' * (N / D) := by field_simp; ring
  rw [e, norm_mul]
  refine mul_le_mul_of_nonneg_right ?_ (norm_nonneg _)
  rw [norm_div, div_le_div_iff₀ D0' p]
  have t : ‖(D - D') + d * D‖ ≤ (η + δ) * ‖D‖ := by
    refine (norm_add_le _ _).trans ?_
    rw [norm_sub_rev, norm_mul]
    have := mul_le_mul_of_nonneg_right hδ D0.le
    linarith
  have δ0 : 0 ≤ δ := (norm_nonneg d).trans hδ
  have η0 : 0 ≤ η := by
    by_contra h
    have := (norm_nonneg (D' - D)).trans hη
    nlinarith
  have := mul_le_mul_of_nonneg_right t p.le
  have := mul_le_mul_of_nonneg_left lo (add_nonneg η0 δ0)
  linarith

/-- Quotients whose numerator is off by an amount. -/
theorem quot_abs {N N' D D' : ℂ} {η ν G : ℝ} (hD : D ≠ 0) (hη : ‖D' - D‖ ≤ η * ‖D‖) (hν : ‖N' - N‖ ≤ ν * ‖D‖) (hG : ‖N‖ ≤ G * ‖D‖)
    (h1 : η < 1) : ‖N' / D' - N / D‖ ≤ (ν + G * η) / (1 - η) := by
  have D0 : 0 < ‖D‖ := norm_pos_iff.2 hD
  have lo : (1 - η) * ‖D‖ ≤ ‖D'‖ := by
    have := norm_sub_norm_le D (D - D')
    rw [show D - (D - D') = D' by ring, norm_sub_rev D D'] at this
    linarith
  have p : 0 < 1 - η := by linarith
  have D0' : 0 < ‖D'‖ := lt_of_lt_of_le (mul_pos p D0) lo
  have hD' : D' ≠ 0 := norm_pos_iff.1 D0'
  have e : N' / D' - N / D = ((N' - N) + N / D * (D - D')) / D' := by field_simp; ring
  rw [e, norm_div, div_le_div_iff₀ D0' p]
  have g : ‖N / D‖ ≤ G := by rw [norm_div, div_le_iff₀ D0]; exact hG
  have t : ‖(N' - N) + N / D * (D - D')‖ ≤ (ν + G * η) * ‖D‖ := by
    refine (norm_add_le _ _).trans ?_
    rw [norm_mul, norm_sub_rev D]
    have := mul_le_mul g hη (norm_nonneg _) ((norm_nonneg _).trans g)
    linarith
  have n0 : 0 ≤ ν + G * η := by
    have := (norm_nonneg _).trans t
    exact nonneg_of_mul_nonneg_left this D0
  have := mul_le_mul_of_nonneg_right t p.le
  have := mul_le_mul_of_nonneg_left lo n0
  linarith

theorem quad_diff {z : ℂ} (hz : ‖z‖ = 1) {a b c a' b' c' x y w : ℝ} (h1 : |a' - a| ≤ x) (h2 : |b' - b| ≤ y) (h3 : |c' - c| ≤ w) :
    ‖((a' : ℂ) * z ^ 2 + b' * z + c') - (a * z ^ 2 + b * z + c)‖ ≤ x + y + w := by
  have e : ((a' : ℂ) * z ^ 2 + b' * z + c') - (a * z ^ 2 + b * z + c) = ((a' - a : ℝ) : ℂ) * z ^ 2 + ((b' - b : ℝ) : ℂ) * z + ((c' - c : ℝ) : ℂ) := by
    push_cast; ring
  rw [e]
  refine (norm_add₃_le).trans ?_
  rw [norm_mul, norm_mul, norm_pow, hz, one_pow, mul_one, mul_one, Complex.norm_real, Complex.norm_real, Complex.norm_real]
  simp only [Real.norm_eq_abs]
  linarith

/-! ## What rounding does to the other numerators -/

theorem notch_near {k2 kq : F32} (h2 : k2.isFin = true) (hq : kq.isFin = true) (p2 : 0 ≤ k2.val) (pq : 0 ≤ kq.val)
    (hb : 1 + kq.val + k2.val ≤ 2 ^ 6) :
    Near (notchOf k2 kq).b0 ((1 + k2.val) / (1 + kq.val + k2.val)) (6 / 2 ^ 24) := by
  obtain ⟨nn, -⟩ := design_near h2 hq p2 pq (hb.trans (by norm_num))
  change Near (lit 1 / (lit 1 + kq + k2) * (lit 1 + k2)) _ _
  generalize lit 1 / (lit 1 + kq + k2) = N at *
  set a := 1 + kq.val + k2.val with ha
  have a1 : 1 ≤ a := by linarith
  obtain ⟨i, hi⟩ : ∃ i, i = 1 / a := ⟨_, rfl⟩
  have i0 : 0 < i := by rw [hi]; positivity
  have ai : a * i = 1 := by rw [hi]; field_simp
  rw [← hi] at nn
  norm_num at hb
  have c := near1.add (Near.refl h2) (B := a) (by rw [abs_of_nonneg (by linarith)]; linarith) (by norm_num; linarith)
  replace c := c.mono (e' := 11 / 10 / 2 ^ 24 * a) (by norm_num; linarith)
  have e : (i + 33 / 10 / 2 ^ 24 * i) * (a + 11 / 10 / 2 ^ 24 * a) = (1 + 33 / 10 / 2 ^ 24) * (1 + 11 / 10 / 2 ^ 24) := by
    linear_combination (1 + 33 / 10 / 2 ^ 24) * (1 + 11 / 10 / 2 ^ 24) * ai
  have m := nn.mul c (V := i) (W := a) (by rw [abs_of_pos i0]) (by rw [abs_of_nonneg (by linarith)]; linarith) (by rw [e]; norm_num)
  rw [show i * (1 + k2.val) = (1 + k2.val) / a by rw [hi]; ring] at m
  refine m.mono ?_
  rw [e, show i * (11 / 10 / 2 ^ 24 * a) = 11 / 10 / 2 ^ 24 * (a * i) by ring, show a * (33 / 10 / 2 ^ 24 * i) = 33 / 10 / 2 ^ 24 * (a * i) by ring,
    show 33 / 10 / 2 ^ 24 * i * (11 / 10 / 2 ^ 24 * a) = 33 / 10 / 2 ^ 24 * (11 / 10 / 2 ^ 24) * (a * i) by ring, ai]
  norm_num

theorem bell_near {k2 kq g : F32} (h2 : k2.isFin = true) (hq : kq.isFin = true) (hg : g.isFin = true) (p2 : 0 ≤ k2.val) (pq : 0 ≤ kq.val)
    (g0 : 1 ≤ g.val) (g1 : g.val ≤ 16) (hb : 1 + kq.val + k2.val ≤ 2 ^ 6) :
    Near (bellBoostOf g k2 kq).b0 ((1 + g.val * kq.val + k2.val) / (1 + kq.val + k2.val)) (8 / 2 ^ 24 * g.val) ∧
    Near (bellBoostOf g k2 kq).b2 ((1 - g.val * kq.val + k2.val) / (1 + kq.val + k2.val)) (8 / 2 ^ 24 * g.val) := by
  obtain ⟨nn, -⟩ := design_near h2 hq p2 pq (hb.trans (by norm_num))
  change Near (lit 1 / (lit 1 + kq + k2) * (lit 1 + g * kq + k2)) _ _ ∧ Near (lit 1 / (lit 1 + kq + k2) * (lit 1 - g * kq + k2)) _ _
  generalize lit 1 / (lit 1 + kq + k2) = N at *
  set a := 1 + kq.val + k2.val with ha
  have a1 : 1 ≤ a := by linarith
  obtain ⟨i, hi⟩ : ∃ i, i = 1 / a := ⟨_, rfl⟩
  have i0 : 0 < i := by rw [hi]; positivity
  have ai : a * i = 1 := by rw [hi]; field_simp
  rw [← hi] at nn
  norm_num at hb
  obtain ⟨b, hb'⟩ : ∃ b, b = g.val * a := ⟨_, rfl⟩
  have bb : b ≤ 1024 := by rw [hb']; nlinarith
  have gk0 : 0 ≤ g.val * kq.val := by positivity
  have b1 : 1 + g.val * kq.val + k2.val ≤ b := by rw [hb', ha]; nlinarith
  have b0 : 1 ≤ b := by linarith
  have m0 := (Near.refl hg).mul (Near.refl hq) (V := g.val) (W := kq.val) (by rw [abs_of_nonneg (by linarith)]) (by rw [abs_of_nonneg pq])
    (by rw [add_zero, add_zero]; norm_num; linarith)
  replace m0 := m0.mono (e' := 11 / 10 / 2 ^ 24 * b) (by rw [add_zero, add_zero]; norm_num; linarith)
  have bi : b * i = g.val := by rw [hb', mul_assoc, ai, mul_one]
  have fin : ∀ {S : F32} {v : ℚ}, Near S v (34 / 10 / 2 ^ 24 * b) → |v| ≤ b → Near (N * S) (v / a) (8 / 2 ^ 24 * g.val) := by
    intro S v hS hv
    have e : (i + 33 / 10 / 2 ^ 24 * i) * (b + 34 / 10 / 2 ^ 24 * b) = (1 + 33 / 10 / 2 ^ 24) * (1 + 34 / 10 / 2 ^ 24) * g.val := by
      rw [← bi]; ring
    have m := nn.mul hS (V := i) (W := b) (by rw [abs_of_pos i0]) hv (by rw [e]; norm_num; linarith)
    rw [show i * v = v / a by rw [hi]; ring] at m
    refine m.mono ?_
    rw [e, show i * (34 / 10 / 2 ^ 24 * b) = 34 / 10 / 2 ^ 24 * (b * i) by ring, show b * (33 / 10 / 2 ^ 24 * i) = 33 / 10 / 2 ^ 24 * (b * i) by ring,
      show 33 / 10 / 2 ^ 24 * i * (34 / 10 / 2 ^ 24 * b) = 33 / 10 / 2 ^ 24 * (34 / 10 / 2 ^ 24) * (b * i) by ring, bi]
    norm_num; linarith
  constructor
  · have c1 := near1.add m0 (B := b) (by rw [abs_of_nonneg (by linarith)]; linarith) (by norm_num; linarith)
    have c2 := c1.add (Near.refl h2) (B := b) (by rw [abs_of_nonneg (by linarith)]; linarith) (by norm_num; linarith)
    exact fin (c2.mono (by norm_num; linarith)) (by rw [abs_of_nonneg (by linarith)]; linarith)
  · have c1 := near1.sub m0 (B := b) (by rw [abs_le]; constructor <;> linarith) (by norm_num; linarith)
    have c2 := c1.add (Near.refl h2) (B := b) (by rw [abs_le]; constructor <;> linarith) (by norm_num; linarith)
    exact fin (c2.mono (by norm_num; linarith)) (by rw [abs_le]; constructor <;> linarith)

/-! ## The response, for given `k2` and `kq` -/

theorem Near.toReal {x : F32} {v e : ℚ} (h : Near x v e) : |(x.val : ℝ) - v| ≤ e := by
  have := (Rat.cast_le (K := ℝ)).2 h.2
  push_cast at this; exact this

theorem gain_eq (co : BiquadCoeffs F32) (z : ℂ) : co.real.cgain z =
    (((co.b0.val : ℝ) : ℂ) * z ^ 2 + ((co.b1.val : ℝ) : ℂ) * z + ((co.b2.val : ℝ) : ℂ)) /
      ((1 : ℝ) * z ^ 2 + ((co.a1.val : ℝ) : ℂ) * z + ((co.a2.val : ℝ) : ℂ)) := by
  simp only [BiquadCoeffs.cgain, BiquadCoeffs.gain, BiquadCoeffs.num, BiquadCoeffs.den, BiquadCoeffs.map, BiquadCoeffs.real,
    Complex.ofReal_one, one_mul]

theorem response {k2 kq : F32} (h2 : k2.isFin = true) (hq : kq.isFin = true) (p2 : 1 / 2 ^ 21 ≤ k2.val) (pq : 0 < kq.val)
    (hb : 1 + kq.val + k2.val ≤ 2 ^ 6) {K Q : ℝ} (hK : 0 < K) (hk2 : (k2.val : ℝ) = K ^ 2) (hkq : (kq.val : ℝ) = K / Q)
    {z s : ℂ} (hz : ‖z‖ = 1) (hz1 : z + 1 ≠ 0) (hs : z - 1 = s * K * (z + 1)) {η : ℝ} (η1 : η < 1)
    (hη : 21 / 2 ^ 24 * (1 + K / Q + K ^ 2) ≤ η * ‖denE (K ^ 2) (K / Q) z‖) :
    ‖(lowpassOf k2 kq).real.cgain z - analogLow Q s‖ ≤ (η + 44 / 10 / 2 ^ 24) / (1 - η) * ‖analogLow Q s‖ ∧
    ‖(highpassOf k2 kq).real.cgain z - analogHigh Q s‖ ≤ (η + 44 / 10 / 2 ^ 24) / (1 - η) * ‖analogHigh Q s‖ ∧
    ‖(allpassOf k2 kq).real.cgain z - analogAll Q s‖ ≤ 17 / 7 * η / (1 - η) ∧
    ‖(notchOf k2 kq).real.cgain z - analogNotch Q s‖ ≤ 17 / 7 * η / (1 - η) ∧
    ∀ g : F32, g.isFin = true → 1 ≤ g.val → g.val ≤ 16 →
      ‖(bellBoostOf g k2 kq).real.cgain z - analogBell Q g.val s‖ ≤ 17 / 7 * η / (1 - η) * g.val := by
  have p20 : 0 < k2.val := lt_of_lt_of_le (by norm_num) p2
  obtain ⟨nn, m1, m1', m2⟩ := design_near h2 hq p20.le pq.le (hb.trans (by norm_num))
  obtain ⟨n1, n2, -, -, n5⟩ := numerators h2 hq p2 pq hb
  have n6 := notch_near h2 hq p20.le pq.le hb
  have n7 := fun g hg g0 g1 => bell_near (g := g) h2 hq hg p20.le pq.le g0 g1 hb
  have c2 : ((k2.val : ℝ)) = K ^ 2 := hk2
  replace nn := nn.toReal; replace m1 := m1.toReal; replace m1' := m1'.toReal; replace m2 := m2.toReal
  replace n5 := n5.toReal; replace n6 := n6.toReal
  push_cast at nn m1 m1' m2 n5 n6
  rw [hk2, hkq] at nn m1 m1' m2 n5 n6
  set k := K ^ 2 with hk
  set c := K / Q with hc
  have k0 : 0 < k := by positivity
  have c0 : 0 < c := by rw [← hkq]; exact_mod_cast pq
  have a0 : 0 < 1 + c + k := by linarith
  set a := 1 + c + k with ha
  have ac : (a : ℂ) ≠ 0 := by exact_mod_cast a0.ne'
  obtain ⟨E, hE⟩ : ∃ E, E = denE k c z := ⟨_, rfl⟩
  rw [← hE] at hη
  have Ea : E = K ^ 2 * (z + 1) ^ 2 * (s ^ 2 + s / Q + 1) := by rw [hE]; exact denE_analog hs
  have E0 : 0 < ‖E‖ := by
    rcases (norm_nonneg E).lt_or_eq with h | h
    · exact h
    · rw [← h, mul_zero] at hη
      have : 0 < 21 / 2 ^ 24 * a := by positivity
      linarith
  have En : E ≠ 0 := norm_pos_iff.1 E0
  have P0 : s ^ 2 + s / Q + 1 ≠ 0 := fun h => En (by rw [Ea, h, mul_zero])
  have Kc : (K : ℂ) ≠ 0 := by exact_mod_cast hK.ne'
  have W0 : (K : ℂ) ^ 2 * (z + 1) ^ 2 ≠ 0 := mul_ne_zero (pow_ne_zero 2 Kc) (pow_ne_zero 2 hz1)
  obtain ⟨D, hD⟩ : ∃ D, D = E / a := ⟨_, rfl⟩
  have D0 : D ≠ 0 := by rw [hD]; exact div_ne_zero En ac
  have Dn : ‖D‖ = ‖E‖ / a := by rw [hD, norm_div, Complex.norm_real, Real.norm_of_nonneg a0.le]
  have De : D = ((1 : ℝ) : ℂ) * z ^ 2 + ((2 * (k - 1) / a : ℝ) : ℂ) * z + (((1 - c + k) / a : ℝ) : ℂ) := by
    rw [hD, hE, denE, ← ha]; push_cast; field_simp
  have ηD : 21 / 2 ^ 24 ≤ η * ‖D‖ := by
    rw [Dn, ← mul_div_assoc, le_div_iff₀ a0]; exact hη
  have den : ∀ x y : ℝ, |x - 2 * (k - 1) / a| ≤ 14 / 2 ^ 24 → |y - (1 - c + k) / a| ≤ 7 / 2 ^ 24 →
      ‖((1 : ℝ) * z ^ 2 + (x : ℂ) * z + (y : ℂ)) - D‖ ≤ η * ‖D‖ := by
    intro x y hx hy
    rw [De]
    refine (quad_diff hz (x := 0) (by simp) hx hy).trans ?_
    rw [← De]
    refine le_trans ?_ ηD; norm_num
  have η0 : 0 < η := by
    have : 0 < η * ‖D‖ := lt_of_lt_of_le (by norm_num) ηD
    exact pos_of_mul_pos_left this (norm_nonneg _)
  have ana : ∀ N : ℂ, ∀ M : ℂ, N = K ^ 2 * (z + 1) ^ 2 * M → N / a / D = M / (s ^ 2 + s / Q + 1) := by
    intro N M h
    rw [hD, h, Ea]
    field_simp
  have kK : (k : ℂ) = K ^ 2 := by rw [hk]; push_cast; rfl
  have uη : 1 / 2 ^ 24 ≤ η / 21 * ‖D‖ := by linarith
  have s2 : K ^ 2 * (z + 1) ^ 2 * s ^ 2 = (z - 1) ^ 2 := by rw [hs]; ring
  have s1 : K ^ 2 * (z + 1) ^ 2 * (s / Q) = c * (z ^ 2 - 1) := by
    rw [hc]; push_cast
    linear_combination (-(K / Q) * (z + 1)) * hs
  refine ⟨?_, ?_, ?_, ?_, ?_⟩
  · have e := ana (k * (z + 1) ^ 2) 1 (by rw [hk]; push_cast; ring)
    unfold analogLow
    rw [← e, gain_eq]
    have eb : (lowpassOf k2 kq).b2 = (lowpassOf k2 kq).b0 := rfl
    rw [eb, n1, Rat.cast_mul, Rat.cast_ofNat]
    obtain ⟨b, hb⟩ : ∃ b : ℝ, b = ((lowpassOf k2 kq).b0.val : ℝ) := ⟨_, rfl⟩
    rw [← hb] at n5 ⊢
    push_cast
    have kc : (k : ℂ) ≠ 0 := by exact_mod_cast k0.ne'
    rw [show (b : ℂ) * z ^ 2 + 2 * b * z + b = (1 + ((b / (k / a) - 1 : ℝ) : ℂ)) * (k * (z + 1) ^ 2 / a) by
      push_cast; field_simp; ring]
    refine quot_rel D0 ?_ ?_ η1
    · have := den _ _ m1 m2
      push_cast at this; exact this
    · rw [Complex.norm_real, Real.norm_eq_abs]
      have ka : 0 < k / a := by positivity
      rw [show b / (k / a) - 1 = (b - k / a) / (k / a) by field_simp, abs_div, abs_of_pos ka, div_le_iff₀ ka]
      exact n5
  · have e := ana ((z - 1) ^ 2) (s ^ 2) s2.symm
    unfold analogHigh
    rw [← e, gain_eq]
    have eb : (highpassOf k2 kq).b2 = (highpassOf k2 kq).b0 := rfl
    rw [eb, n2, Rat.cast_mul, Rat.cast_neg, Rat.cast_ofNat]
    change |(((highpassOf k2 kq).b0.val : ℚ) : ℝ) - 1 / a| ≤ _ at nn
    obtain ⟨b, hb⟩ : ∃ b : ℝ, b = ((highpassOf k2 kq).b0.val : ℝ) := ⟨_, rfl⟩
    rw [← hb] at nn ⊢
    push_cast
    rw [show (b : ℂ) * z ^ 2 + -2 * b * z + b = (1 + ((b * a - 1 : ℝ) : ℂ)) * ((z - 1) ^ 2 / a) by
      push_cast; field_simp; ring]
    refine quot_rel D0 ?_ ?_ η1
    · have := den _ _ m1' m2
      push_cast at this; exact this
    · rw [Complex.norm_real, Real.norm_eq_abs]
      rw [show b * a - 1 = (b - 1 / a) * a by field_simp, abs_mul, abs_of_pos a0]
      refine (mul_le_mul_of_nonneg_right nn a0.le).trans ?_
      rw [mul_assoc, one_div_mul_cancel a0.ne']; norm_num
  · have e := ana ((1 - c + k) * z ^ 2 + 2 * (k - 1) * z + (1 + c + k)) (s ^ 2 - s / Q + 1) (by
      linear_combination -s2 + s1 + (z + 1) ^ 2 * kK)
    unfold analogAll
    rw [← e, gain_eq]
    change |(((allpassOf k2 kq).b1.val : ℚ) : ℝ) - _| ≤ _ at m1'
    change |(((allpassOf k2 kq).b0.val : ℚ) : ℝ) - _| ≤ _ at m2
    have := quot_abs (N := ((1 - c + k) * z ^ 2 + 2 * (k - 1) * z + (1 + c + k)) / a) (ν := η) (G := 1)
      (N' := ((((allpassOf k2 kq).b0.val : ℚ) : ℝ) : ℂ) * z ^ 2 + ((((allpassOf k2 kq).b1.val : ℚ) : ℝ) : ℂ) * z + ((((allpassOf k2 kq).b2.val : ℚ) : ℝ) : ℂ))
      D0 (den (((allpassOf k2 kq).a1.val : ℚ) : ℝ) (((allpassOf k2 kq).a2.val : ℚ) : ℝ) m1' m2) ?_ ?_ η1
    · refine this.trans ?_
      rw [div_le_div_iff_of_pos_right (by linarith)]; linarith
    · have e2 : (((1:ℂ) - c + k) * z ^ 2 + 2 * (k - 1) * z + (1 + c + k)) / a =
          (((1 - c + k) / a : ℝ) : ℂ) * z ^ 2 + ((2 * (k - 1) / a : ℝ) : ℂ) * z + ((1 : ℝ) : ℂ) := by
        rw [show (1:ℂ) + c + k = a by rw [ha]; push_cast; ring]
        push_cast; field_simp
      rw [e2]
      have l1 : (((allpassOf k2 kq).b2.val : ℚ) : ℝ) = 1 := by
        change (((lit 1 : F32).val : ℚ) : ℝ) = 1
        rw [lit1_val]; norm_num
      refine (quad_diff hz m2 m1' (w := 0) (by rw [l1]; simp)).trans ?_
      refine le_trans ?_ ηD; norm_num
    · rw [one_mul, Dn, norm_div, Complex.norm_real, Real.norm_of_nonneg a0.le, div_le_div_iff_of_pos_right a0]
      apply le_of_sq_le_sq _ (norm_nonneg _)
      have q1 := quad_norm hz (1 - c + k) (2 * (k - 1)) (1 + c + k)
      push_cast at q1
      rw [q1, hE, denE_norm hz]; apply le_of_eq; ring
  · have e := ana ((1 + k) * z ^ 2 + 2 * (k - 1) * z + (1 + k)) (s ^ 2 + 1) (by
      linear_combination -s2 + (z + 1) ^ 2 * kK)
    unfold analogNotch
    rw [← e, gain_eq]
    have eb : (notchOf k2 kq).b2 = (notchOf k2 kq).b0 := rfl
    rw [eb]
    change |(((notchOf k2 kq).b1.val : ℚ) : ℝ) - _| ≤ _ at m1'
    change |(((notchOf k2 kq).a2.val : ℚ) : ℝ) - _| ≤ _ at m2
    have := quot_abs (N := ((1 + k) * z ^ 2 + 2 * (k - 1) * z + (1 + k)) / a) (ν := 26 / 21 * η) (G := 1)
      (N' := ((((notchOf k2 kq).b0.val : ℚ) : ℝ) : ℂ) * z ^ 2 + ((((notchOf k2 kq).b1.val : ℚ) : ℝ) : ℂ) * z + ((((notchOf k2 kq).b0.val : ℚ) : ℝ) : ℂ))
      D0 (den (((notchOf k2 kq).a1.val : ℚ) : ℝ) (((notchOf k2 kq).a2.val : ℚ) : ℝ) m1' m2) ?_ ?_ η1
    · refine this.trans ?_
      rw [div_le_div_iff_of_pos_right (by linarith)]; linarith
    · have e2 : (((1:ℂ) + k) * z ^ 2 + 2 * (k - 1) * z + (1 + k)) / a =
          (((1 + k) / a : ℝ) : ℂ) * z ^ 2 + ((2 * (k - 1) / a : ℝ) : ℂ) * z + (((1 + k) / a : ℝ) : ℂ) := by
        push_cast; field_simp
      rw [e2]
      refine (quad_diff hz n6 m1' n6).trans ?_
      linarith
    · rw [one_mul, Dn, norm_div, Complex.norm_real, Real.norm_of_nonneg a0.le, div_le_div_iff_of_pos_right a0]
      apply le_of_sq_le_sq _ (norm_nonneg _)
      have q1 := quad_norm hz (1 + k) (2 * (k - 1)) (1 + k)
      push_cast at q1
      rw [q1, hE, denE_norm hz]
      obtain ⟨r1, r2⟩ := re_range hz
      have := mul_nonneg (sq_nonneg c) (mul_nonneg r1 r2)
      linarith
  · intro g hg g0 g1
    obtain ⟨x1, x2⟩ := n7 g hg g0 g1
    replace x1 := x1.toReal; replace x2 := x2.toReal
    push_cast at x1 x2
    rw [hk2, hkq] at x1 x2
    have g0' : (1:ℝ) ≤ g.val := by exact_mod_cast g0
    obtain ⟨γ, hγ⟩ : ∃ γ : ℝ, γ = (g.val : ℝ) := ⟨_, rfl⟩
    rw [← hγ] at x1 x2 g0' ⊢
    have e := ana ((1 + γ * c + k) * z ^ 2 + 2 * (k - 1) * z + (1 - γ * c + k)) (s ^ 2 + γ * (s / Q) + 1) (by
      linear_combination -s2 - γ * s1 + (z + 1) ^ 2 * kK)
    unfold analogBell
    rw [← e, gain_eq]
    change |(((bellBoostOf g k2 kq).b1.val : ℚ) : ℝ) - _| ≤ _ at m1'
    change |(((bellBoostOf g k2 kq).a2.val : ℚ) : ℝ) - _| ≤ _ at m2
    have := quot_abs (N := ((1 + γ * c + k) * z ^ 2 + 2 * (k - 1) * z + (1 - γ * c + k)) / a) (ν := 30 / 21 * η * γ) (G := γ)
      (N' := ((((bellBoostOf g k2 kq).b0.val : ℚ) : ℝ) : ℂ) * z ^ 2 + ((((bellBoostOf g k2 kq).b1.val : ℚ) : ℝ) : ℂ) * z + ((((bellBoostOf g k2 kq).b2.val : ℚ) : ℝ) : ℂ))
      D0 (den (((bellBoostOf g k2 kq).a1.val : ℚ) : ℝ) (((bellBoostOf g k2 kq).a2.val : ℚ) : ℝ) m1' m2) ?_ ?_ η1
    · refine this.trans (le_of_eq ?_)
      ring
    · have e2 : (((1:ℂ) + γ * c + k) * z ^ 2 + 2 * (k - 1) * z + (1 - γ * c + k)) / a =
          (((1 + γ * c + k) / a : ℝ) : ℂ) * z ^ 2 + ((2 * (k - 1) / a : ℝ) : ℂ) * z + (((1 - γ * c + k) / a : ℝ) : ℂ) := by
        push_cast; field_simp
      rw [e2]
      refine (quad_diff hz x1 m1' x2).trans ?_
      have := mul_le_mul_of_nonneg_right uη (show 0 ≤ γ by linarith)
      linarith
    · rw [Dn, norm_div, Complex.norm_real, Real.norm_of_nonneg a0.le, ← mul_div_assoc, div_le_div_iff_of_pos_right a0]
      apply le_of_sq_le_sq _ (by positivity)
      have q1 := quad_norm hz (1 + γ * c + k) (2 * (k - 1)) (1 - γ * c + k)
      push_cast at q1
      rw [q1, hE, mul_pow, denE_norm hz]
      have := mul_le_mul_of_nonneg_right (show 1 ≤ γ ^ 2 by nlinarith) (sq_nonneg (k * (1 + z.re) - (1 - z.re)))
      nlinarith

/-! ## Where the corner is -/

theorem arctan_lipschitz (a b : ℝ) : |Real.arctan a - Real.arctan b| ≤ |a - b| := by
  have := Convex.norm_image_sub_le_of_norm_deriv_le (f := Real.arctan) (s := Set.univ) (C := 1) (x := b) (y := a)
    (fun x _ => Real.differentiableAt_arctan x) (fun x _ => by
      rw [Real.deriv_arctan, Real.norm_of_nonneg (by positivity), div_le_one (by positivity)]
      nlinarith [sq_nonneg x]) convex_univ (Set.mem_univ _) (Set.mem_univ _)
  rwa [one_mul] at this

theorem warp_angle {powi : F32 → ℕ → F32} (hp : PowiNear powi) {fc sr : F32} (s0 : 1 ≤ sr.val) (s1 : sr.val ≤ 2 ^ 30)
    (r0 : 1 / 2 ^ 20 ≤ fc.val / sr.val) (r1 : fc.val / sr.val ≤ 318 / 1000) :
    |Real.arctan (warpF powi fc sr).val - Real.pi * ((fc.val / sr.val : ℚ) : ℝ)| ≤ 101 / 100000 * (Real.pi * ((fc.val / sr.val : ℚ) : ℝ)) := by
  have sp : 0 < sr.val := by linarith
  have fp : 0 < fc.val / sr.val := lt_of_lt_of_le (by norm_num) r0
  have fp' : 0 ≤ fc.val := by
    have := mul_nonneg fp.le sp.le
    rwa [div_mul_cancel₀ _ sp.ne'] at this
  have fB : fc.val ≤ 2 ^ 30 := by
    rw [div_le_iff₀ sp] at r1
    norm_num at s1 ⊢; linarith
  norm_num at fB s1
  have ff : fc.isFin = true := fin_of_val (by rw [abs_of_nonneg fp']; norm_num; linarith)
  have sf : sr.isFin = true := fin_of_val (by rw [abs_of_pos sp]; norm_num; linarith)
  have pf : (lit FMath.piQ : F32).isFin = true := by decide +kernel
  have pv : (lit FMath.piQ : F32).val = 13176795 / 4194304 := by decide +kernel
  obtain ⟨m1, m2⟩ := mul_near (B := 13176795 / 4194304 * fc.val) pf ff (by rw [pv, abs_of_nonneg (by positivity)]) (by norm_num; linarith)
  rw [pv] at m2
  obtain ⟨m2a, m2b⟩ := abs_le.1 m2
  have t : (1:ℚ) / 2 ^ 150 / sr.val ≤ 1 / 2 ^ 150 := div_le_self (by norm_num) s0
  have u1 : (lit FMath.piQ * fc).val / sr.val ≤ 13176795 / 4194304 * (1 + 1 / 2 ^ 24) * (fc.val / sr.val) + 1 / 2 ^ 150 / sr.val := by
    rw [← mul_div_assoc, ← add_div, div_le_div_iff_of_pos_right sp]; linarith
  have u2 : 13176795 / 4194304 * (1 - 1 / 2 ^ 24) * (fc.val / sr.val) - 1 / 2 ^ 150 / sr.val ≤ (lit FMath.piQ * fc).val / sr.val := by
    rw [← mul_div_assoc, ← sub_div, div_le_div_iff_of_pos_right sp]; linarith
  have t0 : (0:ℚ) ≤ 1 / 2 ^ 150 / sr.val := by positivity
  norm_num at u1 u2 t r0 t0
  have d3 : |(lit FMath.piQ * fc / sr).val - (lit FMath.piQ * fc).val / sr.val| ≤ 1 / 2 ^ 150 + 22 / 7 * (fc.val / sr.val) / 2 ^ 24 := by
    exact (div_near (B := 22 / 7 * (fc.val / sr.val)) m1 sf sp.ne' (by rw [abs_le]; constructor <;> linarith) (by norm_num; linarith)).2
  obtain ⟨d3a, d3b⟩ := abs_le.1 d3
  have x0 : 31415926 / 10000000 * (1 - 1 / 2 ^ 21) * (fc.val / sr.val) ≤ (lit FMath.piQ * fc / sr).val := by norm_num at d3a d3b ⊢; linarith
  have x1 : (lit FMath.piQ * fc / sr).val ≤ 31415927 / 10000000 * (1 + 1 / 2 ^ 21) * (fc.val / sr.val) := by norm_num at d3a d3b ⊢; linarith
  have x00 : 0 ≤ (lit FMath.piQ * fc / sr).val := by norm_num at x0; linarith
  have x11 : (lit FMath.piQ * fc / sr).val ≤ 1 := by norm_num at x1; linarith
  obtain ⟨-, e⟩ := fastTan_near hp x00 x11
  change |(warpF powi fc sr).val - _| ≤ _ at e
  generalize (lit FMath.piQ * fc / sr).val = x at *
  generalize fc.val / sr.val = r at *
  generalize (warpF powi fc sr).val = k at *
  replace e := (Rat.cast_le (K := ℝ)).2 (e.trans (show x / 2 ^ 18 + 1 / 2 ^ 130 ≤ x / 2 ^ 17 by norm_num at x0 ⊢; linarith))
  have hq : ((tanQ x : ℚ) : ℝ) = tanPoly x := by unfold tanQ tanPoly; push_cast; rfl
  rw [Rat.cast_abs, Rat.cast_sub, hq] at e
  replace x0 := (Rat.cast_le (K := ℝ)).2 x0
  replace x1 := (Rat.cast_le (K := ℝ)).2 x1
  have y0 : (0:ℝ) ≤ x := by exact_mod_cast x00
  have y1 : (x:ℝ) ≤ 1 := by exact_mod_cast x11
  have r0' : (0:ℝ) < r := by exact_mod_cast fp
  push_cast at e x0 x1
  have l := (arctan_lipschitz k (tanPoly x)).trans e
  have a1 := arctan_tanPoly_le y0
  have a2 := arctan_tanPoly_ge y0 y1
  have a3 : (x:ℝ) ^ 17 ≤ x := pow_le_of_le_one y0 y1 (by norm_num)
  have p1 := mul_le_mul_of_nonneg_right Real.pi_gt_d6.le r0'.le
  have p2 := mul_le_mul_of_nonneg_right Real.pi_lt_d6.le r0'.le
  obtain ⟨l1, l2⟩ := abs_le.1 l
  generalize Real.pi * (r:ℝ) = w at *
  norm_num at x0 x1 l1 l2 p1 p2
  rw [abs_le]; constructor <;> linarith

/-- The relative error of the product and the quotient in `setup_coeffs`. -/
theorem setup_tight {k q : F32} (k0 : 1 / 2 ^ 10 ≤ k.val) (k1 : k.val ≤ 2) (q0 : 1 / 16 ≤ q.val) (q1 : q.val ≤ 64) :
    |(k * k).val - k.val ^ 2| ≤ 101 / 100 / 2 ^ 24 * k.val ^ 2 ∧ |(k / q).val - k.val / q.val| ≤ 101 / 100 / 2 ^ 24 * (k.val / q.val) := by
  have kp : 0 < k.val := lt_of_lt_of_le (by norm_num) k0
  have qp : 0 < q.val := lt_of_lt_of_le (by norm_num) q0
  have kf : k.isFin = true := fin_of_val (by rw [abs_of_pos kp]; norm_num; linarith)
  have qf : q.isFin = true := fin_of_val (by rw [abs_of_pos qp]; norm_num; linarith)
  have b1 : 1 / 2 ^ 20 ≤ k.val ^ 2 := by
    have := mul_le_mul k0 k0 (by norm_num) kp.le
    rw [sq]; refine le_trans (by norm_num) this
  have b2 : k.val / q.val ≤ 32 := by rw [div_le_iff₀ qp]; linarith
  have b3 : 1 / 2 ^ 16 ≤ k.val / q.val := by rw [le_div_iff₀ qp]; norm_num at k0 ⊢; linarith
  obtain ⟨f1, g1⟩ := mul_near (B := k.val ^ 2) kf kf (by rw [← sq, abs_of_nonneg (sq_nonneg _)]) (by norm_num; nlinarith)
  obtain ⟨f2, g2⟩ := div_near (B := k.val / q.val) kf qf qp.ne' (by rw [abs_of_pos (div_pos kp qp)]) (by norm_num; linarith)
  rw [← sq] at g1
  have t : (1:ℚ) / 2 ^ 150 ≤ 1 / 2 ^ 100 := by norm_num
  constructor
  · refine g1.trans ?_; norm_num at b1 t ⊢; linarith
  · refine g2.trans ?_; norm_num at b3 t ⊢; linarith

/-- The corner and the quality factor that rounding really gives. -/
theorem corner {k c q x y : ℝ} (k0 : 0 < k) (q0 : 0 < q) (hx : |x - k ^ 2| ≤ 101 / 100 / 2 ^ 24 * k ^ 2)
    (hc : c = k / q) (hy : |y - c| ≤ 101 / 100 / 2 ^ 24 * c) :
    |Real.sqrt x - k| ≤ 11 / 10 / 2 ^ 24 * k ∧ |Real.sqrt x / y - q| ≤ q / 2 ^ 22 ∧ 0 < x ∧ 0 < y := by
  have kk : 0 < k ^ 2 := by positivity
  have c0 : 0 < c := by rw [hc]; positivity
  obtain ⟨x1, x2⟩ := abs_le.1 hx
  obtain ⟨y1, y2⟩ := abs_le.1 hy
  have x0 : 0 < x := by norm_num at x1; linarith
  have y0 : 0 < y := by norm_num at y1; linarith
  have s1 : Real.sqrt x ≤ k * (1 + 101 / 100 / 2 ^ 24) := by
    rw [Real.sqrt_le_left (by positivity), mul_pow]
    norm_num at x2 ⊢; linarith
  have s2 : k * (1 - 101 / 100 / 2 ^ 24) ≤ Real.sqrt x := by
    apply Real.le_sqrt_of_sq_le
    rw [mul_pow]
    norm_num at x1 ⊢; linarith
  have e : c * q = k := by rw [hc]; field_simp
  have z1 := mul_le_mul_of_nonneg_right y1 q0.le
  have z2 := mul_le_mul_of_nonneg_right y2 q0.le
  rw [sub_mul, e] at z1 z2
  rw [neg_mul, mul_assoc, e] at z1
  rw [mul_assoc, e] at z2
  refine ⟨?_, ?_, x0, y0⟩
  · rw [abs_le]; constructor <;> norm_num at s1 s2 ⊢ <;> linarith
  · rw [show Real.sqrt x / y - q = (Real.sqrt x - y * q) / y by field_simp, abs_div, abs_of_pos y0, div_le_iff₀ y0, abs_le]
    rw [div_mul_eq_mul_div, mul_comm q y]
    generalize y * q = w at *
    constructor <;> norm_num at s1 s2 z1 z2 ⊢ <;> linarith

/-! ## The result -/

/-- The size of `η` in `response`. -/
theorem eta_bound {k k2 kq r : ℝ} (r0 : 1 / 600 ≤ r) (k0 : 3141 / 1000 * r ≤ k) (k1 : k ≤ 17 / 10) (a1 : 99 / 100 * k ^ 2 ≤ k2)
    (a2 : k2 ≤ 101 / 100 * k ^ 2) (b1 : 99 / 200 * k ≤ kq) (b2 : kq ≤ 101 / 60 * k) {z : ℂ} (hz : ‖z‖ = 1) :
    21 / 2 ^ 24 * (1 + kq + k2) ≤ (11 / 4 / r ^ 2 + 150) / 2 ^ 24 * ‖denE k2 kq z‖ := by
  have rp : 0 < r := by linarith
  have kp : 0 < k := by linarith
  have hk2 : 0 < k2 := lt_of_lt_of_le (by positivity) a1
  have hm : 4 * (6 / 25 : ℝ) ^ 2 * k2 ≤ kq ^ 2 := by
    have : (99 / 200 * k) ^ 2 ≤ kq ^ 2 := pow_le_pow_left₀ (by positivity) b1 2
    nlinarith
  have X0 : 0 < 11 / 4 / r ^ 2 + 150 := by positivity
  rw [div_mul_eq_mul_div, div_mul_eq_mul_div, div_le_div_iff_of_pos_right (by norm_num)]
  rcases le_total k2 1 with h | h
  · have L := denE_lower (kq := kq) (m := 6 / 25) (by norm_num) (by norm_num) hm (L := 24 / 25 * k2) (by linarith) (by linarith) hz
    refine le_trans ?_ (mul_le_mul_of_nonneg_left L X0.le)
    have e1 : 9.76 * r ^ 2 ≤ k2 := by
      have : (3141 / 1000 * r) ^ 2 ≤ k ^ 2 := pow_le_pow_left₀ (by positivity) k0 2
      nlinarith
    have e3 : r * kq ≤ 0.543 * k2 := by
      have h1 : r * kq ≤ r * (101 / 60 * k) := mul_le_mul_of_nonneg_left b2 rp.le
      have h2 : 3141 / 1000 * r * k ≤ k * k := mul_le_mul_of_nonneg_right k0 kp.le
      nlinarith
    rw [show (11 / 4 / r ^ 2 + 150) * (24 / 25 * k2) = (66 / 25 * k2 + 144 * k2 * r ^ 2) / r ^ 2 by field_simp; ring, le_div_iff₀ (by positivity)]
    -- 21 r² + 21 r (r kq) + 21 k2 r² ≤ 2.64 k2 + 144 k2 r²
    have e4 : kq * r ^ 2 ≤ 0.543 * k2 * r := by
      have := mul_le_mul_of_nonneg_right e3 rp.le
      linarith [show r * kq * r = kq * r ^ 2 by ring]
    have e5 : 11.41 * r ≤ 0.48 + 123 * r ^ 2 := by nlinarith [sq_nonneg (r - 1 / 20)]
    have e6 := mul_le_mul_of_nonneg_left e5 hk2.le
    nlinarith
  · have L := denE_lower (kq := kq) (m := 6 / 25) (by norm_num) (by norm_num) hm (L := 24 / 25) (by linarith) (by linarith) hz
    refine le_trans ?_ (mul_le_mul_of_nonneg_left L X0.le)
    have : 0 < 11 / 4 / r ^ 2 := by positivity
    have : k ^ 2 ≤ (17 / 10) ^ 2 := pow_le_pow_left₀ kp.le k1 2
    norm_num at this
    linarith

theorem frac_bound {r : ℝ} (r0 : 1 / 600 ≤ r) {η : ℝ} (hη : η = (11 / 4 / r ^ 2 + 150) / 2 ^ 24) :
    η < 1 ∧ (η + 44 / 10 / 2 ^ 24) / (1 - η) ≤ (3 / r ^ 2 + 200) / 2 ^ 24 ∧ 17 / 7 * η / (1 - η) ≤ (8 / r ^ 2 + 400) / 2 ^ 24 := by
  have rp : 0 < r := by linarith
  obtain ⟨X, hX⟩ : ∃ X, X = 1 / r ^ 2 := ⟨_, rfl⟩
  have X0 : 0 < X := by rw [hX]; positivity
  have X1 : X ≤ 360000 := by
    rw [hX, div_le_iff₀ (by positivity)]
    have := pow_le_pow_left₀ (by norm_num) r0 2
    norm_num at this; linarith
  rw [show 11 / 4 / r ^ 2 = 11 / 4 * X by rw [hX]; ring] at hη
  rw [show 3 / r ^ 2 = 3 * X by rw [hX]; ring, show 8 / r ^ 2 = 8 * X by rw [hX]; ring]
  have h1 : η ≤ 6 / 100 := by rw [hη]; norm_num; linarith
  refine ⟨by linarith, ?_, ?_⟩
  · rw [div_le_iff₀ (by linarith)]
    have : (3 * X + 200) / 2 ^ 24 * (94 / 100) ≤ (3 * X + 200) / 2 ^ 24 * (1 - η) := mul_le_mul_of_nonneg_left (by linarith) (by positivity)
    refine le_trans ?_ this
    rw [hη]; norm_num; linarith
  · rw [div_le_iff₀ (by linarith)]
    have : (8 * X + 400) / 2 ^ 24 * (94 / 100) ≤ (8 * X + 400) / 2 ^ 24 * (1 - η) := mul_le_mul_of_nonneg_left (by linarith) (by positivity)
    refine le_trans ?_ this
    rw [hη]; norm_num; linarith

/-- C162: the low-pass, high-pass, all-pass, notch and boosting bell the code computes in floats are the analogue filters with that corner and
that quality factor. One corner angle within 0.11 percent of `2π fc/sr` and one `Q` within 2^-22 of `q` serve all five; at every frequency
below half the sample rate the gain (magnitude and phase) differs from the analogue gain at the warped frequency `tan(θ/2)/tan(θc/2)` by at
most `(3/r² + 200)/2^24` of it for the first two and `(8/r² + 400)/2^24` (times the boost) for the others, where `r = fc/sr`: a thousandth
at `sr/60`. -/
theorem C162_response {powi : F32 → ℕ → F32} (hp : PowiNear powi) {fc q sr : F32} (s0 : 1 ≤ sr.val) (s1 : sr.val ≤ 2 ^ 30)
    {r : ℝ} (hr : r = ((fc.val / sr.val : ℚ) : ℝ)) (r0 : 1 / 600 ≤ r) (r1 : r ≤ 318 / 1000) (q0 : 3 / 5 ≤ q.val) (q1 : q.val ≤ 2) :
    ∃ θc Q : ℝ, |θc - 2 * Real.pi * r| ≤ 11 / 10000 * (2 * Real.pi * r) ∧ |Q - q.val| ≤ q.val / 2 ^ 22 ∧
    ∀ θ s, |θ| < Real.pi → s = Complex.I * (Real.tan (θ / 2) / Real.tan (θc / 2) : ℝ) →
      ‖(lowpass powi fc q sr).real.cgain (tone θ) - analogLow Q s‖ ≤ (3 / r ^ 2 + 200) / 2 ^ 24 * ‖analogLow Q s‖ ∧
      ‖(highpass powi fc q sr).real.cgain (tone θ) - analogHigh Q s‖ ≤ (3 / r ^ 2 + 200) / 2 ^ 24 * ‖analogHigh Q s‖ ∧
      ‖(allpass powi fc q sr).real.cgain (tone θ) - analogAll Q s‖ ≤ (8 / r ^ 2 + 400) / 2 ^ 24 ∧
      ‖(notch powi fc q sr).real.cgain (tone θ) - analogNotch Q s‖ ≤ (8 / r ^ 2 + 400) / 2 ^ 24 ∧
      ∀ g : F32, 1 ≤ g.val → g.val ≤ 16 →
        ‖(bellBoost powi fc q g sr).real.cgain (tone θ) - analogBell Q g.val s‖ ≤ (8 / r ^ 2 + 400) / 2 ^ 24 * g.val := by
  have r0' : 1 / 600 ≤ fc.val / sr.val := by
    rw [hr] at r0
    have : (((1 / 600 : ℚ)) : ℝ) ≤ ((fc.val / sr.val : ℚ) : ℝ) := by push_cast at r0 ⊢; exact r0
    exact_mod_cast this
  have r1' : fc.val / sr.val ≤ 318 / 1000 := by
    rw [hr] at r1
    have : ((fc.val / sr.val : ℚ) : ℝ) ≤ (((318 / 1000 : ℚ)) : ℝ) := by push_cast at r1 ⊢; exact r1
    exact_mod_cast this
  obtain ⟨k0, k1⟩ := warpF_range hp s0 s1 (l := fc.val / sr.val) (le_trans (by norm_num) r0') le_rfl r1'
  have ang := warp_angle hp s0 s1 (le_trans (by norm_num) r0') r1'
  rw [← hr] at ang
  have k00 : 1 / 2 ^ 10 ≤ (warpF powi fc sr).val := le_trans (by norm_num; linarith) k0
  have q0' : 1 / 16 ≤ q.val := by linarith
  have q1' : q.val ≤ 64 := by linarith
  obtain ⟨f1, f2, p2, pq, hb⟩ := k2kq_range k00 k1 q0' q1'
  obtain ⟨-, -, e1, e2, e3, e4⟩ := setup_near k00 (k1.trans (by norm_num)) q0' q1'
  obtain ⟨t1, t2⟩ := setup_tight k00 (k1.trans (by norm_num)) q0' q1'
  change ∃ θc Q : ℝ, _ ∧ _ ∧ ∀ θ s, |θ| < Real.pi → s = Complex.I * (Real.tan (θ / 2) / Real.tan (θc / 2) : ℝ) →
    ‖(lowpassOf (warpF powi fc sr * warpF powi fc sr) (warpF powi fc sr / q)).real.cgain (tone θ) - analogLow Q s‖ ≤ _ ∧
    ‖(highpassOf (warpF powi fc sr * warpF powi fc sr) (warpF powi fc sr / q)).real.cgain (tone θ) - analogHigh Q s‖ ≤ _ ∧
    ‖(allpassOf (warpF powi fc sr * warpF powi fc sr) (warpF powi fc sr / q)).real.cgain (tone θ) - analogAll Q s‖ ≤ _ ∧
    ‖(notchOf (warpF powi fc sr * warpF powi fc sr) (warpF powi fc sr / q)).real.cgain (tone θ) - analogNotch Q s‖ ≤ _ ∧
    ∀ g : F32, 1 ≤ g.val → g.val ≤ 16 →
      ‖(bellBoostOf g (warpF powi fc sr * warpF powi fc sr) (warpF powi fc sr / q)).real.cgain (tone θ) - analogBell Q g.val s‖ ≤ _
  have c1 : (warpF powi fc sr).val / q.val ≤ 5 / 3 * (warpF powi fc sr).val := by
    rw [div_le_iff₀ (by linarith)]
    have : 0 < (warpF powi fc sr).val := lt_of_lt_of_le (by norm_num) k00
    nlinarith
  have c2 : 1 / 2 * (warpF powi fc sr).val ≤ (warpF powi fc sr).val / q.val := by
    rw [le_div_iff₀ (by linarith)]
    have : 0 < (warpF powi fc sr).val := lt_of_lt_of_le (by norm_num) k00
    nlinarith
  have kp : 0 < (warpF powi fc sr).val := lt_of_lt_of_le (by norm_num) k00
  generalize warpF powi fc sr * warpF powi fc sr = k2 at *
  generalize warpF powi fc sr / q = kq at *
  generalize (warpF powi fc sr).val = k at *
  have c1' : kq.val ≤ 101 / 60 * k := by linarith
  have c2' : 99 / 200 * k ≤ kq.val := by linarith
  replace k0 := (Rat.cast_le (K := ℝ)).2 k0
  replace k1 := (Rat.cast_le (K := ℝ)).2 k1
  replace e1 := (Rat.cast_le (K := ℝ)).2 e1
  replace e2 := (Rat.cast_le (K := ℝ)).2 e2
  replace t1 := (Rat.cast_le (K := ℝ)).2 t1
  replace t2 := (Rat.cast_le (K := ℝ)).2 t2
  replace c1' := (Rat.cast_le (K := ℝ)).2 c1'
  replace c2' := (Rat.cast_le (K := ℝ)).2 c2'
  rw [Rat.cast_mul, ← hr] at k0
  push_cast at k0 k1 e1 e2 t1 t2 c1' c2'
  have kR : (0:ℝ) < k := by exact_mod_cast kp
  have qR : (0:ℝ) < q.val := by exact_mod_cast (lt_of_lt_of_le (by norm_num) q0 : 0 < q.val)
  obtain ⟨d1, d2, x0, y0⟩ := corner kR qR t1 rfl t2
  have rp : 0 < r := by linarith
  obtain ⟨η, hη⟩ : ∃ η, η = (11 / 4 / r ^ 2 + 150) / 2 ^ 24 := ⟨_, rfl⟩
  obtain ⟨η1, g1, g2⟩ := frac_bound r0 hη
  set K := Real.sqrt (k2.val : ℝ) with hK
  have K0 : 0 < K := Real.sqrt_pos.2 x0
  have KK : (k2.val : ℝ) = K ^ 2 := (Real.sq_sqrt x0.le).symm
  have QQ : (kq.val : ℝ) = K / (K / kq.val) := by field_simp
  refine ⟨2 * Real.arctan K, K / kq.val, ?_, d2, fun θ s hθ hs => ?_⟩
  · have l := (arctan_lipschitz K k).trans d1
    obtain ⟨l1, l2⟩ := abs_le.1 l
    obtain ⟨g1, g2⟩ := abs_le.1 ang
    have pp : 3 * (1 / 600) ≤ Real.pi * r := mul_le_mul Real.pi_gt_three.le r0 (by norm_num) Real.pi_pos.le
    rw [mul_assoc]
    generalize Real.pi * r = w at *
    norm_num at l1 l2 k1 pp
    rw [abs_le]; constructor <;> linarith
  · obtain ⟨h1, h2⟩ := abs_lt.1 hθ
    obtain ⟨t, ht⟩ : ∃ t, t = Real.tan (θ / 2) := ⟨_, rfl⟩
    have hat : θ = 2 * Real.arctan t := by
      rw [ht, Real.arctan_tan (by linarith) (by linarith)]; ring
    obtain ⟨z1, z2⟩ := tone_arctan t
    rw [← hat] at z1 z2
    rw [← ht, show 2 * Real.arctan K / 2 = Real.arctan K by ring, Real.tan_arctan] at hs
    have hz := tone_norm θ
    generalize tone θ = z at *
    have zs : z - 1 = s * K * (z + 1) := by
      have : (K : ℂ) ≠ 0 := by exact_mod_cast K0.ne'
      rw [z1, hs]; push_cast; field_simp
    have eta := eta_bound r0 k0 k1 e1 e2 c2' c1' hz
    rw [← hη, KK] at eta
    rw [QQ] at eta
    obtain ⟨o1, o2, o3, o4, o5⟩ := response f1 f2 p2 pq hb K0 KK QQ hz z2 zs η1 eta
    refine ⟨o1.trans (mul_le_mul_of_nonneg_right g1 (norm_nonneg _)), o2.trans (mul_le_mul_of_nonneg_right g1 (norm_nonneg _)), o3.trans g2,
      o4.trans g2, fun g h3 h4 => ?_⟩
    have gf : g.isFin = true := fin_of_val (by rw [abs_of_nonneg (by linarith)]; norm_num; linarith)
    have g0 : (0:ℝ) ≤ g.val := by exact_mod_cast (by linarith : 0 ≤ g.val)
    exact (o5 g gf h3 h4).trans (mul_le_mul_of_nonneg_right g2 g0)

/-- C162: at the corner. There is an angle within 0.11 percent of the requested one at which the low-pass computed in floats has gain `q` at -90°
and the high-pass `q` at +90°, within the same relative error. -/
theorem C162_corner {powi : F32 → ℕ → F32} (hp : PowiNear powi) {fc q sr : F32} (s0 : 1 ≤ sr.val) (s1 : sr.val ≤ 2 ^ 30)
    {r : ℝ} (hr : r = ((fc.val / sr.val : ℚ) : ℝ)) (r0 : 1 / 600 ≤ r) (r1 : r ≤ 318 / 1000) (q0 : 3 / 5 ≤ q.val) (q1 : q.val ≤ 2) :
    ∃ θ Q : ℝ, |θ - 2 * Real.pi * r| ≤ 11 / 10000 * (2 * Real.pi * r) ∧ |Q - q.val| ≤ q.val / 2 ^ 22 ∧
      ‖(lowpass powi fc q sr).real.cgain (tone θ) - -Complex.I * Q‖ ≤ (3 / r ^ 2 + 200) / 2 ^ 24 * Q ∧
      ‖(highpass powi fc q sr).real.cgain (tone θ) - Complex.I * Q‖ ≤ (3 / r ^ 2 + 200) / 2 ^ 24 * Q := by
  obtain ⟨θ, Q, h1, h2, h⟩ := C162_response hp s0 s1 hr r0 r1 q0 q1
  have rp : 0 < r := by linarith
  have q0' : (3 / 5 : ℝ) ≤ q.val := by have := (Rat.cast_le (K := ℝ)).2 q0; push_cast at this; exact this
  have Q0 : 0 < Q := by
    have := (abs_le.1 h2).1
    norm_num at this; linarith
  have pr : 0 < 2 * Real.pi * r := by have := Real.pi_pos; positivity
  have t0 : 0 < θ := by have := (abs_le.1 h1).1; linarith
  have t1 : θ < Real.pi := by
    have := (abs_le.1 h1).2
    have : 2 * Real.pi * r ≤ 2 * Real.pi * (318 / 1000) := mul_le_mul_of_nonneg_left r1 (by have := Real.pi_pos; positivity)
    have := Real.pi_pos
    linarith
  have tn : Real.tan (θ / 2) ≠ 0 := (Real.tan_pos_of_pos_of_lt_pi_div_two (by linarith) (by linarith)).ne'
  obtain ⟨o1, o2, -⟩ := h θ Complex.I (by rw [abs_of_pos t0]; exact t1) (by rw [div_self tn]; simp)
  have Qc : (Q : ℂ) ≠ 0 := by exact_mod_cast Q0.ne'
  have I2 := Complex.I_sq
  have a1 : analogLow Q Complex.I = -Complex.I * Q := by
    unfold analogLow; rw [I2]; field_simp; linear_combination I2
  have a2 : analogHigh Q Complex.I = Complex.I * Q := by
    unfold analogHigh; rw [I2]; field_simp; linear_combination -I2
  have n : ‖(Q : ℂ)‖ = Q := by rw [Complex.norm_real, Real.norm_of_nonneg Q0.le]
  rw [a1] at o1
  rw [a2] at o2
  rw [norm_mul (-Complex.I), norm_neg, Complex.norm_I, one_mul, n] at o1
  rw [norm_mul Complex.I, Complex.norm_I, one_mul, n] at o2
  exact ⟨θ, Q, h1, h2, o1, o2⟩

-- C162: 1 kHz at 48 kHz with q = 0.7 is in range and the bound is then less than 1/2000
example : PowiNear powiMul ∧ 1 ≤ (lit 48000 : F32).val ∧ (lit 48000 : F32).val ≤ 2 ^ 30 ∧ (lit 1000 : F32).val / (lit 48000 : F32).val = 1 / 48 ∧
    3 / 5 ≤ (lit (7 / 10) : F32).val ∧ (lit (7 / 10) : F32).val ≤ 2 ∧ ((3:ℚ) / (1 / 48) ^ 2 + 200) / 2 ^ 24 < 1 / 2000 := by
  refine ⟨powiMul_near, ?_, ?_, ?_, ?_, ?_, by norm_num⟩ <;> decide +kernel

-- the analogue filters: on constants, and the notch and the bell at their centre
example : analogLow 2 0 = 1 ∧ analogHigh 2 0 = 0 ∧ analogNotch 2 Complex.I = 0 ∧ analogBell 2 4 Complex.I = 4 ∧ analogAll 2 Complex.I = -1 := by
  have := Complex.I_sq
  have i := Complex.I_ne_zero
  refine ⟨by norm_num [analogLow], by norm_num [analogHigh], by norm_num [analogNotch], ?_, ?_⟩
  · simp only [analogBell, Complex.I_sq]; push_cast; field_simp; ring
  · simp only [analogAll, Complex.I_sq]; push_cast; field_simp; ring

end Verif
