import Verif.Props.Forget
import Verif.Props.DesignFloat

/-! # C178: filters whose coefficients are replaced while they run -/

namespace Verif

open F32 Butterworth

/-- A low-pass whose cutoff may be set anew before every sample. -/
def sweptLowpass (powi : F32 → ℕ → F32) (fc : ℕ → F32) (q sr : F32) (x : ℕ → F32) (n : ℕ) : F32 :=
  (Biquad.new (lowpass powi (fc 0) q sr)).outAtVar (fun n => (lowpass powi (fc n) q sr, x n)) n

/-- C178, in full: a low-pass stays finite while its cutoff is moved about within the range in which every single setting is stable. -/
def C178_full : Prop :=
  ∀ (powi : F32 → ℕ → F32) (fc : ℕ → F32) (q sr : F32) (x : ℕ → F32), PowiNear powi → 1 ≤ sr.val → sr.val ≤ 2 ^ 30 →
    (∀ n, 1 / 600 ≤ (fc n).val / sr.val ∧ (fc n).val / sr.val ≤ 318 / 1000) → 3 / 5 ≤ q.val → q.val ≤ 2 →
    (∀ n, (x n).isFin = true ∧ |(x n).val| ≤ 1) → ∀ n, (sweptLowpass powi fc q sr x n).isFin = true

namespace Swept
open Silence

/-- The coefficients that the low-passes at 1200 Hz and at 14400 Hz, of quality 2, compute at 48 kHz. -/
def lo : BiquadCoeffs F32 := ⟨⟨0x3bc21f52#32⟩, ⟨0x3c421f52#32⟩, ⟨0x3bc21f52#32⟩, ⟨0xbff354f4#32⟩, ⟨0x3f6cbae1#32⟩⟩
def hi : BiquadCoeffs F32 := ⟨⟨0x3f0757f5#32⟩, ⟨0x3f8757f5#32⟩, ⟨0x3f0757f5#32⟩, ⟨0x3eff7660#32⟩, ⟨0x3f1da4a1#32⟩⟩

/-- A state as a number, for the kernel to work with. -/
def decW (c : BiquadCoeffs F32) (s : ℕ) : Biquad F32 := ⟨⟨BitVec.ofNat 32 (s / 2 ^ 32)⟩, ⟨BitVec.ofNat 32 s⟩, c⟩

theorem decW_enc (c : BiquadCoeffs F32) (f : Biquad F32) : decW c (enc f) = { f with coeffs := c } := by
  obtain ⟨⟨a⟩, ⟨b⟩, d⟩ := f
  have ha := a.isLt
  have hb := b.isLt
  have e1 : (a.toNat * 2 ^ 32 + b.toNat) / 2 ^ 32 = a.toNat := by omega
  have e2 : BitVec.ofNat 32 (a.toNat * 2 ^ 32 + b.toNat) = b := by
    apply BitVec.eq_of_toNat_eq
    simp only [BitVec.toNat_ofNat]
    omega
  simp only [decW, enc, e1, e2, BitVec.ofNat_toNat, BitVec.setWidth_eq]

/-- Two samples of silence, the first at the low cutoff, the second at the high one. -/
def pair (s : ℕ) : ℕ := enc ((decW hi (enc ((decW lo s).process (lit 0)).1)).process (lit 0)).1

/-- The low cutoff at even samples, the high one at odd ones; a single sample of 1. -/
def cutoff (n : ℕ) : F32 := if n % 2 = 0 then lit 1200 else lit 14400
def click (n : ℕ) : F32 := if n = 0 then lit 1 else lit 0
def setting (n : ℕ) : BiquadCoeffs F32 := if n % 2 = 0 then lo else hi

theorem state_pair (k : ℕ) :
    enc ((Biquad.new lo).stateAtVar (fun n => (setting n, click n)) (2 * k + 2)) = itOf pair k 13561919123627780543 := by
  induction k with
  | zero => decide +kernel
  | succ k ih =>
    rw [itOf_succ', ← ih, pair, decW_enc, decW_enc]
    have c1 : setting (2 * k + 2) = lo := if_pos (by omega)
    have c2 : setting (2 * k + 2 + 1) = hi := if_neg (by omega)
    have c3 : click (2 * k + 2) = lit 0 := if_neg (by omega)
    have c4 : click (2 * k + 2 + 1) = lit 0 := if_neg (by omega)
    rw [show 2 * (k + 1) + 2 = 2 * k + 2 + 1 + 1 by ring]
    generalize 2 * k + 2 = n at *
    rw [Biquad.stateAtVar, Biquad.stateAtVar, c1, c2, c3, c4]

theorem out_pair (k : ℕ) : (Biquad.new lo).outAtVar (fun n => (setting n, click n)) (2 * k + 2) =
    ((decW lo (itOf pair k 13561919123627780543)).process (lit 0)).2 := by
  rw [← state_pair, decW_enc, Biquad.outAtVar]
  rw [show setting (2 * k + 2) = lo from if_pos (by omega), show click (2 * k + 2) = lit 0 from if_neg (by omega)]

set_option maxRecDepth 100000 in
theorem overflows : ((decW lo (itOf pair 120 13561919123627780543)).process (lit 0)).2.isFin = false := by decide +kernel

theorem swept_eq (n : ℕ) : sweptLowpass powiMul cutoff (lit 2) (lit 48000) click n =
    (Biquad.new lo).outAtVar (fun n => (setting n, click n)) n := by
  have hlo : lowpass powiMul (lit 1200) (lit 2) (lit 48000) = lo := coeffs_eq (by decide +kernel)
  have hhi : lowpass powiMul (lit 14400) (lit 2) (lit 48000) = hi := coeffs_eq (by decide +kernel)
  have hs : ∀ n, lowpass powiMul (cutoff n) (lit 2) (lit 48000) = setting n := by
    intro n
    unfold cutoff setting
    by_cases h : n % 2 = 0
    · rw [if_pos h, if_pos h]; exact hlo
    · rw [if_neg h, if_neg h]; exact hhi
  unfold sweptLowpass
  rw [show (fun n => (lowpass powiMul (cutoff n) (lit 2) (lit 48000), click n)) = fun n => (setting n, click n) from
    funext fun n => by rw [hs n], hs 0, show setting 0 = lo from if_pos rfl]

end Swept

open Swept in
/-- C178 is refuted: the low-pass of quality 2 whose cutoff goes to and fro between 1200 Hz and 14400 Hz at 48 kHz hears a single sample of 1
and has overflowed by sample 242. -/
theorem C178_refuted : ¬ C178_full := by
  intro h
  have := h powiMul cutoff (lit 2) (lit 48000) click powiMul_near (by decide +kernel) (by decide +kernel)
    (fun n => by unfold cutoff; split <;> decide +kernel) (by decide +kernel) (by decide +kernel)
    (fun n => by unfold click; split <;> decide +kernel) (2 * 120 + 2)
  rw [swept_eq, out_pair, overflows] at this
  exact absurd this (by decide)

/-! ## Settings that are held for a while -/

/-- Specification: settings are replaced only after they have been in force for `N` samples. -/
def HeldFor (N : ℕ) (co : ℕ → BiquadCoeffs F32) : Prop := ∀ n, co (n + 1) ≠ co n → ∀ i ≤ n, n < i + N → co i = co n

/-- Specification: a setting whose poles keep a margin `m` from the unit circle. -/
def KeepsMargin (m : ℝ) (c : BiquadCoeffs F32) : Prop := c.Fin ∧ ∃ p q, Poles c.a1.val c.a2.val p q ∧ m ≤ circleMargin p q

/-- The level the input keeps up in every setting. -/
noncomputable def sweepFloor (m : ℝ) (G : ℚ) : ℝ := 18 * (11 / 10 * G + 5 * (1 / 2 ^ 150)) / m

/-- Where a swept filter is: since sample `s` it has had one setting; what the state was then has died away by now. -/
structure SweepInv (N : ℕ) (m : ℝ) (G : ℚ) (co : ℕ → BiquadCoeffs F32) (f : Biquad F32) (n s : ℕ) : Prop where
  le : s ≤ n
  held : ∀ i, s ≤ i → i ≤ n → co i = co n
  start : s = 0 ∨ co (s - 1) ≠ co s
  fin : f.z1.isFin = true ∧ f.z2.isFin = true
  within : ∃ p q, Poles (co n).a1.val (co n).a2.val p q ∧ m ≤ circleMargin p q ∧
    StateWithin p q f.z1.val f.z2.val ((if s = 0 then 0 else (1 - m / 4) ^ (n - s) * (10 * sweepFloor m G / m)) + floorLevel p q G)

variable {N : ℕ} {m : ℝ} {G : ℚ} {co : ℕ → BiquadCoeffs F32} {x : ℕ → F32}

theorem sweepFloor_facts (m0 : 1 / 2 ^ 16 ≤ m) (G0 : 0 ≤ G) (G1 : G ≤ 2 ^ 30) :
    0 ≤ sweepFloor m G ∧ sweepFloor m G ≤ 2 ^ 52 ∧ 10 * sweepFloor m G / m ≤ 2 ^ 72 := by
  have mp : 0 < m := lt_of_lt_of_le (by positivity) m0
  have g0 : (0:ℝ) ≤ G := by exact_mod_cast G0
  have g1 : (G:ℝ) ≤ 2 ^ 30 := by exact_mod_cast G1
  have b : sweepFloor m G ≤ 2 ^ 52 := by
    unfold sweepFloor
    rw [div_le_iff₀ mp]
    norm_num at g1 m0 ⊢
    linarith
  refine ⟨by unfold sweepFloor; positivity, b, ?_⟩
  rw [div_le_iff₀ mp]
  norm_num at b m0 ⊢
  linarith

theorem floor_le_sweep {p q : ℂ} (mp : 0 < m) (hm : m ≤ circleMargin p q) (G0 : 0 ≤ G) : floorLevel p q G ≤ sweepFloor m G := by
  have g0 : (0:ℝ) ≤ G := by exact_mod_cast G0
  unfold floorLevel sweepFloor
  exact div_le_div_of_nonneg_left (by positivity) mp hm

theorem sweep_step (m0 : 1 / 2 ^ 16 ≤ m) (hN : 10 * (1 - m / 4) ^ N ≤ m) (hH : HeldFor N co) (hK : ∀ n, KeepsMargin m (co n))
    (hx : ∀ n, (x n).isFin = true) (G0 : 0 ≤ G) (G1 : G ≤ 2 ^ 30) (hb : ∀ n, (co n).FeedsAtMost (x n) G) {f : Biquad F32} {n s : ℕ}
    (h : SweepInv N m G co f n s) : ∃ s', SweepInv N m G co ({ f with coeffs := co n }.process (x n)).1 (n + 1) s' := by
  obtain ⟨hle, hheld, hstart, ⟨f1, f2⟩, p, q, hP, hm, hw⟩ := h
  have mp : 0 < m := lt_of_lt_of_le (by positivity) m0
  obtain ⟨-, -, M0, M1, -⟩ := hP.facts
  have m1 : m ≤ 1 := hm.trans M1
  obtain ⟨w0, w1, w2⟩ := sweepFloor_facts m0 G0 G1
  have r0 : 0 ≤ 1 - m / 4 := by linarith
  have ex : 0 ≤ 10 * sweepFloor m G / m := by positivity
  set E := if s = 0 then (0:ℝ) else (1 - m / 4) ^ (n - s) * (10 * sweepFloor m G / m) with hE
  have E0 : 0 ≤ E := by rw [hE]; split_ifs <;> positivity
  have E1 : E ≤ 10 * sweepFloor m G / m := by
    rw [hE]; split_ifs
    · exact ex
    · exact mul_le_of_le_one_left ex (pow_le_one₀ r0 (by linarith))
  obtain ⟨o1, o2, o3⟩ := within_step (f := { f with coeffs := co n }) (hK n).1 hP (m0.trans hm) (hx n) f1 f2 G0
    (G1.trans (by norm_num)) (hb n) E0 (E1.trans (w2.trans (by norm_num))) hw
  have drop : (1 - circleMargin p q / 4) * E ≤ (1 - m / 4) * E := mul_le_mul_of_nonneg_right (by linarith) E0
  by_cases hc : co (n + 1) = co n
  · refine ⟨s, by omega, fun i h1 h2 => ?_, hstart, ⟨o1, o2⟩, p, q, by rw [hc]; exact hP, hm, o3.mono hP.right ?_⟩
    · rcases Nat.lt_or_ge n i with h3 | h3
      · rw [show i = n + 1 by omega]
      · rw [hc]; exact hheld i h1 h3
    · have : (if s = 0 then (0:ℝ) else (1 - m / 4) ^ (n + 1 - s) * (10 * sweepFloor m G / m)) = (1 - m / 4) * E := by
        rw [hE]; split_ifs
        · simp
        · rw [show n + 1 - s = n - s + 1 by omega, pow_succ]; ring
      rw [this]; linarith
  · -- the setting changes: what is left of the old state
    have fl := floor_le_sweep mp hm G0
    have left : (1 - m / 4) * E ≤ sweepFloor m G := by
      rw [hE]; split_ifs with hs
      · simpa using w0
      · have big : N ≤ n - s + 1 := by
          by_contra! hlt
          have h1 := hH n hc (s - 1) (by omega) (by omega)
          have h2 := hheld s le_rfl hle
          rcases hstart with h3 | h3
          · exact hs h3
          · exact h3 (h1.trans h2.symm)
        have k1 : (1 - m / 4) ^ (n - s + 1) ≤ (1 - m / 4) ^ N := pow_le_pow_of_le_one r0 (by linarith) big
        have k2 : (1 - m / 4) * ((1 - m / 4) ^ (n - s) * (10 * sweepFloor m G / m)) =
            (1 - m / 4) ^ (n - s + 1) * (10 * sweepFloor m G / m) := by rw [pow_succ]; ring
        rw [k2]
        refine (mul_le_mul_of_nonneg_right k1 ex).trans ?_
        have : (1 - m / 4) ^ N * (10 * sweepFloor m G / m) = (10 * (1 - m / 4) ^ N) / m * sweepFloor m G := by ring
        rw [this]
        exact mul_le_of_le_one_left w0 ((div_le_one mp).2 hN)
    have V := o3.mono hP.right (show (1 - circleMargin p q / 4) * E + floorLevel p q G ≤ 2 * sweepFloor m G by linarith)
    have z2 := V.z2 hP.left.le
    have z1 := V.2
    obtain ⟨-, p', q', hP', hm'⟩ := hK (n + 1)
    refine ⟨n + 1, le_rfl, fun i h1 h2 => by rw [show i = n + 1 by omega], Or.inr (by simpa using fun h => hc h.symm), ⟨o1, o2⟩, p', q', hP', hm', ?_⟩
    rw [if_neg (by omega), Nat.sub_self, pow_zero, one_mul]
    refine (within_start hP' _ _).mono hP'.right ?_
    have fl' : 0 ≤ floorLevel p' q' G := (floorLevel_facts hP' (m0.trans hm') G0 (G1.trans (by norm_num))).1
    have : 2 * (|((({ f with coeffs := co n } : Biquad F32).process (x n)).1.z1.val : ℝ)| +
        |((({ f with coeffs := co n } : Biquad F32).process (x n)).1.z2.val : ℝ)|) / circleMargin p' q' ≤ 10 * sweepFloor m G / m :=
      div_le_div₀ (by positivity) (by linarith) mp hm'
    linarith

/-- C178, what is true of it: a filter whose settings all keep a margin `m` from the unit circle, and are each held for so many samples `N`
that `(1 - m/4)^N ≤ m/10`, stays finite and within a bound that depends on the input and the margin only. -/
theorem C178_partial (m0 : 1 / 2 ^ 16 ≤ m) (hN : 10 * (1 - m / 4) ^ N ≤ m) (hH : HeldFor N co) (hK : ∀ n, KeepsMargin m (co n))
    (hx : ∀ n, (x n).isFin = true) (G0 : 0 ≤ G) (G1 : G ≤ 2 ^ 30) (hb : ∀ n, (co n).FeedsAtMost (x n) G) (n : ℕ) :
    ((Biquad.new (co 0)).outAtVar (fun n => (co n, x n)) n).isFin = true ∧
    |(((Biquad.new (co 0)).outAtVar (fun n => (co n, x n)) n).val : ℝ)| ≤ 230 * (G + 1 / 2 ^ 140) / m ^ 2 := by
  have mp : 0 < m := lt_of_lt_of_le (by positivity) m0
  obtain ⟨s, hs⟩ : ∃ s, SweepInv N m G co ((Biquad.new (co 0)).stateAtVar (fun n => (co n, x n)) n) n s := by
    induction n with
    | zero =>
      obtain ⟨-, p, q, hP, hm⟩ := hK 0
      refine ⟨0, le_rfl, fun i _ h2 => by rw [show i = 0 by omega], Or.inl rfl, ⟨lit0_fin, lit0_fin⟩, p, q, hP, hm, ?_⟩
      have fl : 0 ≤ floorLevel p q G := (floorLevel_facts hP (m0.trans hm) G0 (G1.trans (by norm_num))).1
      refine (within_start hP _ _).mono hP.right ?_
      simp only [Biquad.stateAtVar, Biquad.new, lit0_val]
      simpa using fl
    | succ n ih =>
      obtain ⟨s, hs⟩ := ih
      exact sweep_step m0 hN hH hK hx G0 G1 hb hs
  obtain ⟨-, -, -, ⟨f1, f2⟩, p, q, hP, hm, hw⟩ := hs
  obtain ⟨w0, w1, w2⟩ := sweepFloor_facts m0 G0 G1
  obtain ⟨-, -, M0, M1, -⟩ := hP.facts
  have m1 : m ≤ 1 := hm.trans M1
  have ex : 0 ≤ 10 * sweepFloor m G / m := by positivity
  have fl := floor_le_sweep mp hm G0
  have E1 : (if s = 0 then (0:ℝ) else (1 - m / 4) ^ (n - s) * (10 * sweepFloor m G / m)) ≤ 10 * sweepFloor m G / m := by
    split_ifs
    · exact ex
    · exact mul_le_of_le_one_left ex (pow_le_one₀ (by linarith) (by linarith))
  have V := hw.mono hP.right (add_le_add E1 fl)
  obtain ⟨e0, e1, e2, u1, u2, u3, v0, v1, v2, k0, k1, k2⟩ := any_step
    (f := { (Biquad.new (co 0)).stateAtVar (fun n => (co n, x n)) n with coeffs := co n }) (hK n).1 hP (hx n) f1 f2 (G1.trans (by norm_num)) (hb n) V (by
      norm_num at w1 w2 ⊢; linarith)
  refine ⟨u1, ?_⟩
  have g0 := (Rat.cast_le (K := ℝ)).2 (hb n).1
  push_cast at g0
  have gr : (0:ℝ) ≤ G := by exact_mod_cast G0
  unfold Biquad.outAtVar
  rw [v0]
  refine (abs_add_three _ _ _).trans ?_
  have hz1 := V.2
  have fm : sweepFloor m G ≤ sweepFloor m G / m := le_div_self w0 mp m1
  have e : sweepFloor m G / m = (99 / 5 * G + 90 * (1 / 2 ^ 150)) / m ^ 2 := by unfold sweepFloor; field_simp; ring
  have q1 : (G : ℝ) ≤ G / m ^ 2 := le_div_self gr (by positivity) (pow_le_one₀ mp.le m1)
  have q2 : (1:ℝ) / 2 ^ 150 ≤ (1 / 2 ^ 150) / m ^ 2 := le_div_self (by positivity) (by positivity) (pow_le_one₀ mp.le m1)
  have eq1 : 230 * ((G:ℝ) + 1 / 2 ^ 140) / m ^ 2 = 230 * (G / m ^ 2) + 230 * 1024 * ((1 / 2 ^ 150) / m ^ 2) := by
    rw [show (1:ℝ) / 2 ^ 140 = 1024 * (1 / 2 ^ 150) by norm_num]; ring
  have eq2 : (99 / 5 * (G:ℝ) + 90 * (1 / 2 ^ 150)) / m ^ 2 = 99 / 5 * (G / m ^ 2) + 90 * ((1 / 2 ^ 150) / m ^ 2) := by ring
  have eq3 : 10 * sweepFloor m G / m = 10 * (sweepFloor m G / m) := by ring
  rw [eq1]
  rw [eq3] at k0 hz1
  rw [e, eq2] at fm
  rw [e, eq2] at k0 hz1
  have t0 : (0:ℝ) ≤ 1 / 2 ^ 150 := by positivity
  generalize (1:ℝ) / 2 ^ 150 = η at *
  generalize (G : ℝ) / m ^ 2 = H at *
  generalize η / m ^ 2 = K at *
  linarith

/-- One sample of a filter with small feedback coefficients. -/
theorem free_step {A B T V S : ℚ} {f : Biquad F32} {y : F32} (hc : f.coeffs.Fin) (hA : |f.coeffs.a1.val| ≤ A) (hB : |f.coeffs.a2.val| ≤ B)
    (A1 : A ≤ 1) (B1 : B ≤ 1) (hy : y.isFin = true) (G0 : 0 ≤ G) (hb : f.coeffs.FeedsAtMost y G) (V0 : 0 ≤ V) (gT : G ≤ T)
    (ηT : 13 / 2 ^ 150 ≤ T) (hS : S = 8 * T + V) (S1 : S ≤ 2 ^ 90) (hABV : A * V + B * V ≤ V - 7 * T) (s32 : 32 * S / 2 ^ 24 ≤ 9 / 10 * T)
    (f1 : f.z1.isFin = true) (f2 : f.z2.isFin = true) (h1 : |f.z1.val| ≤ V) (h2 : |f.z2.val| ≤ 3 * T + B * V + 11 * S / 2 ^ 24) :
    (f.process y).2.isFin = true ∧ |(f.process y).2.val| ≤ 3 * T + V ∧ (f.process y).1.z1.isFin = true ∧ (f.process y).1.z2.isFin = true ∧
    |(f.process y).1.z1.val| ≤ V ∧ |(f.process y).1.z2.val| ≤ 3 * T + B * V + 11 * S / 2 ^ 24 := by
  have A0 : 0 ≤ A := (abs_nonneg _).trans hA
  have B0 : 0 ≤ B := (abs_nonneg _).trans hB
  have T0 : 0 ≤ T := G0.trans gT
  have S0 : 0 ≤ S := by rw [hS]; positivity
  have hBV : B * V ≤ V := mul_le_of_le_one_left V0 B1
  have s11 : 11 * S / 2 ^ 24 ≤ T := by
    have : 11 * S / 2 ^ 24 ≤ 32 * S / 2 ^ 24 := by gcongr; norm_num
    linarith
  have s3 : 3 * S / 2 ^ 24 ≤ T / 10 := by
    have : 3 * S / 2 ^ 24 = 3 / 32 * (32 * S / 2 ^ 24) := by ring
    rw [this]; linarith
  have e32 : 32 * S / 2 ^ 24 = 11 * S / 2 ^ 24 + 21 * S / 2 ^ 24 := by ring
  have η8 : (8:ℚ) / 2 ^ 150 ≤ 13 / 2 ^ 150 := by norm_num
  have η3 : (3:ℚ) / 2 ^ 150 ≤ 13 / 2 ^ 150 := by norm_num
  obtain ⟨g0, g1, g2⟩ := hb
  obtain ⟨o0, o1, o2, e0, e1, e2⟩ := process_error hc hy f1 f2 S1 (hA.trans (A1.trans (by norm_num))) (hB.trans B1)
    (by rw [hS]; linarith) (by rw [hS] at *; linarith) (by rw [hS]; linarith)
  have w0 : |f.coeffs.b0.val * y.val + f.z1.val| ≤ G + V := (abs_add_le _ _).trans (add_le_add g0 h1)
  have w1 : |f.coeffs.a1.val * (f.coeffs.b0.val * y.val + f.z1.val)| ≤ A * (G + V) := by
    rw [abs_mul]; exact mul_le_mul hA w0 (abs_nonneg _) A0
  have w2 : |f.coeffs.a2.val * (f.coeffs.b0.val * y.val + f.z1.val)| ≤ B * (G + V) := by
    rw [abs_mul]; exact mul_le_mul hB w0 (abs_nonneg _) B0
  have aG : A * G ≤ G := mul_le_of_le_one_left G0 A1
  have bG : B * G ≤ G := mul_le_of_le_one_left G0 B1
  generalize (f.process y).2 = Z0 at *
  generalize (f.process y).1 = F at *
  generalize (13:ℚ) / 2 ^ 150 = η at *
  generalize 21 * S / 2 ^ 24 = s21 at *
  generalize 11 * S / 2 ^ 24 = s11' at *
  generalize 3 * S / 2 ^ 24 = s3' at *
  refine ⟨o0, ?_, o1, o2, ?_, ?_⟩
  · have t := abs_sub_abs_le_abs_sub Z0.val (f.coeffs.b0.val * y.val + f.z1.val)
    linarith
  · have t := abs_sub_abs_le_abs_sub F.z1.val
      (f.coeffs.b1.val * y.val + f.z2.val - f.coeffs.a1.val * (f.coeffs.b0.val * y.val + f.z1.val))
    have t2 := abs_sub (f.coeffs.b1.val * y.val + f.z2.val) (f.coeffs.a1.val * (f.coeffs.b0.val * y.val + f.z1.val))
    have t3 := abs_add_le (f.coeffs.b1.val * y.val) f.z2.val
    linarith
  · have t := abs_sub_abs_le_abs_sub F.z2.val (f.coeffs.b2.val * y.val - f.coeffs.a2.val * (f.coeffs.b0.val * y.val + f.z1.val))
    have t2 := abs_sub (f.coeffs.b2.val * y.val) (f.coeffs.a2.val * (f.coeffs.b0.val * y.val + f.z1.val))
    linarith

/-- C178, free modulation: settings whose feedback coefficients stay so small that together they are less than 1 may be replaced before every
sample, in any order. -/
theorem C178_free {A B δ : ℚ} (δ0 : 1 / 2 ^ 16 ≤ δ) (hAB : A + B ≤ 1 - δ) (hc : ∀ n, (co n).Fin ∧ |(co n).a1.val| ≤ A ∧ |(co n).a2.val| ≤ B)
    (hx : ∀ n, (x n).isFin = true) (G0 : 0 ≤ G) (G1 : G ≤ 2 ^ 30) (hb : ∀ n, (co n).FeedsAtMost (x n) G) (n : ℕ) :
    ((Biquad.new (co 0)).outAtVar (fun n => (co n, x n)) n).isFin = true ∧
    |((Biquad.new (co 0)).outAtVar (fun n => (co n, x n)) n).val| ≤ 10 * (G + 1 / 2 ^ 146) / δ := by
  obtain ⟨T, hT⟩ : ∃ T, T = G + 1 / 2 ^ 146 := ⟨_, rfl⟩
  have A0 : 0 ≤ A := (abs_nonneg _).trans (hc 0).2.1
  have B0 : 0 ≤ B := (abs_nonneg _).trans (hc 0).2.2
  have δp : 0 < δ := lt_of_lt_of_le (by positivity) δ0
  have δ1 : δ ≤ 1 := by linarith
  have T0 : 0 ≤ T := by rw [hT]; positivity
  have T1 : T ≤ 2 ^ 31 := by rw [hT]; norm_num at G1 ⊢; linarith
  have gT : G ≤ T := by rw [hT]; linarith [show (0:ℚ) ≤ 1 / 2 ^ 146 by positivity]
  have ηT : 13 / 2 ^ 150 ≤ T := by rw [hT]; norm_num at *; linarith
  obtain ⟨V, hV⟩ : ∃ V, V = 7 * T / δ := ⟨_, rfl⟩
  have V0 : 0 ≤ V := by rw [hV]; positivity
  have Vδ : V * δ = 7 * T := by rw [hV]; field_simp
  have TV : 7 * T ≤ V := by rw [← Vδ]; exact mul_le_of_le_one_right V0 δ1
  have V1 : V ≤ 2 ^ 60 := by rw [hV, div_le_iff₀ δp]; norm_num at T1 δ0 ⊢; linarith
  obtain ⟨S, hS⟩ : ∃ S, S = 8 * T + V := ⟨_, rfl⟩
  have S1 : S ≤ 2 ^ 90 := by rw [hS]; norm_num at T1 V1 ⊢; linarith
  have S0 : 0 ≤ S := by rw [hS]; positivity
  have A1 : A ≤ 1 := by linarith
  have B1 : B ≤ 1 := by linarith
  have dV : V / 2 ^ 16 ≤ 7 * T := by
    rw [← Vδ, div_eq_mul_one_div]; exact mul_le_mul_of_nonneg_left δ0 V0
  have hABV : A * V + B * V ≤ V - 7 * T := by
    have := mul_le_mul_of_nonneg_right hAB V0
    rw [← Vδ]; linarith
  have s32 : 32 * S / 2 ^ 24 ≤ 9 / 10 * T := by rw [hS]; norm_num at dV ⊢; linarith
  have inv : ∀ k, ((Biquad.new (co 0)).stateAtVar (fun n => (co n, x n)) k).z1.isFin = true ∧
      ((Biquad.new (co 0)).stateAtVar (fun n => (co n, x n)) k).z2.isFin = true ∧
      |((Biquad.new (co 0)).stateAtVar (fun n => (co n, x n)) k).z1.val| ≤ V ∧
      |((Biquad.new (co 0)).stateAtVar (fun n => (co n, x n)) k).z2.val| ≤ 3 * T + B * V + 11 * S / 2 ^ 24 := by
    intro k
    induction k with
    | zero =>
      refine ⟨lit0_fin, lit0_fin, ?_, ?_⟩
      · show |(lit 0 : F32).val| ≤ V; rw [lit0_val, abs_zero]; exact V0
      · show |(lit 0 : F32).val| ≤ _; rw [lit0_val, abs_zero]; positivity
    | succ k ih =>
      obtain ⟨f1, f2, h1, h2⟩ := ih
      rw [Biquad.stateAtVar]
      exact (free_step (f := ⟨_, _, co k⟩) (hc k).1 (hc k).2.1 (hc k).2.2 A1 B1 (hx k) G0 (hb k) V0 gT ηT hS S1 hABV s32 f1 f2 h1 h2).2.2
  obtain ⟨f1, f2, h1, h2⟩ := inv n
  obtain ⟨o0, o1, -⟩ := free_step (f := ⟨_, _, co n⟩) (hc n).1 (hc n).2.1 (hc n).2.2 A1 B1 (hx n) G0 (hb n) V0 gT ηT hS S1 hABV s32 f1 f2 h1 h2
  rw [Biquad.outAtVar]
  refine ⟨o0, o1.trans ?_⟩
  rw [← hT]
  have e : 10 * T / δ = V + 3 * (T / δ) := by rw [hV]; ring
  have : T ≤ T / δ := le_div_self T0 δp δ1
  rw [e]
  linarith

namespace Swept

/-- Double poles at 1/2 and at -1/2. -/
def right : BiquadCoeffs F32 := ⟨lit 1, lit 0, lit 0, lit (-1), lit (1 / 4)⟩
def left : BiquadCoeffs F32 := ⟨lit 1, lit 0, lit 0, lit 1, lit (1 / 4)⟩

theorem margin_right : KeepsMargin (1 / 4) right := by
  have n : ‖(1 / 2 : ℂ)‖ = 1 / 2 := by
    rw [show (1 / 2 : ℂ) = ((1 / 2 : ℝ) : ℂ) by push_cast; rfl, Complex.norm_real]; norm_num
  have a1 : right.a1.val = -1 := by decide +kernel
  have a2 : right.a2.val = 1 / 4 := by decide +kernel
  refine ⟨by unfold BiquadCoeffs.Fin; decide +kernel, 1 / 2, 1 / 2,
    ⟨by rw [a1]; push_cast; norm_num, by rw [a2]; push_cast; norm_num, by rw [n]; norm_num, by rw [n]; norm_num⟩, ?_⟩
  unfold circleMargin
  rw [n]; norm_num

theorem margin_left : KeepsMargin (1 / 4) left := by
  have n : ‖(-1 / 2 : ℂ)‖ = 1 / 2 := by
    rw [show (-1 / 2 : ℂ) = ((-1 / 2 : ℝ) : ℂ) by push_cast; rfl, Complex.norm_real]; norm_num
  have a1 : left.a1.val = 1 := by decide +kernel
  have a2 : left.a2.val = 1 / 4 := by decide +kernel
  refine ⟨by unfold BiquadCoeffs.Fin; decide +kernel, -1 / 2, -1 / 2,
    ⟨by rw [a1]; push_cast; norm_num, by rw [a2]; push_cast; norm_num, by rw [n]; norm_num, by rw [n]; norm_num⟩, ?_⟩
  unfold circleMargin
  rw [n]; norm_num

end Swept

open Swept in
/-- These two, in turns of 60 samples; in turns of one sample a click grows by 1.4 every two samples. -/
example : let co : ℕ → BiquadCoeffs F32 := fun n => if n / 60 % 2 = 0 then right else left
    10 * (1 - (1 / 4 : ℝ) / 4) ^ 60 ≤ 1 / 4 ∧ HeldFor 60 co ∧ ∀ n, KeepsMargin (1 / 4) (co n) := by
  refine ⟨by norm_num, fun n h i hi hn => ?_, fun n => ?_⟩
  · have e : (n + 1) / 60 ≠ n / 60 := fun e => h (by simp only [e])
    have : i / 60 = n / 60 := by omega
    simp only [this]
  · show KeepsMargin _ (if n / 60 % 2 = 0 then right else left)
    split
    · exact margin_right
    · exact margin_left

/-- A setting for free modulation: `a1` up to 1/2 and `a2` up to 1/4. -/
example : (1 : ℚ) / 2 ^ 16 ≤ 1 / 4 ∧ (1 / 2 + 1 / 4 : ℚ) ≤ 1 - 1 / 4 ∧ BiquadCoeffs.Fin ⟨lit 1, lit 0, lit 0, lit (1 / 2), lit (-1 / 4)⟩ ∧
    |(lit (1 / 2) : F32).val| ≤ 1 / 2 ∧ |(lit (-1 / 4) : F32).val| ≤ 1 / 4 := by
  refine ⟨by norm_num, by norm_num, by unfold BiquadCoeffs.Fin; decide +kernel, by decide +kernel, by decide +kernel⟩

end Verif
