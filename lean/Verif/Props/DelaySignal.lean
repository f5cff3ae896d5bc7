import Verif.Props.Fractional
import Verif.Props.WaveTable

/-! # C181: a delay line returns the signal at the delayed time

Time counts in samples: sample `n` was taken at time `n`. -/

namespace Verif
open F32 Interpolation

variable {c : Cfg} {mem : Mem F32} {d : DelayLine} {q : List F32} {floor : F32 → F32}

/-- The first `N` samples of the signal `S`, each with an error of at most `ε`. -/
def RecordedFrom (S : ℝ → ℝ) (ε : ℝ) (x : ℕ → F32) (N : ℕ) : Prop :=
  ∀ n < N, (x n).isFin = true ∧ |(x n).val| ≤ 2 ∧ |(((x n).val : ℚ) : ℝ) - S n| ≤ ε

/-- The buffer after `N` writes, at an offset within it. -/
theorem recorded_wrap {x : ℕ → F32} {N : ℕ} {q : List F32} (hN : q.length ≤ N)
    (hne : (q ++ (List.range N).map x).drop N ≠ []) {n : ℤ} (h0 : -(q.length : ℤ) ≤ n) (h1 : n ≤ -1) :
    wrapAt ((q ++ (List.range N).map x).drop N) hne n = x (N + n).toNat := by
  have hl : ((q ++ (List.range N).map x).drop N).length = q.length := by simp
  have hm : (n % (((q ++ (List.range N).map x).drop N).length : ℤ)).toNat = (n + q.length).toNat := by
    rw [hl, ← Int.add_emod_right, Int.emod_eq_of_lt (by omega) (by omega)]
  unfold wrapAt
  rw [List.getElem_drop, List.getElem_append_right (by omega), List.getElem_map, List.getElem_range]
  congr 1
  omega

/-- C181: a line of `len` cells that has been fed `N ≥ len` samples of a signal, read at a fractional offset inside the
buffer, answers with the signal at that time: within the recording error, an eighth of the bend, the slope times the
displacement of C132 and rounding. -/
theorem C181_signal (h : Holds c mem d q) (hf : FloorContract floor) (hlen : q.length ≤ 2 ^ 20) (hmax : 2 ^ 21 ≤ c.isizeMax)
    {S D : ℝ → ℝ} {L M ε : ℝ} (hS : Smooth S D L M) {x : ℕ → F32} {N : ℕ} (hN : q.length ≤ N) (hx : RecordedFrom S ε x N)
    {off : F32} (hof : off.isFin = true) (h0 : -(q.length : ℚ) + (q.length + 2) / 2 ^ 24 < off.val)
    (h1 : off.val < -1 - (q.length + 2) / 2 ^ 24) :
    ∃ mem' d' r, writeAll c mem d ((List.range N).map x) = .ok (mem', d') ∧
      d'.readLerpWrappedAt c floor mem' off = .ok r ∧
      |((r.val : ℚ) : ℝ) - S (N + (off.val : ℚ))| ≤ ε + M / 8 + L * ((q.length + 2) / 2 ^ 24) + 1 / 10 ^ 6 := by
  obtain ⟨mem', d', hw, hh⟩ := writeAll_spec ((List.range N).map x) h
  rw [List.length_map, List.length_range] at hh
  have hl : ((q ++ (List.range N).map x).drop N).length = q.length := by simp
  have hδ : (0:ℚ) < (q.length + 2) / 2 ^ 24 := by positivity
  have hfin : ∀ y ∈ (q ++ (List.range N).map x).drop N, y.isFin = true := by
    intro y hy
    rw [List.drop_append, List.mem_append, List.drop_eq_nil_of_le hN] at hy
    rcases hy with hy | hy
    · simp at hy
    · obtain ⟨n, hn, rfl⟩ := List.mem_map.1 (List.mem_of_mem_drop hy)
      exact (hx n (List.mem_range.1 hn)).1
  obtain ⟨r, n, t, hr, t0, t1, he, hb⟩ := C132_actual hh hfin hf (by rw [hl]; exact hlen) hmax hof
    (by rw [hl]; linarith) (by linarith)
  rw [hl] at he
  refine ⟨mem', d', r, hw, hr, ?_⟩
  have he' := abs_le.1 he
  have n0 : -(q.length : ℤ) ≤ n := by
    have : -(q.length : ℚ) - 1 < n := by linarith
    have : -(q.length : ℤ) - 1 < n := by exact_mod_cast this
    omega
  have n1 : n ≤ -2 := by
    have : (n : ℚ) < -1 := by linarith
    have : n < -1 := by exact_mod_cast this
    omega
  rw [recorded_wrap hN _ n0 (by omega), recorded_wrap hN _ (by omega) (by omega)] at hb
  obtain ⟨-, ab, ae⟩ := hx (N + n).toNat (by omega)
  obtain ⟨-, bb, be⟩ := hx (N + (n + 1)).toNat (by omega)
  have hk : (((N + n).toNat : ℕ) : ℝ) = N + n := by
    have : (((N + n).toNat : ℕ) : ℤ) = N + n := Int.toNat_of_nonneg (by omega)
    exact_mod_cast this
  have hk1 : (((N + (n + 1)).toNat : ℕ) : ℝ) = N + n + 1 := by
    have : (((N + (n + 1)).toNat : ℕ) : ℤ) = N + n + 1 := by rw [Int.toNat_of_nonneg (by omega)]; ring
    exact_mod_cast this
  rw [hk] at ae
  rw [hk1] at be
  obtain ⟨-, hb⟩ := hb
  generalize (x (N + n).toNat).val = A at *
  generalize (x (N + (n + 1)).toNat).val = B at *
  have hL : 0 ≤ L := (abs_nonneg _).trans (hS.slope 0)
  have hb1 : |r.val - ((1 - t) * A + t * B)| ≤ 1 / 10 ^ 6 := by
    refine hb.trans ?_
    have := max_le ab bb
    have h3 : 3 / 2 ^ 24 * max |A| |B| ≤ 3 / 2 ^ 24 * 2 := by gcongr
    refine (add_le_add h3 le_rfl).trans (by norm_num)
  have hb2 : |(r.val : ℝ) - ((1 - t) * A + t * B)| ≤ 1 / 10 ^ 6 := by
    have := (Rat.cast_le (K := ℝ)).2 hb1
    push_cast at this; exact this
  have t0' : (0:ℝ) ≤ t := by exact_mod_cast t0
  have t1' : (t:ℝ) ≤ 1 := by exact_mod_cast t1
  have hs : |((1 - t) * A + t * B : ℝ) - ((1 - t) * S (N + n) + t * S (N + n + 1))| ≤ ε := by
    rw [abs_le] at ae be ⊢
    constructor <;> nlinarith [ae.1, ae.2, be.1, be.2]
  have hc := hS.chord (a := N + n) (w := 1) (t := t) (by norm_num) t0' t1'
  rw [show M * 1 ^ 2 / 8 = M / 8 by ring, mul_one] at hc
  have hpos : |(N + n + t : ℝ) - (N + (off.val : ℚ))| ≤ (q.length + 2) / 2 ^ 24 := by
    have := (Rat.cast_le (K := ℝ)).2 he
    push_cast at this
    rwa [show (N + n + t : ℝ) - (N + (off.val : ℚ)) = n + t - (off.val : ℚ) by ring]
  have hl : |S (N + n + t) - S (N + (off.val : ℚ))| ≤ L * ((q.length + 2) / 2 ^ 24) :=
    (hS.lipschitz _ _).trans (mul_le_mul_of_nonneg_left hpos hL)
  rw [abs_le] at hb2 hs hc hl ⊢
  constructor <;> linarith [hb2.1, hb2.2, hs.1, hs.2, hc.1, hc.2, hl.1, hl.2]

theorem smooth_tone (w : ℝ) : Smooth (fun t => Real.sin (w * t)) (fun t => w * Real.cos (w * t)) |w| (w ^ 2) where
  deriv x := by
    have h1 := ((hasDerivAt_id x).const_mul w).sin
    exact h1.congr_deriv (by simp; ring)
  slope x := by
    rw [abs_mul]
    exact mul_le_of_le_one_right (abs_nonneg _) (Real.abs_cos_le_one _)
  bend x y := by
    rw [← mul_sub, abs_mul]
    have := Real.abs_cos_sub_cos_le (w * x) (w * y)
    rw [← mul_sub, abs_mul w] at this
    calc |w| * |Real.cos (w * x) - Real.cos (w * y)| ≤ |w| * (|w| * |x - y|) := by gcongr
      _ = _ := by rw [← sq_abs w]; ring

/-- C181, a moving tap: when the offset grows by `v` samples per sample (`off ≈ v * N - a` at every time `N`), a tone of
`w` radians per sample comes out `1 + v` times as high. -/
theorem C181_doppler (h : Holds c mem d q) (hf : FloorContract floor) (hlen : q.length ≤ 2 ^ 20) (hmax : 2 ^ 21 ≤ c.isizeMax)
    {w v a ε η : ℝ} {x : ℕ → F32} {N : ℕ} (hN : q.length ≤ N) (hx : RecordedFrom (fun t => Real.sin (w * t)) ε x N)
    {off : F32} (hof : off.isFin = true) (h0 : -(q.length : ℚ) + (q.length + 2) / 2 ^ 24 < off.val)
    (h1 : off.val < -1 - (q.length + 2) / 2 ^ 24) (hv : |((off.val : ℚ) : ℝ) - (v * N - a)| ≤ η) :
    ∃ mem' d' r, writeAll c mem d ((List.range N).map x) = .ok (mem', d') ∧
      d'.readLerpWrappedAt c floor mem' off = .ok r ∧
      |((r.val : ℚ) : ℝ) - Real.sin (w * (1 + v) * N - w * a)| ≤
        ε + w ^ 2 / 8 + |w| * ((q.length + 2) / 2 ^ 24 + η) + 1 / 10 ^ 6 := by
  obtain ⟨mem', d', r, hw, hr, he⟩ := C181_signal h hf hlen hmax (smooth_tone w) hN hx hof h0 h1
  refine ⟨mem', d', r, hw, hr, ?_⟩
  have hl := (smooth_tone w).lipschitz (N + (off.val : ℚ)) ((1 + v) * N - a)
  have e : (N + (off.val : ℚ) : ℝ) - ((1 + v) * N - a) = (off.val : ℚ) - (v * N - a) := by ring
  rw [e] at hl
  have hl := hl.trans (mul_le_mul_of_nonneg_left hv (abs_nonneg w))
  simp only [show w * ((1 + v) * N - a) = w * (1 + v) * N - w * a by ring] at hl
  rw [abs_le] at he hl ⊢
  constructor <;> nlinarith [he.1, he.2, hl.1, hl.2]

/-- Eight samples of a quarter-rate sine through a line of four cells. -/
example : RecordedFrom (fun t => Real.sin (Real.pi / 2 * t)) 0
      (fun n => if n % 2 = 0 then lit 0 else if n % 4 = 1 then lit 1 else lit (-1)) 8 ∧
    -(4 : ℚ) + (4 + 2) / 2 ^ 24 < (lit (-5/2) : F32).val ∧ (lit (-5/2) : F32).val < -1 - (4 + 2) / 2 ^ 24 := by
  refine ⟨fun n hn => ?_, by decide +kernel, by decide +kernel⟩
  have e1 : Real.pi / 2 * 2 = Real.pi := by ring
  have e2 : Real.pi / 2 * 3 = Real.pi / 2 + Real.pi := by ring
  have e3 : Real.pi / 2 * 4 = 2 * Real.pi := by ring
  have e4 : Real.pi / 2 * 5 = Real.pi / 2 + 2 * Real.pi := by ring
  have e5 : Real.pi / 2 * 6 = Real.pi + 2 * Real.pi := by ring
  have e6 : Real.pi / 2 * 7 = Real.pi / 2 + Real.pi + 2 * Real.pi := by ring
  interval_cases n <;>
    simp [lit0_val, lit1_val, litm1_val, lit0_fin, lit1_fin, litm1_fin, e1, e2, e3, e4, e5, e6, Real.sin_add]

end Verif
