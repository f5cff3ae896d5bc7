import Verif.Props.Delay
import Verif.Props.Si

/-! # C132: fractional delays

`read_lerp_wrapped_at` adds the offset to the cursor in `f32`, so the position read depends on where the cursor stands. -/

namespace Verif
open F32 Interpolation

variable {c : Cfg} {mem : Mem F32} {d : DelayLine} {q : List F32} {floor : F32 → F32}

/-- C132: a read at the offset `off` is the blend of the two samples around it, wherever the cursor stands. -/
def C132_full : Prop :=
  ∀ (c : Cfg) (mem : Mem F32) (d : DelayLine) (q : List F32) (floor : F32 → F32) (off : F32) (h : Holds c mem d q),
    (∀ y ∈ q, y.isFin = true) → FloorContract floor → q.length ≤ 2 ^ 20 → 2 ^ 21 ≤ c.isizeMax →
    off.isFin = true → -(q.length : ℚ) ≤ off.val → off.val ≤ 0 →
    ∃ r, d.readLerpWrappedAt c floor mem off = .ok r ∧
      IsBlend (wrapAt q h.ne_nil ⌊off.val⌋) (wrapAt q h.ne_nil (⌊off.val⌋ + 1)) (Int.fract off.val) r

/-- The read in terms of the position the float sum lands on. -/
theorem fractional_read (h : Holds c mem d q) (hfin : ∀ y ∈ q, y.isFin = true) (hf : FloorContract floor) {off : F32}
    (hm : Moderate (c.u2f d.index + off)) (hi : c.IsIsize ⌊(c.u2f d.index + off).val⌋)
    (hi1 : c.IsIsize (⌊(c.u2f d.index + off).val⌋ + 1)) :
    ∃ r, d.readLerpWrappedAt c floor mem off = .ok r ∧
      IsBlend (wrapAt q h.ne_nil (⌊(c.u2f d.index + off).val⌋ - d.index))
        (wrapAt q h.ne_nil (⌊(c.u2f d.index + off).val⌋ - d.index + 1))
        (F32.ofRat (Int.fract (c.u2f d.index + off).val)).val r := by
  have hne := h.ne_nil
  obtain ⟨xs, hv, hix, rfl⟩ := h
  have hx : xs ≠ [] := by rintro rfl; simp at hix
  obtain ⟨r, e, hb⟩ := C10_lerp_wrapped hv hx hf hm hi hi1
  refine ⟨r, e, ?_⟩
  have hmem : ∀ i, (wrapAt xs hx i).isFin = true := fun i => hfin _ (by
    have : wrapAt xs hx i ∈ xs.take d.index ++ xs.drop d.index := by
      rw [List.take_append_drop]; exact List.getElem_mem _
    rw [List.mem_append] at this ⊢; exact this.symm)
  have key := hb (hmem _) (hmem _)
  rw [show ⌊(c.u2f d.index + off).val⌋ = (d.index : Int) + (⌊(c.u2f d.index + off).val⌋ - d.index) by ring, add_assoc,
    ← wrapAt_rotate hix hx hne, ← wrapAt_rotate hix hx hne] at key
  exact key

theorem fractional_moderate (h : Holds c mem d q) (hlen : q.length ≤ 2 ^ 20) (hmax : 2 ^ 21 ≤ c.isizeMax) {off : F32}
    (hof : off.isFin = true) (h0 : -(q.length : ℚ) ≤ off.val) (h1 : off.val ≤ 0) :
    Moderate (c.u2f d.index + off) ∧ c.IsIsize ⌊(c.u2f d.index + off).val⌋ ∧
    c.IsIsize (⌊(c.u2f d.index + off).val⌋ + 1) ∧
    |(c.u2f d.index + off).val - (d.index + off.val)| ≤ 1 / 2 ^ 150 + (q.length : ℚ) / 2 ^ 24 := by
  have hidx := h.idx_lt
  have hiq : (d.index : ℚ) ≤ q.length := by exact_mod_cast hidx.le
  have hi0 : (0 : ℚ) ≤ d.index := by positivity
  have hlq : (q.length : ℚ) ≤ 1048576 := by exact_mod_cast hlen
  have hu := c.u2f_val (n := d.index) (by omega)
  obtain ⟨f, e⟩ := add_near (c.u2f_fin (n := d.index) (by omega)) hof (B := q.length)
    (by rw [hu, abs_le]; constructor <;> linarith) (by norm_num; linarith)
  rw [hu] at e
  have e' := abs_le.1 e
  have hlo : -(2 ^ 21 : ℚ) ≤ (c.u2f d.index + off).val := by norm_num at e' ⊢; linarith
  have hhi : (c.u2f d.index + off).val ≤ 2 ^ 21 - 1 := by norm_num at e' ⊢; linarith
  have g1 : -2 ^ 21 ≤ ⌊(c.u2f d.index + off).val⌋ := Int.le_floor.2 (by push_cast; exact hlo)
  have g2 : ⌊(c.u2f d.index + off).val⌋ ≤ 2 ^ 21 - 1 :=
    Int.cast_le (R := ℚ).1 ((Int.floor_le _).trans (hhi.trans (by norm_num)))
  have hmin : c.isizeMin ≤ -2 ^ 21 := by unfold Cfg.isizeMin; unfold Cfg.isizeMax at hmax; omega
  refine ⟨⟨f, ?_⟩, ⟨by omega, by omega⟩, ⟨by omega, by omega⟩, e⟩
  rw [abs_le]; constructor <;> norm_num at hlo hhi ⊢ <;> linarith

/-- What holds in general: the read is the blend at a position that is off by at most `(L + 2)/2^24` samples (a 48000 sample
buffer: 1/350 of a sample). -/
theorem C132_actual (h : Holds c mem d q) (hfin : ∀ y ∈ q, y.isFin = true) (hf : FloorContract floor)
    (hlen : q.length ≤ 2 ^ 20) (hmax : 2 ^ 21 ≤ c.isizeMax) {off : F32} (hof : off.isFin = true)
    (h0 : -(q.length : ℚ) ≤ off.val) (h1 : off.val ≤ 0) :
    ∃ (r : F32) (n : ℤ) (t : ℚ), d.readLerpWrappedAt c floor mem off = .ok r ∧ 0 ≤ t ∧ t ≤ 1 ∧
      |n + t - off.val| ≤ (q.length + 2) / 2 ^ 24 ∧ IsBlend (wrapAt q h.ne_nil n) (wrapAt q h.ne_nil (n + 1)) t r := by
  obtain ⟨hm, hi, hi1, he⟩ := fractional_moderate h hlen hmax hof h0 h1
  obtain ⟨r, e, hb⟩ := fractional_read h hfin hf hm hi hi1
  generalize (c.u2f d.index + off).val = x at *
  have f0 := Int.fract_nonneg x
  have f1 := Int.fract_lt_one x
  have t1 : (ofRat (Int.fract x)).val ≤ 1 := by
    rw [← lit1_val]; exact rnd_le (lit_not_nan _) (by rw [lit1_val]; exact f1.le)
  have te : |(ofRat (Int.fract x)).val - Int.fract x| ≤ 1 / 2 ^ 150 + 1 / 2 ^ 24 :=
    (rnd_near (s := false) (q := Int.fract x) (B := 1) (by rw [abs_of_nonneg f0]; exact f1.le) (by norm_num)).2
  have t0 : 0 ≤ (ofRat (Int.fract x)).val := rnd_val_nonneg f0
  refine ⟨r, _, (ofRat (Int.fract x)).val, e, t0, t1, ?_, hb⟩
  generalize (ofRat (Int.fract x)).val = t at *
  have he := abs_le.1 he
  have te := abs_le.1 te
  have fx : Int.fract x = x - ⌊x⌋ := rfl
  rw [fx] at te
  push_cast
  rw [abs_le]
  constructor <;> norm_num at he te ⊢ <;> linarith

/-- Missing: offsets with more fractional bits than the position has room for. With `k` of them, and `L * 2^k ≤ 2^24`, the
read is the blend asked for, wherever the cursor stands. -/
theorem C132_partial (h : Holds c mem d q) (hfin : ∀ y ∈ q, y.isFin = true) (hf : FloorContract floor)
    (hlen : q.length ≤ 2 ^ 20) (hmax : 2 ^ 21 ≤ c.isizeMax) {off : F32} (hof : off.isFin = true)
    (h0 : -(q.length : ℚ) ≤ off.val) (h1 : off.val ≤ 0) {k : ℕ} {z : ℤ} (hz : off.val = z / 2 ^ k)
    (hk : q.length * 2 ^ k ≤ 2 ^ 24) :
    ∃ r, d.readLerpWrappedAt c floor mem off = .ok r ∧
      IsBlend (wrapAt q h.ne_nil ⌊off.val⌋) (wrapAt q h.ne_nil (⌊off.val⌋ + 1)) (Int.fract off.val) r := by
  obtain ⟨hm, hi, hi1, -⟩ := fractional_moderate h hlen hmax hof h0 h1
  obtain ⟨r, e, hb⟩ := fractional_read h hfin hf hm hi hi1
  refine ⟨r, e, ?_⟩
  have hidx := h.idx_lt
  have hiq : (d.index : ℚ) ≤ q.length := by exact_mod_cast hidx.le
  have hi0 : (0 : ℚ) ≤ d.index := by positivity
  have hlq : (q.length : ℚ) ≤ 1048576 := by exact_mod_cast hlen
  have hkq : (q.length : ℚ) * 2 ^ k ≤ 2 ^ 24 := by exact_mod_cast hk
  have p2 : (0 : ℚ) < 2 ^ k := by positivity
  have k24 : 2 ^ k ≤ 2 ^ 24 := le_trans (Nat.le_mul_of_pos_left _ (by omega)) hk
  have k24' : k ≤ 24 := (Nat.pow_le_pow_iff_right (by norm_num)).1 k24
  have grid : ∀ m : ℤ, |m| ≤ 2 ^ 24 → Rep ((m : ℚ) / 2 ^ k) := by
    intro m hm
    have hq : |((m : ℚ) / 2 ^ k)| ≤ 2 ^ 24 := by
      rw [abs_div, abs_of_pos p2]
      have : |(m : ℚ)| ≤ 2 ^ 24 := by exact_mod_cast hm
      exact (div_le_self (abs_nonneg _) (one_le_pow₀ (by norm_num))).trans this
    refine rep_of_zpow (m := m) (e := -k) hm (by omega) ?_ (lt_of_le_of_lt hq (by norm_num))
    rw [zpow_neg, zpow_natCast]; rfl
  have hu := c.u2f_val (n := d.index) (by omega)
  have hs : (d.index : ℚ) + off.val = ((d.index * 2 ^ k + z : ℤ) : ℚ) / 2 ^ k := by
    rw [hz]; push_cast; field_simp
  have hsum : (c.u2f d.index + off).val = d.index + off.val := by
    refine ((add_exact (c.u2f_fin (n := d.index) (by omega)) hof ?_).2).trans (by rw [hu])
    rw [hu, hs]
    apply grid
    have : |((d.index * 2 ^ k + z : ℤ) : ℚ)| ≤ 2 ^ 24 := by
      have e2 : ((d.index * 2 ^ k + z : ℤ) : ℚ) = (d.index + off.val) * 2 ^ k := by
        rw [hs]; field_simp
      rw [e2, abs_mul, abs_of_pos p2]
      refine le_trans (mul_le_mul_of_nonneg_right ?_ p2.le) hkq
      rw [abs_le]; constructor <;> linarith
    exact_mod_cast this
  have hfr : (ofRat (Int.fract off.val)).val = Int.fract off.val := by
    have e3 : Int.fract off.val = ((z - ⌊off.val⌋ * 2 ^ k : ℤ) : ℚ) / 2 ^ k := by
      rw [show Int.fract off.val = off.val - ⌊off.val⌋ from rfl]
      nth_rewrite 1 [hz]
      push_cast; field_simp
    have hm : |z - ⌊off.val⌋ * 2 ^ k| ≤ 2 ^ 24 := by
      have e4 : ((z - ⌊off.val⌋ * 2 ^ k : ℤ) : ℚ) = Int.fract off.val * 2 ^ k := by rw [e3]; field_simp
      have : |((z - ⌊off.val⌋ * 2 ^ k : ℤ) : ℚ)| ≤ 2 ^ 24 := by
        rw [e4, abs_mul, abs_of_pos p2, abs_of_nonneg (Int.fract_nonneg _)]
        have b : (2 : ℚ) ^ k ≤ 2 ^ 24 := by exact_mod_cast k24
        exact (mul_le_of_le_one_left p2.le (Int.fract_lt_one _).le).trans b
      exact_mod_cast this
    have := (grid _ hm).rnd_val false
    rw [← e3] at this
    exact this
  rw [hsum, Int.floor_natCast_add, Int.fract_natCast_add, hfr] at hb
  rwa [show (d.index : ℤ) + ⌊off.val⌋ - d.index = ⌊off.val⌋ by ring] at hb

/-! The counterexample: 32 samples, 0 except for a 1 in cell 20, where the cursor stands. -/

def fracSamples : List F32 := List.replicate 20 (lit 0) ++ [lit 1] ++ List.replicate 11 (lit 0)
def fracMem : Mem F32 := fun b => if b = 0 then some fracSamples else none
def fracSlice : MemorySlice := ⟨⟨some 0, 0⟩, 32⟩

theorem frac_views : Views Cfg.debug64 fracMem fracSlice fracSamples :=
  ⟨0, [], [], rfl, by decide +kernel, by simp [fracMem], by decide +kernel⟩

theorem frac_holds : Holds Cfg.debug64 fracMem ⟨fracSlice, 20⟩ (fracSamples.drop 20 ++ fracSamples.take 20) :=
  ⟨fracSamples, frac_views, by decide +kernel, rfl⟩

/-- Reading a third of a sample back from cursor 20 the weights are off by 10.5/2^24. -/
theorem C132_refuted : ¬ C132_full := by
  intro h
  obtain ⟨r, hr, hb⟩ := h _ _ _ _ mmFloor (lit (-1/3)) frac_holds (by decide +kernel) mmFloor_contract (by decide +kernel)
    (by decide +kernel) (by decide +kernel) (by decide +kernel) (by decide +kernel)
  have e : (⟨fracSlice, 20⟩ : DelayLine).readLerpWrappedAt Cfg.debug64 mmFloor fracMem (lit (-1/3)) = .ok (lit (349525/524288)) := by
    decide +kernel
  rw [e] at hr
  obtain rfl := Except.ok.inj hr
  revert hb
  have e1 : wrapAt (fracSamples.drop 20 ++ fracSamples.take 20) (by decide +kernel) ⌊(lit (-1/3) : F32).val⌋ = lit 0 := by
    decide +kernel
  have e2 : wrapAt (fracSamples.drop 20 ++ fracSamples.take 20) (by decide +kernel) (⌊(lit (-1/3) : F32).val⌋ + 1) = lit 1 := by
    decide +kernel
  rw [e1, e2]
  unfold IsBlend
  decide +kernel

/-- A quarter of a sample back: two fractional bits, 32 samples, the weights are right. -/
example : (lit (-1/4) : F32).val = ((-1 : ℤ) : ℚ) / 2 ^ 2 ∧ 32 * 2 ^ 2 ≤ 2 ^ 24 ∧
    (⟨fracSlice, 20⟩ : DelayLine).readLerpWrappedAt Cfg.debug64 mmFloor fracMem (lit (-1/4)) = .ok (lit (3/4)) := by
  decide +kernel

end Verif
