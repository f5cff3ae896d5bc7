import Verif.F32.Extra
import Verif.F32.More

/-! # Doubling commutes with rounding

Away from the subnormals and from overflow, `rnd (2 q) = 2 rnd q`. -/

namespace Verif
namespace F32

theorem magInt_times_two {n : Nat} (h : 2 ^ 23 ≤ n) : magInt (n + 2 ^ 23) = 2 * magInt n := by
  unfold magInt
  rw [if_neg (by omega), if_neg (by omega), Nat.add_mod_right, Nat.add_div_right _ (by norm_num)]
  obtain ⟨e, he⟩ : ∃ e, n / 2 ^ 23 = e + 1 := ⟨n / 2 ^ 23 - 1, by omega⟩
  rw [he]
  simp only [Nat.add_sub_cancel, pow_succ]
  ring

theorem gap_times_two {n : Nat} (h : 2 ^ 23 ≤ n) : gap (n + 2 ^ 23) = 2 * gap n := by
  unfold gap
  rw [Nat.add_div_right _ (by norm_num)]
  obtain ⟨e, he⟩ : ∃ e, n / 2 ^ 23 = e + 1 := ⟨n / 2 ^ 23 - 1, by omega⟩
  rw [he]
  simp only [Nat.add_sub_cancel, pow_succ]
  ring

theorem floorIdx_of_between {Q : ℚ} {n m : Nat} (h1 : (magInt n : ℚ) ≤ Q) (h2 : Q < magInt (n + 1)) (h3 : (magInt m : ℚ) ≤ Q)
    (h4 : Q < magInt (m + 1)) : n = m := by
  have a : magInt n < magInt (m + 1) := by exact_mod_cast h1.trans_lt h4
  have b : magInt m < magInt (n + 1) := by exact_mod_cast h3.trans_lt h2
  rw [magInt_lt] at a b
  omega

theorem roundIdx_times_two {Q : ℚ} (h : 2 ^ 23 ≤ Q) : roundIdx (2 * Q) = roundIdx Q + 2 ^ 23 := by
  have hQ : 0 ≤ Q := le_trans (by norm_num) h
  obtain ⟨n, a1, a2, a3⟩ := roundIdx_cases hQ
  obtain ⟨m, b1, b2, b3⟩ := roundIdx_cases (Q := 2 * Q) (by positivity)
  have hn : 2 ^ 23 ≤ n := by
    have : magInt (2 ^ 23) < magInt (n + 1) := by
      have e : magInt (2 ^ 23) = 2 ^ 23 := by decide
      rw [e]; exact_mod_cast h.trans_lt a2
    rw [magInt_lt] at this; omega
  have hm : n + 2 ^ 23 = m := by
    refine floorIdx_of_between (Q := 2 * Q) ?_ ?_ b1 b2
    · rw [magInt_times_two hn]; push_cast; linarith
    · rw [show n + 2 ^ 23 + 1 = (n + 1) + 2 ^ 23 by omega, magInt_times_two (by omega)]; push_cast; linarith
  subst hm
  rw [magInt_times_two hn, gap_times_two hn] at b3
  push_cast at b3
  rcases a3 with ⟨a, a', a''⟩ | ⟨a, a', a''⟩ <;> rcases b3 with ⟨b, b', b''⟩ | ⟨b, b', b''⟩
  · omega
  · have e : 2 * (Q - magInt n) = gap n := by linarith
    have := a'' e; have := b'' (by linarith); omega
  · have e : 2 * (Q - magInt n) = gap n := by linarith
    have := a'' e; have := b'' (by linarith); omega
  · omega

theorem rnd_times_two {s : Bool} {q : ℚ} (h : 1 / 2 ^ 126 ≤ |q|) (hf : (rnd s (2 * q)).isFin = true) :
    (rnd s q).isFin = true ∧ (rnd s (2 * q)).val = 2 * (rnd s q).val := by
  have hu : (2:ℚ) ^ 23 ≤ |q| * unit := by
    have : (2:ℚ) ^ 23 = 1 / 2 ^ 126 * unit := by unfold unit; norm_num
    rw [this]; exact mul_le_mul_of_nonneg_right h unit_pos.le
  have hd := roundIdx_times_two hu
  have e2 : |2 * q| * unit = 2 * (|q| * unit) := by rw [abs_mul, abs_of_pos (by norm_num : (0:ℚ) < 2)]; ring
  have m1 := rnd_mag s q
  have m2 := rnd_mag s (2 * q)
  rw [e2, hd] at m2
  rw [isFin_iff, m2] at hf
  have hlt : roundIdx (|q| * unit) + 2 ^ 23 < infMag := by
    rcases min_lt_iff.1 hf with h | h
    · exact h
    · exact absurd h (lt_irrefl _)
  rw [min_eq_left hlt.le] at m2
  rw [min_eq_left (by omega)] at m1
  have hq0 : q ≠ 0 := by rintro rfl; norm_num at h
  have hr : 2 ^ 23 ≤ roundIdx (|q| * unit) :=
    le_roundIdx_of_le (by positivity) (by
      have e : magInt (2 ^ 23) = 2 ^ 23 := by decide
      rw [e]; exact_mod_cast hu)
  have hneg : (rnd s (2 * q)).neg = (rnd s q).neg := by
    rcases lt_or_gt_of_ne hq0 with hl | hl
    · rw [rnd_neg_of_neg hl, rnd_neg_of_neg (by linarith)]
    · rw [rnd_neg_of_nonneg hl, rnd_neg_of_nonneg (by linarith)]
  refine ⟨isFin_iff.2 (by omega), ?_⟩
  rw [val_eq, val_eq, hneg, m1, m2]
  unfold magVal
  rw [magInt_times_two hr]
  push_cast
  split <;> ring

/-- Any power of two. -/
theorem rnd_scale {s : Bool} {q : ℚ} (k : Nat) (h : 1 / 2 ^ 126 ≤ |q|) (hf : (rnd s (2 ^ k * q)).isFin = true) :
    (rnd s q).isFin = true ∧ (rnd s (2 ^ k * q)).val = 2 ^ k * (rnd s q).val := by
  induction k with
  | zero => simpa using hf
  | succ k ih =>
    have e : (2:ℚ) ^ (k + 1) * q = 2 * (2 ^ k * q) := by ring
    rw [e] at hf ⊢
    have hk : 1 / 2 ^ 126 ≤ |2 ^ k * q| := by
      rw [abs_mul, abs_of_pos (by positivity)]
      exact h.trans (le_mul_of_one_le_left (abs_nonneg q) (one_le_pow₀ (by norm_num)))
    obtain ⟨f1, v1⟩ := rnd_times_two hk hf
    obtain ⟨f2, v2⟩ := ih f1
    exact ⟨f2, by rw [v1, v2]; ring⟩

end F32
end Verif
