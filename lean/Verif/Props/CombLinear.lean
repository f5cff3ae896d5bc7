import Verif.Props.Modulation
import Verif.Spec.Filter

/-! # C127: comb and all-pass are linear and time invariant (exact arithmetic) -/

namespace Verif

section
variable {K : Type} [Field K]

/-- C127, comb: superposition, contents included, with the settings moving at every tick. A comb holding `s*q₁ + t*q₂` and fed
with `s*x + t*u` outputs `s` times what a comb holding `q₁` outputs for `x` plus `t` times what a comb holding `q₂` outputs for
`u`. -/
theorem C127_comb_linear {c : Cfg} {mem mem₁ mem₂ : Mem K} {k k₁ k₂ : Comb K} {q q₁ q₂ : List K} (h : Holds c mem k.delayLine q)
    (h₁ : Holds c mem₁ k₁.delayLine q₁) (h₂ : Holds c mem₂ k₂.delayLine q₂) {s t : K} (hl : q₁.length = q₂.length)
    (hq : q = List.zipWith (fun a b => s * a + t * b) q₁ q₂) (hf : k.filterState = s * k₁.filterState + t * k₂.filterState)
    (fb damp x u : ℕ → K) (n : ℕ) :
    ∃ y₁ y₂, Comb.outUnder c mem₁ k₁ fb damp x n = .ok y₁ ∧ Comb.outUnder c mem₂ k₂ fb damp u n = .ok y₂ ∧
      Comb.outUnder c mem k fb damp (fun n => s * x n + t * u n) n = .ok (s * y₁ + t * y₂) := by
  obtain ⟨w, f, hw0, hf0, hf', hw, hout⟩ := C99_modulated h fb damp (fun n => s * x n + t * u n)
  obtain ⟨w₁, f₁, hw01, hf01, hf1, hw1, hout1⟩ := C99_modulated h₁ fb damp x
  obtain ⟨w₂, f₂, hw02, hf02, hf2, hw2, hout2⟩ := C99_modulated h₂ fb damp u
  have hlen : q.length = q₁.length := by rw [hq]; simp [hl]
  have hpos : 0 < q.length := List.length_pos_iff.2 h.ne_nil
  have key : ∀ n, f n = s * f₁ n + t * f₂ n ∧ ∀ m < n + q.length, w m = s * w₁ m + t * w₂ m := by
    intro n
    induction n with
    | zero =>
      refine ⟨by rw [hf0, hf01, hf02, hf], fun m hm => ?_⟩
      rw [hw0 m (by omega), hw01 m (by omega), hw02 m (by omega)]
      simp [hq]
    | succ n ih =>
      have hfn : f (n + 1) = s * f₁ (n + 1) + t * f₂ (n + 1) := by
        rw [hf', hf1, hf2, ih.1, ih.2 n (by omega)]; ring
      refine ⟨hfn, fun m hm => ?_⟩
      by_cases hm2 : m < n + q.length
      · exact ih.2 m hm2
      · obtain rfl : m = n + q.length := by omega
        rw [hw, hfn]
        have e1 := hw1 n
        have e2 := hw2 n
        rw [← hlen] at e1
        rw [← hl, ← hlen] at e2
        rw [e1, e2]; ring
  exact ⟨_, _, hout1 n, hout2 n, by rw [hout n, (key n).2 n (by omega)]⟩

/-- C127, all-pass: superposition, contents included. -/
theorem C127_all_pass_linear {c : Cfg} {mem mem₁ mem₂ : Mem K} {k k₁ k₂ : AllPass} {q q₁ q₂ : List K}
    (h : Holds c mem k.delayLine q) (h₁ : Holds c mem₁ k₁.delayLine q₁) (h₂ : Holds c mem₂ k₂.delayLine q₂) {s t : K}
    (hl : q₁.length = q₂.length) (hq : q = List.zipWith (fun a b => s * a + t * b) q₁ q₂) (x u : ℕ → K) (n : ℕ) :
    ∃ y₁ y₂, AllPass.outAt c mem₁ k₁ x n = .ok y₁ ∧ AllPass.outAt c mem₂ k₂ u n = .ok y₂ ∧
      AllPass.outAt c mem k (fun n => s * x n + t * u n) n = .ok (s * y₁ + t * y₂) := by
  obtain ⟨w, hw0, hw, hout⟩ := C24_all_pass h (fun n => s * x n + t * u n)
  obtain ⟨w₁, hw01, hw1, hout1⟩ := C24_all_pass h₁ x
  obtain ⟨w₂, hw02, hw2, hout2⟩ := C24_all_pass h₂ u
  have hlen : q.length = q₁.length := by rw [hq]; simp [hl]
  have hpos : 0 < q.length := List.length_pos_iff.2 h.ne_nil
  have key : ∀ n, w n = s * w₁ n + t * w₂ n := by
    refine stride_induction hpos (fun n hn => ?_) (fun n ih => ?_)
    · rw [hw0 n hn, hw01 n (by omega), hw02 n (by omega)]
      simp [hq]
    · have e1 := hw1 n
      have e2 := hw2 n
      rw [← hlen] at e1
      rw [← hl, ← hlen] at e2
      rw [hw, e1, e2, ih]; ring
  exact ⟨_, _, hout1 n, hout2 n, by rw [hout n, key n]; ring_nf⟩

/-- C127, comb: a fresh comb with fixed settings, fed with the signal `d` samples later, outputs the same `d` samples later. -/
theorem C127_comb_time_invariant {c : Cfg} {mem : Mem K} {s : MemorySlice} {L : ℕ} (hL : 0 < L)
    (h : Views c mem s (List.replicate L 0)) (damp fb : K) (x : ℕ → K) (d n : ℕ) :
    ∃ y : ℕ → K, (∀ n, Comb.outAt c mem (((Comb.new s).setDampening damp).setFeedback fb) x n = .ok (y n)) ∧
      Comb.outAt c mem (((Comb.new s).setDampening damp).setFeedback fb) (delayed x d) n = .ok (delayed y d n) := by
  have hne : List.replicate L (0 : K) ≠ [] := by
    intro h0; have := congrArg List.length h0; simp at this; omega
  obtain ⟨w, f, hw0, hf0, hf, hw, hout⟩ := C20_comb (k := ((Comb.new s).setDampening damp).setFeedback fb)
    (holds_new h hne) x
  obtain ⟨v, g, hv0, hg0, hg, hv, hout'⟩ := C20_comb (k := ((Comb.new s).setDampening damp).setFeedback fb)
    (holds_new h hne) (delayed x d)
  simp only [Comb.new, Comb.setDampening, Comb.setFeedback, List.length_replicate, lit_exact, Rat.cast_zero,
    Rat.cast_one, List.getElem_replicate] at hf0 hf hw hw0 hg0 hg hv hv0
  refine ⟨w, hout, ?_⟩
  rw [hout' n]
  congr 1
  have del : ∀ (y : ℕ → K) (m : ℕ), delayed y d m = if d ≤ m then y (m - d) else 0 := fun y m => rfl
  have key : ∀ n, (g n = if d ≤ n then f (n - d) else 0) ∧ ∀ m < n + L, v m = delayed w d m := by
    intro n
    induction n with
    | zero =>
      refine ⟨?_, fun m hm => ?_⟩
      · rw [hg0]; split_ifs <;> simp [hf0]
      · rw [hv0 m (by omega), del]
        split_ifs
        · rw [hw0 _ (by omega)]
        · rfl
    | succ n ih =>
      have hgn : g (n + 1) = if d ≤ n + 1 then f (n + 1 - d) else 0 := by
        rw [hg, ih.1, ih.2 n (by omega), del]
        by_cases h1 : d ≤ n
        · rw [if_pos h1, if_pos h1, if_pos (by omega), show n + 1 - d = n - d + 1 by omega, hf]
        · rw [if_neg h1, if_neg h1]
          by_cases h2 : d ≤ n + 1
          · rw [if_pos h2, show n + 1 - d = 0 by omega, hf0]; ring
          · rw [if_neg h2]; ring
      refine ⟨hgn, fun m hm => ?_⟩
      by_cases hm2 : m < n + L
      · exact ih.2 m hm2
      · obtain rfl : m = n + L := by omega
        rw [hv, hgn, del, del]
        by_cases h1 : d ≤ n
        · rw [if_pos h1, if_pos (by omega), if_pos (by omega), show n + L - d = n - d + L by omega, hw,
            show n + 1 - d = n - d + 1 by omega]
        · rw [if_neg h1]
          by_cases h2 : d ≤ n + 1
          · rw [if_pos h2, if_pos (by omega), show n + 1 - d = 0 by omega, hf0, hw0 _ (by omega)]; ring
          · rw [if_neg h2]
            split_ifs
            · rw [hw0 _ (by omega)]; ring
            · ring
  exact (key n).2 n (by omega)

/-- C127, all-pass: the same. -/
theorem C127_all_pass_time_invariant {c : Cfg} {mem : Mem K} {s : MemorySlice} {L : ℕ} (hL : 0 < L)
    (h : Views c mem s (List.replicate L 0)) (x : ℕ → K) (d n : ℕ) :
    ∃ y : ℕ → K, (∀ n, AllPass.outAt c mem (AllPass.new s) x n = .ok (y n)) ∧
      AllPass.outAt c mem (AllPass.new s) (delayed x d) n = .ok (delayed y d n) := by
  have hne : List.replicate L (0 : K) ≠ [] := by
    intro h0; have := congrArg List.length h0; simp at this; omega
  obtain ⟨w, hw0, hw, hout⟩ := C24_all_pass (k := AllPass.new s) (holds_new h hne) x
  obtain ⟨v, hv0, hv, hout'⟩ := C24_all_pass (k := AllPass.new s) (holds_new h hne) (delayed x d)
  simp only [List.length_replicate, List.getElem_replicate] at hw hw0 hv hv0
  have del : ∀ (y : ℕ → K) (m : ℕ), delayed y d m = if d ≤ m then y (m - d) else 0 := fun y m => rfl
  have key : ∀ n, v n = delayed w d n := by
    refine stride_induction hL (fun n hn => ?_) (fun n ih => ?_)
    · rw [hv0 n hn, del]
      split_ifs
      · rw [hw0 _ (by omega)]
      · rfl
    · rw [hv, ih, del, del, del]
      by_cases h1 : d ≤ n
      · rw [if_pos h1, if_pos h1, if_pos (by omega), show n + L - d = n - d + L by omega, hw]
      · rw [if_neg h1, if_neg h1]
        split_ifs
        · rw [hw0 _ (by omega)]; ring
        · ring
  refine ⟨_, hout, ?_⟩
  rw [hout' n, key n, del, del, del]
  split_ifs <;> simp
end

-- two combs of two samples over ℚ, one holding (1, 2), one silent, and their sum
example : ∃ (mem : Mem ℚ) (k : Comb ℚ), Holds Cfg.release32 mem k.delayLine [3, 6] ∧
    ([3, 6] : List ℚ) = List.zipWith (fun a b => 3 * a + 5 * b) [1, 2] [0, 0] ∧
    Comb.outAt Cfg.release32 mem k (fun n => if n = 0 then 1 else 0) 2 = .ok (7/4) := by
  refine ⟨fun b => if b = 0 then some [3, 6] else none, Comb.new (MemorySlice.fromSlice 0 0 2),
    holds_new ⟨0, [], [], rfl, rfl, rfl, by decide⟩ (by simp), by norm_num, by decide +kernel⟩

end Verif
