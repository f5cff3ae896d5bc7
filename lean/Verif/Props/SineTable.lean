import Verif.Props.LookupSin

/-! # C161: which sine tables compile -/

namespace Verif
open FixedPoint

/-- The `i16` with the same low 16 bits. -/
theorem asI16_range (a : Int) : -32768 ≤ asI16 a ∧ asI16 a ≤ 32767 := by unfold asI16; omega

theorem tableEntry_eq (step i : Nat) :
    tableEntry step i = if i * step < 2 ^ 31 then .ok (fixedSinSpec (asI16 ((i : Int) * step - 32767)) 4) else .error .panic := by
  unfold tableEntry
  by_cases h : i * step < 2 ^ 31
  · have h' : (i : Int) * step < 2 ^ 31 := by exact_mod_cast h
    have h0 : (0 : Int) ≤ (i : Int) * step := by positivity
    have c1 : i32 true ((i : Int) * step) = .ok ((i : Int) * step) := i32_ok (by rw [abs_le]; constructor <;> norm_num <;> linarith)
    have c2 : i32 true ((i : Int) * step - 32767) = .ok ((i : Int) * step - 32767) :=
      i32_ok (by rw [abs_le]; constructor <;> norm_num <;> linarith)
    obtain ⟨r1, r2⟩ := asI16_range ((i : Int) * step - 32767)
    have c3 := (sinUnchecked_ok (checks := true) r1 r2 (d := 4) le_rfl).1
    rw [if_pos h, c1]
    show (i32 true ((i : Int) * step - 32767) >>= fun p => sinI16Unchecked true (asI16 p) 4) = _
    rw [c2]; exact c3
  · rw [if_neg h]
    have h' : ¬ (i : Int) * step ≤ 2 ^ 31 - 1 := by
      have : (2 ^ 31 : Int) ≤ (i : Int) * step := by exact_mod_cast not_lt.1 h
      omega
    have : i32 true ((i : Int) * step) = .error .panic := by
      unfold i32; rw [if_neg (fun hh => h' hh.2)]; rfl
    rw [this]; rfl

theorem mapM_ok_all {α β : Type} {f : α → M β} {g : α → β} : ∀ {l : List α}, (∀ x ∈ l, f x = .ok (g x)) → l.mapM f = .ok (l.map g)
  | [], _ => rfl
  | a :: l, h => by
    rw [List.mapM_cons, h a (by simp), mapM_ok_all fun x hx => h x (by simp [hx])]; rfl

theorem mapM_panics {α β : Type} {f : α → M β} : ∀ {l : List α}, (∀ x ∈ l, (∃ y, f x = .ok y) ∨ f x = .error .panic) →
    (∃ x ∈ l, f x = .error .panic) → l.mapM f = .error .panic
  | [], _, ⟨_, h, _⟩ => by cases h
  | a :: l, h, ⟨x, hx, e⟩ => by
    rw [List.mapM_cons]
    rcases h a (by simp) with ⟨y, hy⟩ | hy
    · rw [hy]
      have hx' : x ∈ l := by
        rcases List.mem_cons.1 hx with rfl | hx
        · rw [hy] at e; cases e
        · exact hx
      have := mapM_panics (fun z hz => h z (by simp [hz])) ⟨x, hx', e⟩
      show (l.mapM f >>= _) = _
      rw [this]; rfl
    · rw [hy]; rfl

/-- C161: a table (of up to `2^31` entries, see `tableEntry`) compiles when its size modulo 65536 is not zero and its last
phase fits in an `i32`. Its entries then are sines of the phases wrapped into `i16`. -/
theorem C161_compiles {n : Nat} (h0 : n % 65536 ≠ 0) (h : (n - 1) * (65535 / (n % 2 ^ 16)) < 2 ^ 31) :
    sineTable n = .ok ((List.range n).map fun i : Nat =>
      fixedSinSpec (asI16 ((i : Int) * (65535 / (n % 2 ^ 16) : Nat) - 32767)) 4) := by
  unfold sineTable minStep
  rw [if_neg (by exact h0)]
  refine mapM_ok_all fun i hi => ?_
  rw [List.mem_range] at hi
  rw [tableEntry_eq, if_pos (lt_of_le_of_lt (Nat.mul_le_mul_right _ (by omega)) h)]

/-- C161: otherwise it does not. -/
theorem C161_fails {n : Nat} (h : n % 65536 = 0 ∨ 2 ^ 31 ≤ (n - 1) * (65535 / (n % 2 ^ 16))) : sineTable n = .error .panic := by
  by_cases h0 : n % 65536 = 0
  · exact C64_zero_step n h0
  · replace h := h.resolve_left h0
    unfold sineTable minStep
    rw [if_neg (by exact h0)]
    have hn : 0 < n := Nat.pos_of_ne_zero fun e => h0 (by rw [e])
    refine mapM_panics (fun i _ => ?_) ⟨n - 1, List.mem_range.2 (by omega), ?_⟩
    · rw [tableEntry_eq]; split
      · exact .inl ⟨_, rfl⟩
      · exact .inr rfl
    · rw [tableEntry_eq, if_neg (not_lt.2 h)]

-- 65537 entries are too many, 65538 are not
example : sineTable 65537 = .error .panic ∧ ∃ t, sineTable 65538 = .ok t ∧ t.length = 65538 :=
  ⟨C161_fails (.inr (by norm_num)), _, C161_compiles (by norm_num) (by norm_num), by simp⟩

end Verif
