import Verif.Model.NumRules
import Verif.Spec.NumRules
import Verif.Proofs.NumTheory
import Mathlib.Data.Nat.Totient
import Mathlib.Algebra.BigOperators.Group.Finset.Basic
import Mathlib.Tactic

/-! Auxiliary facts for C100-C102. -/

namespace Expreduce

theorem firstsLoop_spec : ∀ (l seen : List Int), seen.Nodup → (firstsLoop seen l).Nodup ∧ (∀ x, x ∈ firstsLoop seen l ↔ x ∈ seen ∨ x ∈ l) := by
  intro l
  induction l with
  | nil => intro seen h; simp [firstsLoop, h]
  | cons a l ih =>
    intro seen h
    unfold firstsLoop
    split
    · rename_i ha
      obtain ⟨h1, h2⟩ := ih seen h
      refine ⟨h1, fun x => ?_⟩
      rw [h2]
      constructor
      · rintro (h | h)
        · exact .inl h
        · exact .inr (by simp [h])
      · rintro (h | h)
        · exact .inl h
        · rcases List.mem_cons.1 h with rfl | h
          · exact .inl ha
          · exact .inr h
    · rename_i ha
      obtain ⟨h1, h2⟩ := ih (seen ++ [a]) (by
        rw [List.nodup_append]
        refine ⟨h, by simp, ?_⟩
        intro x hx y hy
        simp only [List.mem_singleton] at hy
        subst hy
        rintro rfl
        exact ha hx)
      refine ⟨h1, fun x => ?_⟩
      rw [h2]
      simp only [List.mem_append, List.mem_cons, List.not_mem_nil, or_false]
      tauto

theorem pairLe_trans {a b c : Int × Int} (h1 : pairLe a b) (h2 : pairLe b c) : pairLe a c := by
  unfold pairLe at *; omega

theorem pairLe_total (a b : Int × Int) : pairLe a b ∨ pairLe b a := by
  unfold pairLe; omega

instance : IsTrans (Int × Int) pairLe := ⟨fun _ _ _ => pairLe_trans⟩
instance : Std.Total pairLe := ⟨pairLe_total⟩

theorem sortPairs_perm (l : List (Int × Int)) : (sortPairs l).Perm l := List.perm_insertionSort _ _

theorem sortPairs_increasing {l : List (Int × Int)} (h : (l.map Prod.fst).Nodup) : ((sortPairs l).map Prod.fst).Pairwise (· < ·) := by
  have h1 : (sortPairs l).Pairwise pairLe := List.pairwise_insertionSort _ _
  have h2 : ((sortPairs l).map Prod.fst).Nodup := ((sortPairs_perm l).map Prod.fst).nodup_iff.2 h
  rw [List.pairwise_map]
  have h3 := List.pairwise_map.1 h2
  refine (h1.and h3).imp ?_
  rintro a b ⟨hab, hne⟩
  unfold pairLe at hab
  rcases hab with h | h
  · exact h
  · exact absurd h.1 hne

/-- The factorisation of a positive number other than 1. -/
theorem factorPos_spec (n : Nat) (hn : 2 ≤ n) (fuel : Nat) (hf : n < fuel) : ∃ t, factorPos fuel n = some t ∧ (t.map Prod.fst).Pairwise (· < ·) ∧
    (∀ x ∈ t, ∃ p : ℕ, p.Prime ∧ p ∣ n ∧ x.1 = p ∧ 0 < x.2) ∧ (∀ p : ℕ, p.Prime → p ∣ n → (p : Int) ∈ t.map Prod.fst) ∧
    (t.map (fun x => (x.1 : ℚ) ^ x.2)).prod = n := by
  obtain ⟨l, h1, h2, h3, h4⟩ := pfLoop_spec fuel n (by omega) hf
  refine ⟨sortPairs (tallyInts (l.map (↑))), ?_, ?_, ?_, ?_, ?_⟩
  · unfold factorPos
    rw [if_neg (by omega), h1]; rfl
  · refine sortPairs_increasing ?_
    simp only [tallyInts, List.map_map, Function.comp_def, List.map_id']
    exact (firstsLoop_spec _ [] (by simp)).1
  · intro x hx
    rw [(sortPairs_perm _).mem_iff] at hx
    obtain ⟨p, hp, rfl⟩ := List.mem_map.1 hx
    have hp' := ((firstsLoop_spec _ [] (by simp)).2 p).1 hp
    simp only [List.not_mem_nil, false_or] at hp'
    obtain ⟨q, hq, rfl⟩ := List.mem_map.1 hp'
    refine ⟨q, h2 q hq, ?_, rfl, ?_⟩
    · rw [← h4]; exact List.dvd_prod hq
    · have := List.count_pos_iff.2 hp'
      show (0 : Int) < ((_ : Nat) : Int)
      exact_mod_cast this
  · intro p hp hd
    rw [((sortPairs_perm _).map Prod.fst).mem_iff]
    simp only [tallyInts, List.map_map, Function.comp_def, List.map_id']
    rw [(firstsLoop_spec _ [] (by simp)).2]
    right
    have : p ∈ l := by
      rw [(Nat.primeFactorsList_unique h4 h2).mem_iff]
      exact (Nat.mem_primeFactorsList (by omega)).2 ⟨hp, hd⟩
    exact List.mem_map_of_mem this
  · rw [((sortPairs_perm _).map _).prod_eq]
    simp only [tallyInts, List.map_map, Function.comp_def]
    have hnd := (firstsLoop_spec (l.map (fun p : Nat => (p : Int))) [] (by simp)).1
    have hmem := (firstsLoop_spec (l.map (fun p : Nat => (p : Int))) [] (by simp)).2
    have e1 : (n : ℚ) = (((l.map (fun p : Nat => (p : Int))).prod : Int) : ℚ) := by
      rw [← h4]
      clear h1 h2 h3 h4 hnd hmem
      induction l with
      | nil => simp
      | cons a l ih => simp only [List.prod_cons, List.map_cons, Nat.cast_mul, Int.cast_mul, Int.cast_natCast, ih]
    rw [e1, Finset.prod_list_count (l.map (fun p : Nat => (p : Int)))]
    have e2 : (l.map (fun p : Nat => (p : Int))).toFinset = (firstsLoop [] (l.map (fun p : Nat => (p : Int)))).toFinset := by
      ext x
      simp only [List.mem_toFinset]
      rw [hmem]
      simp
    rw [e2, List.prod_toFinset _ hnd]
    push_cast
    rw [List.map_map]
    congr 1
    simp

end Expreduce
