import Verif.Model.Expand
import Verif.Props.NumTheory
import Verif.Props.NumRules
import Mathlib.Data.Nat.Choose.Sum

/-! The exponents of a power of a sum, and the multinomial theorem. -/

namespace Expreduce
open Ex

/-- A partition is made as long as wanted by zeros. -/
theorem padded_eq {n m : Nat} {q : List Nat} (hn : 1 ≤ n) (h : q ∈ integerPartitions n m) :
    q.take m ++ List.replicate (m - q.length) 0 = q ++ List.replicate (m - q.length) 0 := by
  have := (C40_complete n m (by omega) q).1 h
  rw [List.take_of_length_le (by omega)]

theorem padded_sorted {q : List Nat} {k : Nat} (h : q.Pairwise (· ≥ ·)) : (q ++ List.replicate k 0).Pairwise (· ≥ ·) := by
  rw [List.pairwise_append]
  refine ⟨h, ?_, fun a _ b hb => ?_⟩
  · exact List.pairwise_replicate.2 (Or.inr (le_refl _))
  · rw [List.eq_of_mem_replicate hb]; exact Nat.zero_le _

theorem padded_filter {q : List Nat} {k : Nat} (h : ∀ a ∈ q, 0 < a) : (q ++ List.replicate k 0).filter (0 < ·) = q := by
  rw [List.filter_append, List.filter_eq_self.2 (by simpa using h), List.filter_eq_nil_iff.2 (by
    intro a ha; rw [List.eq_of_mem_replicate ha]; simp), List.append_nil]

/-- Without its zeros a sorted list is followed by zeros. -/
theorem sorted_padded : ∀ {l : List Nat}, l.Pairwise (· ≥ ·) → l.filter (0 < ·) ++ List.replicate (l.length - (l.filter (0 < ·)).length) 0 = l
  | [], _ => rfl
  | a :: l, h => by
    have h' := List.pairwise_cons.1 h
    rcases Nat.eq_zero_or_pos a with rfl | ha
    · have hz : ∀ b ∈ l, b = 0 := fun b hb => Nat.le_zero.1 (h'.1 b hb)
      have : l.filter (0 < ·) = [] := List.filter_eq_nil_iff.2 (by intro b hb; rw [hz b hb]; simp)
      rw [List.filter_cons_of_neg (by simp), this, List.nil_append, List.length_nil, Nat.sub_zero, List.length_cons, List.replicate_succ]
      congr 1
      exact (List.eq_replicate_iff.2 ⟨rfl, hz⟩).symm
    · rw [List.filter_cons_of_pos (by simpa using ha), List.cons_append]
      congr 1
      rw [List.length_cons, List.length_cons, Nat.add_sub_add_right]
      exact sorted_padded h'.2

theorem filter_sum : ∀ (l : List Nat), (l.filter (0 < ·)).sum = l.sum
  | [] => rfl
  | a :: l => by
    rcases Nat.eq_zero_or_pos a with rfl | ha
    · rw [List.filter_cons_of_neg (by simp), filter_sum l, List.sum_cons, Nat.zero_add]
    · rw [List.filter_cons_of_pos (by simpa using ha), List.sum_cons, filter_sum l, List.sum_cons]

/-- The exponents: all lists of the right length with the right sum, each once. -/
theorem exponents_spec {n m : Nat} (hn : 1 ≤ n) (hm : 1 ≤ m) :
    (possibleExponents n m).Nodup ∧ ∀ q, q ∈ possibleExponents n m ↔ q.length = m ∧ q.sum = n := by
  have hne : ∀ q ∈ integerPartitions n m, q ++ List.replicate (m - q.length) 0 ≠ [] := by
    intro q hq h0
    have hq' := (C40_complete n m (by omega) q).1 hq
    have := congrArg List.length h0
    rw [List.length_append, List.length_replicate, List.length_nil] at this
    omega
  constructor
  · unfold possibleExponents
    rw [List.nodup_flatMap]
    constructor
    · intro l hl
      obtain ⟨q, hq, rfl⟩ := List.mem_map.1 hl
      rw [padded_eq hn hq]
      exact (C41_complete_partial _ (hne q hq)).1
    · rw [List.pairwise_map]
      have hnd := (C40_nodup n m).1
      refine (List.pairwise_iff_getElem.2 ?_)
      intro i j hi hj hij
      have hqi := List.getElem_mem hi
      have hqj := List.getElem_mem hj
      have hneq : (integerPartitions n m)[i] ≠ (integerPartitions n m)[j] := fun h => by
        have := (List.Nodup.getElem_inj_iff hnd).1 h
        omega
      generalize (integerPartitions (n : Int) m)[i] = a at hqi hneq
      generalize (integerPartitions (n : Int) m)[j] = b at hqj hneq
      show List.Disjoint _ _
      intro p h1 h2
      simp only [padded_eq hn hqi, padded_eq hn hqj] at h1 h2
      have p1 := ((C41_complete_partial _ (hne a hqi)).2 p).1 h1
      have p2 := ((C41_complete_partial _ (hne b hqj)).2 p).1 h2
      have ca := (C40_complete n m (by omega) a).1 hqi
      have cb := (C40_complete n m (by omega) b).1 hqj
      have : a ++ List.replicate (m - a.length) 0 = b ++ List.replicate (m - b.length) 0 :=
        (p1.symm.trans p2).eq_of_pairwise (fun x y _ _ h1 h2 => le_antisymm h2 h1) (padded_sorted ca.2.2.1) (padded_sorted cb.2.2.1)
      have := congrArg (List.filter (0 < ·)) this
      rw [padded_filter ca.2.1, padded_filter cb.2.1] at this
      exact hneq this
  · intro p
    unfold possibleExponents
    rw [List.mem_flatMap]
    constructor
    · rintro ⟨l, hl, hp⟩
      obtain ⟨q, hq, rfl⟩ := List.mem_map.1 hl
      rw [padded_eq hn hq] at hp
      have hperm := ((C41_complete_partial _ (hne q hq)).2 p).1 hp
      have c := (C40_complete n m (by omega) q).1 hq
      constructor
      · rw [hperm.length_eq, List.length_append, List.length_replicate]; omega
      · rw [hperm.sum_eq, List.sum_append, List.sum_replicate]
        simp; omega
    · rintro ⟨h1, h2⟩
      let s := p.mergeSort (fun a b => decide (a ≥ b))
      have hs : s.Perm p := List.mergeSort_perm _ _
      have hsort : s.Pairwise (· ≥ ·) := by
        have := List.pairwise_mergeSort (le := fun (a b : Nat) => decide (a ≥ b)) (by intro a b c; simp; omega) (by intro a b; simp; omega) p
        exact this.imp (by simp)
      have hq : s.filter (0 < ·) ∈ integerPartitions n m := by
        rw [C40_complete n m (by omega)]
        refine ⟨?_, ?_, ?_, ?_⟩
        · rw [filter_sum, hs.sum_eq, h2]
        · intro a ha; simpa using (List.mem_filter.1 ha).2
        · exact hsort.filter _
        · have := List.length_filter_le (p := fun a => decide (0 < a)) (l := s)
          rw [hs.length_eq, h1] at this
          exact_mod_cast this
      refine ⟨_, List.mem_map.2 ⟨_, hq, rfl⟩, ?_⟩
      rw [padded_eq hn hq]
      refine ((C41_complete_partial _ (hne _ hq)).2 p).2 ?_
      have e : m = s.length := by rw [hs.length_eq, h1]
      rw [e, sorted_padded hsort]
      exact hs.symm

/-- All lists of length `m` with sum `n`. -/
def comps : Nat → Nat → List (List Nat)
  | 0, n => if n = 0 then [[]] else []
  | m + 1, n => (List.range (n + 1)).flatMap (fun k => (comps m (n - k)).map (k :: ·))

theorem mem_comps : ∀ {m n : Nat} {q : List Nat}, q ∈ comps m n ↔ q.length = m ∧ q.sum = n
  | 0, n, q => by
    unfold comps
    split
    · subst n
      constructor
      · intro h; simp at h; subst h; simp
      · rintro ⟨h1, _⟩; simp [List.length_eq_zero_iff.1 h1]
    · rename_i hn
      constructor
      · simp
      · rintro ⟨h1, h2⟩
        rw [List.length_eq_zero_iff.1 h1] at h2
        exact absurd h2.symm hn
  | m + 1, n, q => by
    rw [comps, List.mem_flatMap]
    constructor
    · rintro ⟨k, hk, hq⟩
      obtain ⟨p, hp, rfl⟩ := List.mem_map.1 hq
      have := mem_comps.1 hp
      have hk := List.mem_range.1 hk
      simp only [List.length_cons, List.sum_cons]
      omega
    · rintro ⟨h1, h2⟩
      cases q with
      | nil => simp at h1
      | cons k p =>
        simp only [List.length_cons, List.sum_cons] at h1 h2
        exact ⟨k, List.mem_range.2 (by omega), List.mem_map.2 ⟨p, mem_comps.2 ⟨by omega, by omega⟩, rfl⟩⟩

theorem nodup_comps : ∀ (m n : Nat), (comps m n).Nodup
  | 0, n => by unfold comps; split <;> simp
  | m + 1, n => by
    rw [comps, List.nodup_flatMap]
    constructor
    · intro k _
      exact (nodup_comps m _).map (fun a b h => by simpa using h)
    · refine List.nodup_range.imp (fun {a b} hab => ?_)
      show List.Disjoint _ _
      intro q h1 h2
      obtain ⟨p1, _, rfl⟩ := List.mem_map.1 h1
      obtain ⟨p2, _, h⟩ := List.mem_map.1 h2
      simp only [List.cons.injEq] at h
      exact hab h.1.symm

theorem exponents_perm {n m : Nat} (hn : 1 ≤ n) (hm : 1 ≤ m) : (possibleExponents n m).Perm (comps m n) := by
  obtain ⟨h1, h2⟩ := exponents_spec hn hm
  exact (List.perm_ext_iff_of_nodup h1 (nodup_comps m n)).2 (fun q => by rw [h2, mem_comps])

theorem multinomial_cons (k : Nat) (q : List Nat) : multinomial (k :: q) = ((k + q.sum).choose k : ℚ) * multinomial q := by
  unfold multinomial
  rw [List.sum_cons, List.map_cons, List.prod_cons]
  have h1 : ((k + q.sum).choose k : ℚ) = ((k + q.sum).factorial : ℚ) / ((k.factorial : ℚ) * (q.sum.factorial : ℚ)) := by
    rw [Nat.cast_choose ℚ (Nat.le_add_right _ _), Nat.add_sub_cancel_left]
  have h2 : ((q.sum).factorial : ℚ) ≠ 0 := by exact_mod_cast Nat.factorial_ne_zero _
  rw [h1]
  field_simp

/-- The multinomial theorem. -/
theorem multinomial_sum : ∀ (vs : List ℂ) (n : Nat),
    ((comps vs.length n).map (fun q => ((multinomial q : ℚ) : ℂ) * (List.zipWith (fun (v : ℂ) (k : Nat) => v ^ k) vs q).prod)).sum = vs.sum ^ n
  | [], n => by
    rw [List.length_nil, comps]
    split
    · subst n; simp [multinomial]
    · rename_i hn
      simp [hn]
  | v :: vs, n => by
    have key : ∀ (l : List Nat), (l.flatMap (fun k => (comps vs.length (n - k)).map (fun q => ((multinomial (k :: q) : ℚ) : ℂ) *
        (v ^ k * (List.zipWith (fun (v : ℂ) (k : Nat) => v ^ k) vs q).prod)))).sum =
        (l.map (fun k => if k ≤ n then v ^ k * vs.sum ^ (n - k) * (n.choose k : ℂ) else
          ((comps vs.length (n - k)).map (fun q => ((multinomial (k :: q) : ℚ) : ℂ) *
        (v ^ k * (List.zipWith (fun (v : ℂ) (k : Nat) => v ^ k) vs q).prod))).sum)).sum := by
      intro l
      induction l with
      | nil => rfl
      | cons k l ih =>
        rw [List.flatMap_cons, List.sum_append, ih, List.map_cons, List.sum_cons]
        congr 1
        split
        · rename_i hk
          rw [← multinomial_sum vs (n - k)]
          have : ∀ q ∈ comps vs.length (n - k), ((multinomial (k :: q) : ℚ) : ℂ) * (v ^ k * (List.zipWith (fun (v : ℂ) (k : Nat) => v ^ k) vs q).prod) =
              (v ^ k * (n.choose k : ℂ)) * (((multinomial q : ℚ) : ℂ) * (List.zipWith (fun (v : ℂ) (k : Nat) => v ^ k) vs q).prod) := by
            intro q hq
            rw [multinomial_cons, (mem_comps.1 hq).2, Nat.add_sub_cancel' hk]
            push_cast
            ring
          rw [List.map_congr_left this, List.sum_map_mul_left]
          ring
        · rfl
    rw [List.length_cons, comps, List.map_flatMap, List.sum_cons, add_pow]
    simp only [List.map_map]
    refine (key _).trans ?_
    have hr : ∀ (N : Nat) (f : Nat → ℂ), ((List.range N).map f).sum = ∑ m ∈ Finset.range N, f m := by
      intro N f
      induction N with
      | zero => simp
      | succ N ih => rw [List.range_succ, List.map_append, List.sum_append, ih, Finset.sum_range_succ]; simp
    rw [hr]
    refine Finset.sum_congr rfl (fun k hk => ?_)
    rw [if_pos (by have := Finset.mem_range.1 hk; omega)]

end Expreduce
