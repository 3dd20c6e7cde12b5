import Verif.Proofs.Order4
import Verif.Model.Sort
import Mathlib.Order.Antisymmetrization
import Mathlib.Data.List.Sort

/-! Helper lemmas for sorting by the canonical order. -/

namespace Expreduce

local notation "T" => Ex.sym "System`Times"

theorem HeadOnly.good {e : Ex} (h : HeadOnly e) : Good e := by
  induction h with
  | cplx re im h => exact .cplx re im h
  | expr ps _ _ ih => exact .expr ps ih
  | _ => constructor

theorem headOnly_T_ne_aux (n : Nat) : ∀ x : Ex, x.size ≤ n → HeadOnly x → x ≠ T → exOrder T x ≠ 0 := by
  induction n with
  | zero => intro x h; have := x.size_pos; omega
  | succ n ih =>
    intro x hs hx hT
    cases hx with
    | sym s =>
      rw [exOrder_sym]; intro h
      rw [compareStrings_eq_zero] at h
      exact hT (by rw [h])
    | str s => rw [(exOrder_rank (.str s) dom_T (by simp [rank])).2]; decide
    | int s => rw [(exOrder_rank (.int s) dom_T (by simp [rank])).2]; decide
    | rat s d => rw [(exOrder_rank (.rat s d) dom_T (by simp [rank])).2]; decide
    | flt s => rw [(exOrder_rank (.flt s) dom_T (by simp [rank])).2]; decide
    | cplx re im h => rw [(exOrder_rank (.cplx re im h) dom_T (by simp [rank])).2]; decide
    | expr ps h1 h2 =>
      have ih' : ∀ p ∈ ps.tail, exOrder T p ≠ 0 := by
        intro p hp
        have hp' : p ∈ ps := List.mem_of_mem_tail hp
        refine ih p ?_ (h1 p hp') (h2 p hp)
        have := Ex.size_le_sizeL hp'
        simp [Ex.size] at hs; omega
      by_cases ht : Ex.hasHead "System`Times" (.expr ps) = true
      · rw [exOrder_times rfl rfl (Or.inr ht)]
        obtain ⟨p, qs, rfl⟩ : ∃ p qs, ps = p :: qs := by
          cases ps with
          | nil => simp [Ex.hasHead] at ht
          | cons p qs => exact ⟨p, qs, rfl⟩
        simp only [tParts, ht, if_true]
        simp only [List.tail_cons] at ih'
        have hp : p = T := by cases p <;> simp [Ex.hasHead] at ht; rw [ht]
        subst hp
        rcases List.eq_nil_or_concat qs with rfl | ⟨qs', y, rfl⟩
        · simp [timesP, lexP, skipNum_T_left, exOrder_TT, thenI, onlyNum, Ex.numberQ, lenCmp]
        · have hy := ih' y (by simp)
          simp [timesP, lexP, skipNum_T_left, thenI, hy]
      · have ht' : Ex.hasHead "System`Times" (.expr ps) = false := by simpa using ht
        by_cases hp : Ex.hasHead "System`Power" (.expr ps) = true
        · rw [exOrder_power rfl rfl rfl ht' (Or.inr hp)]
          obtain ⟨p, qs, rfl⟩ : ∃ p qs, ps = p :: qs := by
            cases ps with
            | nil => simp [Ex.hasHead] at hp
            | cons p qs => exact ⟨p, qs, rfl⟩
          simp only [pParts, hp, if_true]
          simp only [List.tail_cons] at ih'
          have hp : p = .sym "System`Power" := by cases p <;> simp [Ex.hasHead] at hp; rw [hp]
          subst hp
          unfold plainP
          split_ifs with l1 l2
          · decide
          · decide
          · have hP : exOrder (.sym "System`Power") (.sym "System`Power") = 0 := by
              rw [exOrder_sym, compareStrings_eq_zero]
            cases qs with
            | nil => simp at l2
            | cons y ys =>
              have hy := ih' y (by simp)
              simp [lexP, hP, hy]
        · rw [exOrder_sym_expr ht' (by simpa using hp)]; decide

theorem HeadOnly.dom {e : Ex} (h : HeadOnly e) : Dom e := by
  induction h with
  | cplx re im h => exact .cplx re im h
  | expr ps h1 h2 ih =>
    refine .expr ps ih ?_
    intro _ p hp
    exact headOnly_T_ne_aux _ p le_rfl (h1 p (List.mem_of_mem_tail hp)) (h2 p hp)
  | _ => constructor

theorem exOrder_strictWeak {xs : List Ex} (h : ∀ x ∈ xs, Dom x) : StrictWeakOn exLess xs := by
  refine ⟨?_, ?_, ?_⟩
  · intro a ha
    have := exOrder_opp (h a ha) (h a ha)
    simp [exLess]; omega
  · intro a ha b hb c hc h1 h2
    have t := exOrder_Tri (h a ha) (h b hb) (h c hc)
    have := exOrder_opp (h a ha) (h c hc)
    simp [exLess] at *
    unfold Tri at t; omega
  · intro a ha b hb c hc h1 h2 h3 h4
    have t := exOrder_Tri (h a ha) (h b hb) (h c hc)
    have o1 := exOrder_opp (h a ha) (h b hb)
    have o2 := exOrder_opp (h b hb) (h c hc)
    have o3 := exOrder_opp (h a ha) (h c hc)
    simp [exLess] at *
    unfold Tri at t; omega

/-- the preorder on the domain -/
structure DomT where
  e : Ex
  d : Dom e

instance : Preorder DomT where
  le a b := 0 ≤ exOrder a.e b.e
  le_refl a := by have := exOrder_opp a.d a.d; omega
  le_trans a b c h1 h2 := by
    have t := exOrder_Tri a.d b.d c.d
    unfold Tri at t
    show 0 ≤ exOrder a.e c.e
    change 0 ≤ exOrder a.e b.e at h1
    change 0 ≤ exOrder b.e c.e at h2
    omega

theorem sorted_perm_tie {xs ys : List Ex} (d : ∀ x ∈ xs, Dom x) (hp : xs.Perm ys)
    (hx : xs.Pairwise (fun a b => 0 ≤ exOrder a b)) (hy : ys.Pairwise (fun a b => 0 ≤ exOrder a b)) :
    List.Forall₂ (fun a b => exOrder a b = 0) xs ys := by
  have dy : ∀ y ∈ ys, Dom y := fun y hy => d y (hp.mem_iff.2 hy)
  let X : List DomT := xs.attach.map (fun x => ⟨x.1, d x.1 x.2⟩)
  let Y : List DomT := ys.attach.map (fun x => ⟨x.1, dy x.1 x.2⟩)
  have eX : X.map (fun a => a.e) = xs := by
    simp only [X, List.map_map]; exact List.attach_map_subtype_val xs
  have eY : Y.map (fun a => a.e) = ys := by
    simp only [Y, List.map_map]; exact List.attach_map_subtype_val ys
  have hinj : Function.Injective (fun a : DomT => a.e) := fun a b h => by cases a; cases b; simp_all
  have pXY : X.Perm Y := by
    have : (X.map (fun a : DomT => a.e)).Perm (Y.map (fun a : DomT => a.e)) := by rw [eX, eY]; exact hp
    exact (List.map_perm_map_iff hinj).1 this
  have sX : X.Pairwise (· ≤ ·) := by
    rw [← eX, List.pairwise_map] at hx; exact hx
  have sY : Y.Pairwise (· ≤ ·) := by
    rw [← eY, List.pairwise_map] at hy; exact hy
  let q : DomT → Antisymmetrization DomT (· ≤ ·) := toAntisymmetrization (· ≤ ·)
  have e : X.map q = Y.map q := by
    refine List.Perm.eq_of_pairwise' (r := (· ≤ ·)) ?_ ?_ (pXY.map q)
    · rw [List.pairwise_map]; exact sX.imp (fun h => h)
    · rw [List.pairwise_map]; exact sY.imp (fun h => h)
  have f2 : List.Forall₂ (fun a b : DomT => exOrder a.e b.e = 0) X Y := by
    have hlen : X.length = Y.length := pXY.length_eq
    rw [List.forall₂_iff_get]
    refine ⟨hlen, ?_⟩
    intro i h1 h2
    have : q (X.get ⟨i, h1⟩) = q (Y.get ⟨i, h2⟩) := by
      have := congrArg (fun l => l[i]?) e
      simp only [List.getElem?_map] at this
      rw [List.getElem?_eq_getElem h1, List.getElem?_eq_getElem h2] at this
      simpa using this
    have hr := Quotient.exact this
    have r1 : 0 ≤ exOrder (X.get ⟨i, h1⟩).e (Y.get ⟨i, h2⟩).e := hr.1
    have r2 : 0 ≤ exOrder (Y.get ⟨i, h2⟩).e (X.get ⟨i, h1⟩).e := hr.2
    have := exOrder_opp (X.get ⟨i, h1⟩).d (Y.get ⟨i, h2⟩).d
    omega
  have : List.Forall₂ (fun a b => exOrder a b = 0) (X.map (fun a : DomT => a.e)) (Y.map (fun a : DomT => a.e)) := by
    rw [List.forall₂_map_left_iff, List.forall₂_map_right_iff]; exact f2
  rwa [eX, eY] at this

theorem insertR_perm (less : Ex → Ex → Bool) (x : Ex) (l : List Ex) : (insertR less x l).Perm (x :: l) := by
  induction l with
  | nil => exact List.Perm.refl _
  | cons y ys ih =>
    simp only [insertR]
    split
    · exact (ih.cons y).trans (List.Perm.swap x y ys)
    · exact List.Perm.refl _

theorem foldl_insertR_perm (less : Ex → Ex → Bool) (xs acc : List Ex) :
    (xs.foldl (fun acc x => insertR less x acc) acc).Perm (xs ++ acc) := by
  induction xs generalizing acc with
  | nil => exact List.Perm.refl _
  | cons x xs ih =>
    simp only [List.foldl_cons]
    refine (ih _).trans ?_
    refine ((insertR_perm less x acc).append_left xs).trans ?_
    exact List.perm_middle

theorem insertionSort_perm (less : Ex → Ex → Bool) (xs : List Ex) : (insertionSort less xs).Perm xs := by
  unfold insertionSort
  refine (List.reverse_perm _).trans ?_
  simpa using foldl_insertR_perm less xs []

theorem insertR_sorted {less : Ex → Ex → Bool} {S : List Ex} (h : StrictWeakOn less S) {x : Ex} {l : List Ex}
    (hx : x ∈ S) (hl : ∀ y ∈ l, y ∈ S) (s : l.Pairwise (fun a b => less a b = false)) :
    (insertR less x l).Pairwise (fun a b => less a b = false) := by
  obtain ⟨h1, h2, h3⟩ := h
  -- negation of a strict weak order is transitive
  have ntrans : ∀ a ∈ S, ∀ b ∈ S, ∀ c ∈ S, less a b = false → less b c = false → less a c = false := by
    intro a ha b hb c hc hab hbc
    by_contra hac
    have hac : less a c = true := by simpa using hac
    by_cases hba : less b a = true
    · have := h2 b hb a ha c hc hba hac; rw [hbc] at this; exact absurd this (by decide)
    · have hba : less b a = false := by simpa using hba
      by_cases hcb : less c b = true
      · have := h2 a ha c hc b hb hac hcb; rw [hab] at this; exact absurd this (by decide)
      · have := (h3 a ha b hb c hc hab hba hbc (by simpa using hcb)).1
        rw [hac] at this; exact absurd this (by decide)
  induction l with
  | nil => simp [insertR]
  | cons y ys ih =>
    simp only [insertR]
    rw [List.pairwise_cons] at s
    have hyS := hl y (by simp)
    split
    · rename_i hlt
      rw [List.pairwise_cons]
      refine ⟨?_, ih (fun z hz => hl z (by simp [hz])) s.2⟩
      intro z hz
      rcases List.mem_cons.1 ((insertR_perm less x ys).mem_iff.1 hz) with rfl | hz
      · by_contra hc
        have hc : less y z = true := by simpa using hc
        have := h2 z hx y hyS z hx hlt hc
        rw [h1 z hx] at this; exact absurd this (by decide)
      · exact s.1 z hz
    · rename_i hlt
      rw [List.pairwise_cons]
      refine ⟨?_, List.pairwise_cons.2 s⟩
      intro z hz
      rcases List.mem_cons.1 hz with rfl | hz
      · simpa using hlt
      · exact ntrans x hx y hyS z (hl z (by simp [hz])) (by simpa using hlt) (s.1 z hz)

theorem insertionSort_contract (less : Ex → Ex → Bool) (xs : List Ex) :
    SortContract less xs (insertionSort less xs) := by
  refine ⟨insertionSort_perm less xs, fun h => ?_⟩
  unfold insertionSort
  rw [List.pairwise_reverse]
  have key : ∀ (ys acc : List Ex), (∀ y ∈ ys, y ∈ xs) → (∀ y ∈ acc, y ∈ xs) →
      acc.Pairwise (fun a b => less a b = false) →
      (ys.foldl (fun acc x => insertR less x acc) acc).Pairwise (fun a b => less a b = false) := by
    intro ys
    induction ys with
    | nil => intro acc _ _ h; exact h
    | cons y ys ih =>
      intro acc hy ha hs
      simp only [List.foldl_cons]
      refine ih _ (fun z hz => hy z (by simp [hz])) ?_ (insertR_sorted h (hy y (by simp)) ha hs)
      intro z hz
      rcases List.mem_cons.1 ((insertR_perm less y acc).mem_iff.1 hz) with rfl | hz
      · exact hy z (by simp)
      · exact ha z hz
  exact key xs [] (fun _ h => h) (by simp) (by simp)

end Expreduce
