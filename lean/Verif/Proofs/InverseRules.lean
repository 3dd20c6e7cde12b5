import Verif.Spec.Inverse
import Verif.Proofs.SolveEnd

/-! Matching of `Inverse[{{a_, b_}, {c_, d_}}]`. -/

namespace Expreduce
open Ex Shipped

theorem body_plain {t : String} (ht : t ∉ specialHeads) (ps : List Ex) (flat : Bool) (s : String) :
    bodyShape flat s (.expr (.sym t :: ps)) = ⟨1, 1, .expr (.sym t :: ps), none, false, S "Sequence", none⟩ := by
  have h := fun (u : String) (hu : u ∈ specialHeads) => special_ne ht hu
  simp only [bodyShape, h "System`BlankNullSequence" (by decide), h "System`BlankSequence" (by decide), h "System`Blank" (by decide), h "System`RepeatedNull" (by decide),
    h "System`Repeated" (by decide), if_false]

theorem shape_plain {t : String} (ht : t ∉ specialHeads) (ps : List Ex) (d : Option Ex) (flat : Bool) (s : String) :
    shape d flat s (.expr (.sym t :: ps)) = ⟨1, 1, .expr (.sym t :: ps), none, false, S "Sequence", none⟩ := by
  rw [← body_plain ht ps flat s]
  have h := fun (u : String) (hu : u ∈ specialHeads) => special_ne ht hu
  have h1 : namedShape flat s (.expr (.sym t :: ps)) = bodyShape flat s (.expr (.sym t :: ps)) := by
    unfold namedShape
    split
    · rename_i e
      simp only [Ex.expr.injEq, List.cons.injEq, Ex.sym.injEq] at e
      rw [if_neg (e.1 ▸ h "System`Pattern" (by decide))]
    · rfl
  have h2 : testShape flat s (.expr (.sym t :: ps)) = bodyShape flat s (.expr (.sym t :: ps)) := by
    rw [← h1]
    unfold testShape
    split
    · rename_i e
      simp only [Ex.expr.injEq, List.cons.injEq, Ex.sym.injEq] at e
      rw [if_neg (e.1 ▸ h "System`PatternTest" (by decide))]
    · rfl
  rw [← h2]
  unfold shape
  split
  · rename_i e
    simp only [Ex.expr.injEq, List.cons.injEq, Ex.sym.injEq] at e
    rw [if_neg (e.1 ▸ h "System`Optional" (by decide))]
  · rfl

theorem shape_list (d : Option Ex) (s : String) (l : List Ex) : shape d false s (list l) = ⟨1, 1, list l, none, false, S "Sequence", none⟩ :=
  shape_plain (by decide) l d false s

/-- `{x_, y_, ...}` -/
def rowPat (names : List String) : Ex := list (names.map any)
/-- `{{x_, ...}, {y_, ...}, ...}` -/
def gridPat (names : List (List String)) : Ex := list (names.map rowPat)

section
variable {env : MEnv} {pl : List String} (hE : ArithEnv env pl)
include hE

theorem grid_match (h1 : "System`Inverse" ∈ pl) (h2 : "System`List" ∈ pl) {names : List (List String)} {M : List (List Ex)}
    {ρ : String → Option Ex}
    (hc : ClashFree env polyHeads (held (call "Inverse" [gridPat names])) (call "Inverse" [list (M.map list)]) ρ)
    (hm : Matches env ρ (held (call "Inverse" [gridPat names])) (call "Inverse" [list (M.map list)])) :
    List.Forall₂ (List.Forall₂ (fun y c => ρ ("Private`" ++ y) = some c ∧ hasHead "System`Sequence" c = false)) names M := by
  obtain ⟨T, hD, hT⟩ := hc
  have hsub0 : ∀ q ∈ subexprs (call "Inverse" [gridPat names]), q ∈ subexprs (held (call "Inverse" [gridPat names])) := fun q hq =>
    subexprs_arg (ps := [call "Inverse" [gridPat names]]) (List.mem_singleton.2 rfl) hq
  have hsub1 : ∀ q ∈ subexprs (gridPat names), q ∈ subexprs (call "Inverse" [gridPat names]) := fun q hq =>
    subexprs_arg (ps := [gridPat names]) (List.mem_singleton.2 rfl) hq
  have hmem1 : list (M.map list) ∈ pieces (call "Inverse" [list (M.map list)]) := pieces_arg (List.mem_cons_of_mem _ (List.mem_singleton.2 rfl)) (pieces_self _)
  obtain ⟨cs, k1, k2⟩ := args_inv hD (by decide) (hE.plain _ h1).1 (hE.plain _ h1).2 hsub0 (pieces_self _) (by simp [gridPat, list, call, isOptional, S]) (by
    intro p hp
    rw [List.mem_singleton.1 hp, gridPat, shape_list]
    exact ⟨rfl, rfl⟩) (matches_hold_inv hm)
  simp only [call, partsOf, S, Option.some.injEq, List.cons.injEq] at k1
  obtain ⟨_, rfl⟩ := k1
  cases k2 with
  | cons t _ =>
    have hm1 := t.1
    rw [gridPat, shape_list] at hm1
    obtain ⟨cs, k1, k2⟩ := args_inv hD (by decide) (hE.plain _ h2).1 (hE.plain _ h2).2 (fun q hq => hsub0 q (hsub1 q hq)) hmem1 (by
      rw [List.any_eq_false]
      intro p hp
      obtain ⟨y, _, rfl⟩ := List.mem_map.1 hp
      simp [isOptional, rowPat, list, call, S]) (by
      intro p hp
      obtain ⟨y, hy, rfl⟩ := List.mem_map.1 hp
      rw [rowPat, shape_list]
      exact ⟨rfl, rfl⟩) hm1
    simp only [list, call, partsOf, S, Option.some.injEq, List.cons.injEq] at k1
    obtain ⟨_, rfl⟩ := k1
    rw [List.forall₂_map_left_iff, List.forall₂_map_right_iff] at k2
    rw [List.forall₂_iff_get] at k2 ⊢
    refine ⟨k2.1, fun i i1 i2 => ?_⟩
    have hrow := (k2.2 i i1 i2).1
    rw [rowPat, shape_list] at hrow
    have hmem2 : list (M.get ⟨i, i2⟩) ∈ pieces (call "Inverse" [list (M.map list)]) := by
      refine pieces_arg (List.mem_cons_of_mem _ (List.mem_singleton.2 rfl)) (pieces_arg (List.mem_cons_of_mem _ (List.mem_map.2 ⟨_, List.get_mem M ⟨i, i2⟩, rfl⟩)) (pieces_self _))
    obtain ⟨cs, j1, j2⟩ := args_inv hD (by decide) (hE.plain _ h2).1 (hE.plain _ h2).2 (fun q hq => hsub0 q (hsub1 q (subexprs_arg (ps := names.map rowPat)
      (List.mem_map.2 ⟨_, List.get_mem names ⟨i, i1⟩, rfl⟩) hq))) hmem2 (by
      rw [List.any_eq_false]
      intro p hp
      obtain ⟨y, _, rfl⟩ := List.mem_map.1 hp
      simp [isOptional, any, S]) (by
      intro p hp
      obtain ⟨y, _, rfl⟩ := List.mem_map.1 hp
      rw [shape_any]; exact ⟨rfl, rfl⟩) hrow
    simp only [list, call, partsOf, S, Option.some.injEq, List.cons.injEq] at j1
    obtain ⟨_, rfl⟩ := j1
    rw [List.forall₂_map_left_iff] at j2
    rw [List.forall₂_iff_get] at j2 ⊢
    refine ⟨j2.1, fun l l1 l2 => ?_⟩
    have hmem : (M.get ⟨i, i2⟩).get ⟨l, l2⟩ ∈ pieces (call "Inverse" [list (M.map list)]) := by
      refine pieces_arg (List.mem_cons_of_mem _ (List.mem_singleton.2 rfl)) (pieces_arg (List.mem_cons_of_mem _ (List.mem_map.2 ⟨_, List.get_mem M ⟨i, i2⟩, rfl⟩))
        (pieces_arg (List.mem_cons_of_mem _ (List.get_mem _ ⟨l, l2⟩)) (pieces_self _)))
    exact ⟨takes_any hD hT hmem (j2.2 l l1 l2), hD.noSeq _ hmem⟩

end

section
variable {ρ : String → Option Ex} (h : NotBound ρ)
include h

theorem subst_inverse1 (a : Ex) : (inverse1 a).map (List.map (subst ρ)) = inverse1 (subst ρ a) := by
  simp only [inverse1, List.map_cons, List.map_nil, subst_dv h, subst_int]
theorem subst_det2 (a b c d : Ex) : subst ρ (det2 a b c d) = det2 (subst ρ a) (subst ρ b) (subst ρ c) (subst ρ d) := by
  simp only [det2, subst_add h, subst_mul h, subst_neg h, List.map_cons, List.map_nil]
theorem subst_inverse2 (a b c d : Ex) : (inverse2 a b c d).map (List.map (subst ρ)) = inverse2 (subst ρ a) (subst ρ b) (subst ρ c) (subst ρ d) := by
  simp only [inverse2, List.map_cons, List.map_nil, subst_dv h, subst_neg h, subst_det2 h]
theorem subst_det3 (a b c d e f g i j : Ex) : subst ρ (det3 a b c d e f g i j) =
    det3 (subst ρ a) (subst ρ b) (subst ρ c) (subst ρ d) (subst ρ e) (subst ρ f) (subst ρ g) (subst ρ i) (subst ρ j) := by
  simp only [det3, subst_add h, subst_mul h, subst_neg h, List.map_cons, List.map_nil]
theorem subst_inverse3 (a b c d e f g i j : Ex) : (inverse3 a b c d e f g i j).map (List.map (subst ρ)) =
    inverse3 (subst ρ a) (subst ρ b) (subst ρ c) (subst ρ d) (subst ρ e) (subst ρ f) (subst ρ g) (subst ρ i) (subst ρ j) := by
  simp only [inverse3, List.map_cons, List.map_nil, subst_dv h, subst_neg h, subst_det3 h, subst_add h, subst_mul h, subst_sub h]
theorem subst_grid (l : List (List Ex)) : subst ρ (list (l.map list)) = list ((l.map (List.map (subst ρ))).map list) := by
  rw [subst_list h, List.map_map, List.map_map]
  congr 1
  refine List.map_congr_left (fun r _ => ?_)
  exact subst_list h r

end

section
variable {V : Interp}

theorem inverse2_values {A B C D : Ex} {a b c d : ℂ} (hA : V.Denotes A a) (hB : V.Denotes B b) (hC : V.Denotes C c) (hD : V.Denotes D d) :
    V.Denotes (det2 A B C D) (a * d - b * c) := den_eq (den_add2 (den_mul2 (den_neg hB) hC) (den_mul2 hA hD)) (by ring)

theorem inverse3_values {A B C D E F G H J : Ex} {a b c d e f g h j : ℂ} (hA : V.Denotes A a) (hB : V.Denotes B b) (hC : V.Denotes C c) (hD : V.Denotes D d) (hE : V.Denotes E e)
    (hF : V.Denotes F f) (hG : V.Denotes G g) (hH : V.Denotes H h) (hJ : V.Denotes J j) :
    V.Denotes (det3 A B C D E F G H J) (a * e * j - a * f * h - b * d * j + b * f * g + c * d * h - c * e * g) :=
  den_eq (den_add6 (den_mul3 (den_neg hC) hE hG) (den_mul3 hB hF hG) (den_mul3 hC hD hH) (den_neg (den_mul3 hA hF hH)) (den_neg (den_mul3 hB hD hJ)) (den_mul3 hA hE hJ)) (by ring)

end
end Expreduce
