import Verif.Proofs.Meaning
import Verif.Proofs.PatCheck
import Mathlib.Data.List.Sublists

/-! The check `clashFreeB` is sound; the value of a match. -/

namespace Expreduce
open Ex

theorem pieces_self (e : Ex) : e ∈ pieces e := by cases e <;> simp [pieces]

theorem mem_piecesL {a : Ex} : ∀ {ps : List Ex}, a ∈ piecesL ps ↔ ∃ p ∈ ps, a ∈ pieces p
  | [] => by simp [piecesL]
  | p :: ps => by simp [piecesL, mem_piecesL (ps := ps)]

theorem pieces_part (e : Ex) : ∀ a as, a ∈ pieces e → partsOf a = some as → ∀ x ∈ as, x ∈ pieces e := by
  induction e using Ex.rec (motive_2 := fun ps => ∀ p ∈ ps, ∀ a as, a ∈ pieces p → partsOf a = some as → ∀ x ∈ as, x ∈ pieces p) with
  | expr ps ih =>
    intro a as ha hp x hx
    simp only [pieces, List.mem_cons, mem_piecesL] at ha ⊢
    rcases ha with rfl | ⟨p, hm, ha⟩
    · simp only [partsOf, Option.some.injEq] at hp
      subst hp
      exact Or.inr ⟨x, hx, pieces_self x⟩
    · exact Or.inr ⟨p, hm, ih p hm a as ha hp x hx⟩
  | cplx re im ih1 ih2 =>
    intro a as ha hp x hx
    simp only [pieces, List.mem_cons, List.mem_append] at ha ⊢
    have hpart : as = [S "Complex", re, im] → x = S "Complex" ∨ x ∈ pieces re ∨ x ∈ pieces im := by
      rintro rfl
      simp only [List.mem_cons, List.not_mem_nil, or_false] at hx
      rcases hx with rfl | rfl | rfl
      · exact Or.inl rfl
      · exact Or.inr (Or.inl (pieces_self _))
      · exact Or.inr (Or.inr (pieces_self _))
    rcases ha with rfl | rfl | rfl | ha | ha
    · simp only [partsOf, Option.some.injEq] at hp
      exact Or.inr (Or.inr (hpart hp.symm))
    · simp only [opened, partsOf, Option.map_some, Option.getD_some, Option.some.injEq] at hp
      exact Or.inr (Or.inr (hpart hp.symm))
    · simp [partsOf, S] at hp
    · exact Or.inr (Or.inr (Or.inr (Or.inl (ih1 a as ha hp x hx))))
    · exact Or.inr (Or.inr (Or.inr (Or.inr (ih2 a as ha hp x hx))))
  | rat n d =>
    intro a as ha hp x hx
    simp only [pieces, List.mem_cons, List.not_mem_nil, or_false] at ha ⊢
    have hpart : as = [S "Rational", .int n, .int d] → x = S "Rational" ∨ x = .int n ∨ x = .int d := by
      rintro rfl
      simpa using hx
    rcases ha with rfl | rfl | rfl | rfl | rfl
    · simp only [partsOf, Option.some.injEq] at hp
      exact Or.inr (Or.inr (hpart hp.symm))
    · simp only [opened, partsOf, Option.map_some, Option.getD_some, Option.some.injEq] at hp
      exact Or.inr (Or.inr (hpart hp.symm))
    all_goals simp [partsOf, S] at hp
  | nil => rename_i hm _ _ _ _ _ _; simp at hm
  | cons p ps ih1 ih2 =>
    rename_i q hq a as ha hp x hx
    rcases List.mem_cons.1 hq with rfl | hq
    · exact ih1 a as ha hp x hx
    · exact ih2 q hq a as ha hp x hx
  | _ =>
    intro a as ha hp x hx
    simp only [pieces, List.mem_singleton] at ha
    subst ha
    simp [partsOf] at hp

theorem pieces_opened (e : Ex) : ∀ a, a ∈ pieces e → opened a ∈ pieces e := by
  induction e using Ex.rec (motive_2 := fun ps => ∀ p ∈ ps, ∀ a, a ∈ pieces p → opened a ∈ pieces p) with
  | expr ps ih =>
    intro a ha
    simp only [pieces, List.mem_cons, mem_piecesL] at ha ⊢
    rcases ha with rfl | ⟨p, hm, ha⟩
    · exact Or.inl rfl
    · exact Or.inr ⟨p, hm, ih p hm a ha⟩
  | cplx re im ih1 ih2 =>
    intro a ha
    simp only [pieces, List.mem_cons, List.mem_append] at ha ⊢
    rcases ha with rfl | rfl | rfl | ha | ha
    · exact Or.inr (Or.inl rfl)
    · exact Or.inr (Or.inl rfl)
    · exact Or.inr (Or.inr (Or.inl rfl))
    · exact Or.inr (Or.inr (Or.inr (Or.inl (ih1 a ha))))
    · exact Or.inr (Or.inr (Or.inr (Or.inr (ih2 a ha))))
  | rat n d =>
    intro a ha
    simp only [pieces, List.mem_cons, List.not_mem_nil, or_false] at ha ⊢
    rcases ha with rfl | rfl | rfl | rfl | rfl
    · exact Or.inr (Or.inl rfl)
    · exact Or.inr (Or.inl rfl)
    · exact Or.inr (Or.inr (Or.inl rfl))
    · exact Or.inr (Or.inr (Or.inr (Or.inl rfl)))
    · exact Or.inr (Or.inr (Or.inr (Or.inr rfl)))
  | nil => rename_i hm _ _; simp at hm
  | cons p ps ih1 ih2 =>
    rename_i q hq a ha
    rcases List.mem_cons.1 hq with rfl | hq
    · exact ih1 a ha
    · exact ih2 q hq a ha
  | _ =>
    intro a ha
    simp only [pieces, List.mem_singleton] at ha ⊢
    subst ha
    rfl

theorem clashFree_of_list {env : MEnv} {heads : List String} {p e : Ex} {vs : List Ex} {ρ : String → Option Ex} (h : clashFreeB env heads p e vs = true)
    (hρ : ∀ x v, ρ x = some v → v ∈ vs) : ClashFree env heads p e ρ := by
  simp only [clashFreeB, Bool.and_eq_true, List.all_eq_true, Bool.not_eq_true', Bool.or_eq_true, decide_eq_true_eq] at h
  obtain ⟨h1, h2⟩ := h
  refine ⟨(· ∈ comparedList env heads p e vs), ?_, ?_⟩
  · constructor
    · intro u w hu hw hs
      rcases h2 u hu w hw with h | h
      · rw [hs] at h; simp at h
      · exact h
    · intro a ha; simp [comparedList, ha]
    · intro a ha
      simp only [comparedList, List.mem_append, List.mem_map]
      exact Or.inl (Or.inl (Or.inl (Or.inl (Or.inl (Or.inr ⟨a, ha, rfl⟩)))))
    · intro a ha; exact (h1 a ha).1
    · exact pieces_part e
    · intro a hd as ha hp
      have := (h1 a ha).2
      cases a with
      | expr ps =>
        simp only [partsOf, Option.some.injEq] at hp
        subst hp
        cases hd with
        | sym t => exact ⟨t, rfl⟩
        | _ => simp [symHead] at this
      | rat n d =>
        simp only [partsOf, Option.some.injEq, List.cons.injEq] at hp
        exact ⟨_, hp.1.symm⟩
      | cplx n d =>
        simp only [partsOf, Option.some.injEq, List.cons.injEq] at hp
        exact ⟨_, hp.1.symm⟩
      | _ => simp [partsOf] at hp
    · intro a hd as cs ha hp hc
      have hg : ∀ u ∈ [Ex.expr (hd :: cs), .expr (S "Sequence" :: cs)], u ∈ groupsOf a := by
        intro u hu
        unfold groupsOf
        rw [hp]
        exact List.mem_flatMap.2 ⟨cs, List.mem_sublists.2 hc, hu⟩
      have hin : ∀ u ∈ groupsOf a, u ∈ comparedList env heads p e vs := by
        intro u hu
        simp only [comparedList, List.mem_append, List.mem_flatMap]
        exact Or.inl (Or.inl (Or.inl (Or.inl (Or.inr ⟨a, ha, hu⟩))))
      exact ⟨hin _ (hg _ (by simp)), hin _ (hg _ (by simp))⟩
    · intro a s cs ha hs hc
      have hin : ∀ u ∈ (pieces e).flatMap (fun a => [Ex.expr [.sym s, opened a], .expr [S "Sequence", opened a]]) ++ [.expr [.sym s], .expr [S "Sequence"]],
          u ∈ comparedList env heads p e vs := by
        intro u hu
        simp only [comparedList]
        rw [List.mem_append, List.mem_append, List.mem_append, List.mem_append]
        exact Or.inl (Or.inl (Or.inl (Or.inr (List.mem_flatMap.2 ⟨s, hs, hu⟩))))
      have hcs : cs = [] ∨ cs = [opened a] := by
        have := List.mem_sublists.2 hc
        simpa using this
      rcases hcs with rfl | rfl
      · exact ⟨hin _ (by simp), hin _ (by simp)⟩
      · constructor
        · exact hin _ (List.mem_append_left _ (List.mem_flatMap.2 ⟨a, ha, by simp⟩))
        · exact hin _ (List.mem_append_left _ (List.mem_flatMap.2 ⟨a, ha, by simp⟩))
    · exact pieces_opened e
    · intro q hq
      simp only [comparedList]
      rw [List.mem_append, List.mem_append, List.mem_append]
      exact Or.inl (Or.inl (Or.inr hq))
    · intro s d hs hd
      simp only [comparedList]
      rw [List.mem_append, List.mem_append]
      exact Or.inl (Or.inr (List.mem_filterMap.2 ⟨s, hs, hd⟩))
  · intro x v hx
    simp only [comparedList]
    rw [List.mem_append]
    exact Or.inr (hρ x v hx)

theorem fill_noSeq {env : MEnv} {L : String → Prop} {P U T : Ex → Prop} (hD : Distinct env L P U T) {ρ : String → Option Ex}
    (hρ : ∀ x v, ρ x = some v → T v) {p : Ex} (hp : FPat env L p) : ∀ a, U a → (∀ q ∈ subexprs p, P q) → Matches env ρ p a →
    hasHead "System`Sequence" (fill ρ p) = false := by
  induction hp with
  | @atom p h =>
    intro a _ _ _
    cases p with
    | expr _ => simp [isAtom] at h
    | _ => simp [fill, argName, testName, coreName, hasHead]
  | @named s args x h =>
    intro a hU _ hm
    obtain ⟨v, hv, hs⟩ := matches_named_inv hm
    have : v = a := hD.inj _ _ (hρ x v hv) (hD.whole _ hU) hs
    subst this
    have : fill ρ (.expr [S "Pattern", .sym x, .expr (.sym s :: args)]) = v := by
      simp [fill, argName, testName, coreName, S, hv]
    rw [this]
    exact hD.noSeq _ hU
  | @test q t _ ih =>
    intro a hU hP hm
    rw [fill_test]
    refine ih a hU (fun q' hq' => hP q' ?_) (matches_test_inv hm)
    simp only [subexprs]
    exact List.mem_cons_of_mem _ (mem_subexprsL (p := q) (by simp) hq')
  | @hold q _ ih =>
    intro a hU hP hm
    rw [fill_hold]
    refine ih a hU (fun q' hq' => hP q' ?_) (matches_hold_inv hm)
    simp only [subexprs]
    exact List.mem_cons_of_mem _ (mem_subexprsL (p := q) (by simp) hq')
  | app _ h1 h2 =>
    intro a _ _ _
    rw [fill_app h1]
    simpa [hasHead] using h2
  | verb _ h1 h2 =>
    intro a _ _ _
    rw [fill_verb]
    simpa [hasHead] using h2

/-- The value of the filled-in pattern is that of the expression. -/
theorem val_of_match {A : Type _} {M : Meaning A} {env : MEnv} {heads : List String} {p e : Ex} {ρ : String → Option Ex}
    (hM : ∀ s ∈ heads, M.Lawful env s) (hp : FPat env (· ∈ heads) p) (hd : ClashFree env heads p e ρ) (hm : Matches env ρ p e) :
    M.val (fill ρ p) = M.val e ∧ ∀ t ∈ namedArgs p, Taken env (· ∈ pieces e) ρ t.1 t.2.1 t.2.2 := by
  obtain ⟨T, hD, hρ⟩ := hd
  have hU := pieces_self e
  obtain ⟨h1, h2⟩ := fill_matches (M := M) hM hD hρ (sizeOf p + 1) p e (by omega) hp (fun q hq => hq) hU hm
  refine ⟨?_, h2⟩
  rw [Meaning.argVals_eq _ (hD.noSeq _ hU), Meaning.argVals_eq _ (fill_noSeq hD hρ hp e hU (fun q hq => hq) hm)] at h1
  simpa using h1

end Expreduce
