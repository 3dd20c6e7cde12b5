import Verif.Proofs.SolveSub

/-! `ReplaceAll` with one rule keeps the meaning, if the rule does. -/

namespace Expreduce
open Ex

section
variable {A : Type _} {M : Meaning A} {R : A → A → Prop} {H : String → Prop} {env : MEnv} {m : Nat} {lhs rhs : Ex} {F : Ex → Ex}

/-- What the rule does at the expression `a`: if it applies, directly or to some of the arguments of a `Flat` function, the result, with the
calls in it computed by `F`, has a related value. -/
structure RuleAt (M : Meaning A) (R : A → A → Prop) (env : MEnv) (m : Nat) (lhs rhs : Ex) (F : Ex → Ex) (a : Ex) : Prop where
  hit : ∀ q, isMatchQ env m a lhs [] = some (true, q) → List.Forall₂ R (M.argVals a) (M.argVals (F (replacePD rhs q)))
  flat : ∀ s as largs q, a = .expr (.sym s :: as) → lhs = .expr (.sym s :: largs) → env.flat s = true →
    isMatchQ env m a (looseLHS (env.orderless s) (.sym s) largs) [] = some (true, q) →
    List.Forall₂ R (M.argVals a) (M.argVals (F (replacePD (looseRHS (env.orderless s) (.sym s) rhs) q)))

theorem forall₂_refl (h : ∀ x, R x x) : ∀ l : List A, List.Forall₂ R l l
  | [] => .nil
  | a :: l => .cons (h a) (forall₂_refl h l)

theorem replaceAll_keeps (hrefl : ∀ x, R x x) (hmono : ∀ s, H s → ∀ xs ys, List.Forall₂ R xs ys → R (M.op s xs) (M.op s ys))
    (hF : ∀ e, Frag H e → F e = e) (happ : ∀ s qs, H s → F (.expr (.sym s :: qs)) = .expr (.sym s :: qs.map F))
 :
    ∀ n (e e' : Ex), sizeOf e < n → Frag H e → (∀ s q, .sym s ∈ pieces e → isMatchQ env m (.sym s) lhs [] ≠ some (true, q)) → (∀ a ∈ pieces e, RuleAt M R env m lhs rhs F a) → replaceAll env m "" lhs rhs e = some e' →
      List.Forall₂ R (M.argVals e) (M.argVals (F e')) := by
  intro n
  induction n with
  | zero => intro e _ h; omega
  | succ n ih =>
    intro e e' hn hf hsym hr h
    have hself := hr e (pieces_self e)
    have stay : List.Forall₂ R (M.argVals e) (M.argVals (F e)) := by rw [hF e hf]; exact forall₂_refl hrefl _
    have atom : isAtom e = true → List.Forall₂ R (M.argVals e) (M.argVals (F e')) := by
      intro ha
      rw [replaceAll_atom ha] at h
      unfold hitOr at h
      split at h
      · cases h
      · rename_i q hq
        cases h
        exact hself.hit q hq
      · cases h; exact stay
    cases hf with
    | sym s => exact atom rfl
    | str s => exact atom rfl
    | int k => exact atom rfl
    | rat _ => exact atom rfl
    | cplx _ _ _ => exact atom rfl
    | @app s args hs hargs =>
      rw [replaceAll] at h
      split at h
      · cases h; exact stay
      · rename_i hnh
        cases hm : isMatchQ env m (.expr (.sym s :: args)) lhs [] with
        | none => rw [hm] at h; cases h
        | some r =>
          obtain ⟨b, q⟩ := r
          rw [hm] at h
          cases b with
          | true =>
            simp only [Option.some.injEq] at h
            subst h
            exact hself.hit q hm
          | false =>
            simp only at h
            cases hc : flatCase env (.sym s :: args) lhs with
            | some r =>
              obtain ⟨t, largs⟩ := r
              rw [hc] at h
              simp only at h
              unfold flatCase at hc
              split at hc
              · rename_i s' _ t' largs' heq hl
                split at hc
                · rename_i hst
                  obtain ⟨rfl, hfl⟩ := hst
                  cases hc
                  unfold flatReplace at h
                  split at h
                  · cases h
                  · rename_i q' hq'
                    cases h
                    simp only [List.cons.injEq, Ex.sym.injEq] at hl
                    obtain ⟨rfl, rfl⟩ := hl
                    exact hself.flat _ _ _ q' rfl rfl hfl hq'
                  · cases h; exact stay
                · cases hc
              · cases hc
            | none =>
              rw [hc] at h
              simp only at h
              split at h
              · cases h
              · rename_i qs hq
                simp only [Option.some.injEq] at h
                subst h
                unfold keepIfSame
                split
                · rename_i hsame
                  rw [replaceAllL] at hq
                  split at hq
                  · rename_i q0 qs0 h0 h1
                    cases hq
                    have hq0 : q0 = .sym s := by
                      rw [replaceAll_atom rfl] at h0
                      unfold hitOr at h0
                      split at h0
                      · cases h0
                      · rename_i q' hq'
                        exact absurd hq' (hsym s q' (pieces_arg (by simp) (pieces_self _)))
                      · cases h0; rfl
                    subst hq0
                    have hall : List.Forall₂ R (M.vals args) (M.vals (qs0.map F)) := by
                      have hsz : ∀ a ∈ args, sizeOf a < n := by
                        intro a ha
                        have := List.sizeOf_lt_of_mem ha
                        simp only [Ex.expr.sizeOf_spec, List.cons.sizeOf_spec] at hn
                        omega
                      have hss : ∀ a ∈ args, ∀ s q, .sym s ∈ pieces a → isMatchQ env m (.sym s) lhs [] ≠ some (true, q) := fun a ha s q hb => hsym s q (pieces_arg (by simp [ha]) hb)
                      have hrr : ∀ a ∈ args, ∀ b ∈ pieces a, RuleAt M R env m lhs rhs F b := fun a ha b hb => hr b (pieces_arg (by simp [ha]) hb)
                      clear hn hr hsym hself stay atom hm h0 hc hnh hsame
                      clear hs
                      induction args generalizing qs0 with
                      | nil =>
                        rw [replaceAllL] at h1
                        cases h1
                        simp [Meaning.vals_nil]
                      | cons a args ih' =>
                        rw [replaceAllL] at h1
                        split at h1
                        · rename_i a' as' ha' has'
                          cases h1
                          rw [List.map_cons, Meaning.vals_cons, Meaning.vals_cons]
                          refine List.rel_append (ih a a' (hsz a (by simp)) (hargs a (by simp)) (hss a (by simp)) (hrr a (by simp)) ha') ?_
                          exact ih' (hargs := fun b hb => hargs b (by simp [hb])) (h1 := has') (hsz := fun b hb => hsz b (by simp [hb])) (hss := fun b hb => hss b (by simp [hb])) (hrr := fun b hb => hrr b (by simp [hb]))
                        · cases h1
                    rw [happ s _ hs]
                    by_cases hq : s = "System`Sequence"
                    · subst hq
                      simpa [Meaning.argVals] using hall
                    · rw [Meaning.argVals_app hq, Meaning.argVals_app hq]
                      exact .cons (hmono s hs _ _ hall) .nil
                  · cases hq
                · exact stay

/-- A call pattern without optional arguments does not match a symbol. -/
theorem matches_symbol {L : String → Prop} {P U T : Ex → Prop} (hD : Distinct env L P U T) {ρ : String → Option Ex} {s t : String} {ps : List Ex} (hs : s ∉ specialHeads)
    (hP : ∀ q ∈ subexprs (.expr (.sym s :: ps)), P q) (hU : U (.sym t)) (hopt : ps.any isOptional = false) (hm : Matches env ρ (.expr (.sym s :: ps)) (.sym t)) : False := by
  have hsp : ∀ t, t ∈ specialHeads → s ≠ t := fun t ht => special_ne hs ht
  generalize hb : Ex.expr (.sym s :: ps) = q at hm
  generalize ha : Ex.sym t = a at hm
  cases hm with
  | lit g => subst hb; simp [isAtom] at g
  | blank g =>
    simp only [Ex.expr.injEq, List.cons.injEq, Ex.sym.injEq] at hb
    obtain ⟨rfl, _⟩ := hb
    exact absurd rfl (hsp s (by simp [specialHeads, g]))
  | named =>
    simp only [S, Ex.expr.injEq, List.cons.injEq, Ex.sym.injEq] at hb
    exact absurd hb.1 (hsp _ (by decide))
  | same g1 g2 g3 => subst ha; simp [partsOf] at g3
  | diff g1 g2 => subst ha; simp [partsOf] at *
  | clash g1 g2 g3 g4 g5 =>
    subst ha
    have := hD.inj _ _ (hD.whole _ hU) (hD.pat _ (hP _ (by rw [hb]; exact subexprs_self _))) g5
    rw [← hb] at this
    cases this
  | @assumed s' ps' _ g1 g2 g3 =>
    simp only [Ex.expr.injEq, List.cons.injEq, Ex.sym.injEq] at hb
    obtain ⟨rfl, rfl⟩ := hb
    simp [headOmitted, hopt] at g2
  | verb => simp at hb
  | verbClash => simp at hb
  | alt =>
    simp only [S, Ex.expr.injEq, List.cons.injEq, Ex.sym.injEq] at hb
    exact absurd hb.1 (hsp _ (by decide))
  | test =>
    simp only [S, Ex.expr.injEq, List.cons.injEq, Ex.sym.injEq] at hb
    exact absurd hb.1 (hsp _ (by decide))
  | hold =>
    simp only [S, Ex.expr.injEq, List.cons.injEq, Ex.sym.injEq] at hb
    exact absurd hb.1 (hsp _ (by decide))

end

end Expreduce
