import Verif.Spec.Meaning
import Verif.Proofs.MatchInst
import Mathlib.Data.List.Sort

/-! A match keeps the meaning: the filled-in pattern has the value of the expression. -/

namespace Expreduce
open Ex

namespace Meaning
variable {A : Type _} {M : Meaning A}

theorem vals_nil : M.vals [] = [] := by simp [vals]
theorem vals_cons (e : Ex) (es : List Ex) : M.vals (e :: es) = M.argVals e ++ M.vals es := by simp [vals]

theorem vals_append (as bs : List Ex) : M.vals (as ++ bs) = M.vals as ++ M.vals bs := by
  induction as with
  | nil => simp [vals_nil]
  | cons a as ih => simp [vals_cons, ih]

theorem vals_flatten (l : List (List Ex)) : M.vals l.flatten = (l.map M.vals).flatten := by
  induction l with
  | nil => simp [vals_nil]
  | cons a as ih => simp [vals_append, ih]

theorem vals_perm {as bs : List Ex} (h : as.Perm bs) : (M.vals as).Perm (M.vals bs) := by
  induction h with
  | nil => exact List.Perm.refl _
  | cons a _ ih => simp only [vals_cons]; exact ih.append_left _
  | swap a b l =>
    simp only [vals_cons, ← List.append_assoc]
    exact List.Perm.append_right _ List.perm_append_comm
  | trans _ _ ih1 ih2 => exact ih1.trans ih2

theorem argVals_app {s : String} {as : List Ex} (hs : s ≠ "System`Sequence") : M.argVals (.expr (.sym s :: as)) = [M.op s (M.vals as)] := by
  rw [argVals, if_neg hs]

theorem argVals_seq {as : List Ex} : M.argVals (.expr (S "Sequence" :: as)) = M.vals as := by
  rw [S, argVals]; simp

/-- An expression that is not `Sequence[...]` contributes its value. -/
theorem argVals_eq (e : Ex) (h : hasHead "System`Sequence" e = false) : M.argVals e = [M.val e] := by
  cases e with
  | expr ps =>
    rcases ps with _ | ⟨h0, as⟩
    · simp [argVals, val]
    · cases h0 with
      | sym s => rw [argVals_app (by rintro rfl; simp [hasHead] at h), val]
      | _ => simp [argVals, val]
  | _ => simp [argVals, val]

/-- An expression with the parts `s, as`, where `s` is not `Sequence`, contributes the value of `s[as]`. -/
theorem argVals_parts {a : Ex} {s : String} {as : List Ex} (hs : s ≠ "System`Sequence") (h : partsOf a = some (.sym s :: as)) :
    M.argVals a = [M.op s (M.vals as)] := by
  unfold partsOf at h
  split at h
  · simp only [Option.some.injEq] at h; subst h; exact argVals_app hs
  · simp only [Option.some.injEq, List.cons.injEq, S, Ex.sym.injEq] at h
    obtain ⟨rfl, rfl⟩ := h
    simp [argVals, vals]
  · simp only [Option.some.injEq, List.cons.injEq, S, Ex.sym.injEq] at h
    obtain ⟨rfl, rfl⟩ := h
    simp [argVals, vals]
  · simp at h

end Meaning

theorem partsOf_opened (a : Ex) : ∀ ps, partsOf a = some ps → partsOf (opened a) = some ps := by
  intro ps h
  unfold opened
  rw [h]; rfl

theorem argVals_opened {A : Type _} {M : Meaning A} (a : Ex) : M.argVals (opened a) = M.argVals a := by
  cases a with
  | rat n d => simp [opened, partsOf, S, Meaning.argVals, Meaning.vals]
  | cplx n d => simp [opened, partsOf, S, Meaning.argVals, Meaning.vals]
  | _ => rfl

theorem bodyShape_facts (flat : Bool) (h : String) (p : Ex) :
    (bodyShape flat h p).name = none ∧ (bodyShape flat h p).absent = none ∧
      ((bodyShape flat h p).wrap = S "Sequence" ∨ flat = true ∧ (bodyShape flat h p).wrap = .sym h) := by
  unfold bodyShape
  repeat' split
  all_goals simp_all

theorem namedShape_facts (flat : Bool) (h : String) (p : Ex) :
    (namedShape flat h p).name = coreName p ∧ (namedShape flat h p).absent = none ∧
      ((namedShape flat h p).wrap = S "Sequence" ∨ flat = true ∧ (namedShape flat h p).wrap = .sym h) := by
  unfold namedShape coreName
  have := bodyShape_facts flat h
  repeat' split
  all_goals simp_all

theorem testShape_facts (flat : Bool) (h : String) (p : Ex) :
    (testShape flat h p).name = testName p ∧ (testShape flat h p).absent = none ∧
      ((testShape flat h p).wrap = S "Sequence" ∨ flat = true ∧ (testShape flat h p).wrap = .sym h) := by
  unfold testShape testName
  have := namedShape_facts flat h
  repeat' split
  all_goals simp_all

theorem optBody_facts (d : Option Ex) (flat : Bool) (h : String) (t : Bool) (p : Ex) :
    (optBody d flat h t p).name = none ∧ (optBody d flat h t p).absent = d ∧
      ((optBody d flat h t p).wrap = S "Sequence" ∨ flat = true ∧ (optBody d flat h t p).wrap = .sym h) := by
  unfold optBody
  refine ⟨rfl, rfl, ?_⟩
  simp only
  cases flat <;> cases isBlank p <;> simp

theorem optNamed_facts (d : Option Ex) (flat : Bool) (h : String) (t : Bool) (p : Ex) :
    (optNamed d flat h t p).name = coreName p ∧ (optNamed d flat h t p).absent = d ∧
      ((optNamed d flat h t p).wrap = S "Sequence" ∨ flat = true ∧ (optNamed d flat h t p).wrap = .sym h) := by
  unfold optNamed coreName
  have := optBody_facts d flat h t
  repeat' split
  all_goals simp_all

theorem optShape_facts (d : Option Ex) (flat : Bool) (h : String) (p : Ex) :
    (optShape d flat h p).name = testName p ∧ (optShape d flat h p).absent = d ∧
      ((optShape d flat h p).wrap = S "Sequence" ∨ flat = true ∧ (optShape d flat h p).wrap = .sym h) := by
  unfold optShape testName
  have := optNamed_facts d flat h
  repeat' split
  all_goals simp_all

theorem blankHead_self {p h : Ex} (hh : blankHead p = some h) : h ∈ subexprs p := by
  unfold blankHead at hh
  split at hh
  · split at hh
    · simp only [Option.some.injEq] at hh; subst hh
      simp [subexprs, subexprsL, subexprs_self]
    · simp at hh
  · split at hh
    · simp only [Option.some.injEq] at hh; subst hh
      simp [subexprs, subexprsL, subexprs_self]
    · simp at hh
  · simp at hh

theorem blankHead_test {q t h : Ex} (hh : blankHead (.expr [S "PatternTest", q, t]) = some h) : blankHead q = some h := by
  unfold blankHead at hh
  split at hh
  · simp_all
  · rename_i heq
    simp only [Ex.expr.injEq, List.cons.injEq] at heq
    obtain ⟨_, rfl, _⟩ := heq
    split at hh
    · rename_i hs
      obtain ⟨_, rfl⟩ := hs
      simpa [blankHead] using hh
    · simp at hh
  · simp at hh

theorem blankHead_take {args : List Ex} {s : String} {h : Ex} (hh : blankHead (.expr (S "Blank" :: args.take 1)) = some h) :
    h ∈ subexprs (.expr (.sym s :: args)) := by
  rcases args with _ | ⟨a, args⟩
  · simp [blankHead] at hh
  · simp only [List.take_succ_cons, List.take_zero, blankHead, S] at hh
    simp only [String.reduceAppend, if_true, Option.some.injEq] at hh
    subst hh
    simp [subexprs, subexprsL, subexprs_self]

theorem subexprs_arg {q h x : Ex} {ps : List Ex} (hq : q ∈ ps) (hh : h ∈ subexprs q) : h ∈ subexprs (.expr (x :: ps)) := by
  simp only [subexprs]
  exact List.mem_cons_of_mem _ (mem_subexprsL (List.mem_cons_of_mem _ hq) hh)

theorem bodyShape_head {flat : Bool} {hd : String} {p h : Ex} (hh : blankHead (bodyShape flat hd p).elem = some h) : h ∈ subexprs p := by
  unfold bodyShape at hh
  split at hh
  · rename_i s args
    split at hh
    · exact blankHead_take hh
    · split at hh
      · exact blankHead_take hh
      · split at hh
        · split at hh
          · split at hh
            · split at hh
              · simp [blankHead] at hh
              · exact blankHead_self hh
            · exact blankHead_self hh
          · exact blankHead_self hh
        · split at hh
          · split at hh
            · exact subexprs_arg (by simp) (blankHead_self hh)
            · exact blankHead_self hh
          · split at hh
            · split at hh
              · exact subexprs_arg (by simp) (blankHead_self hh)
              · split at hh
                · exact subexprs_arg (by simp) (blankHead_self hh)
                · exact blankHead_self hh
              · exact blankHead_self hh
            · exact blankHead_self hh
  · exact blankHead_self hh

theorem namedShape_head {flat : Bool} {hd : String} {p h : Ex} (hh : blankHead (namedShape flat hd p).elem = some h) : h ∈ subexprs p := by
  unfold namedShape at hh
  split at hh
  · split at hh
    · exact subexprs_arg (by simp) (bodyShape_head hh)
    · exact bodyShape_head hh
  · exact bodyShape_head hh

theorem testShape_head {flat : Bool} {hd : String} {p h : Ex} (hh : blankHead (testShape flat hd p).elem = some h) : h ∈ subexprs p := by
  unfold testShape at hh
  split at hh
  · split at hh
    · exact subexprs_arg (by simp) (namedShape_head (blankHead_test hh))
    · exact namedShape_head hh
  · exact namedShape_head hh

theorem optNamed_head {d : Option Ex} {flat t : Bool} {hd : String} {p h : Ex} (hh : blankHead (optNamed d flat hd t p).elem = some h) : h ∈ subexprs p := by
  unfold optNamed at hh
  split at hh
  · split at hh
    · exact subexprs_arg (List.mem_cons_of_mem _ (List.mem_singleton.2 rfl)) (blankHead_self (p := _) hh)
    · exact blankHead_self hh
  · exact blankHead_self hh

theorem optShape_head {d : Option Ex} {flat : Bool} {hd : String} {p h : Ex} (hh : blankHead (optShape d flat hd p).elem = some h) : h ∈ subexprs p := by
  unfold optShape at hh
  split at hh
  · split at hh
    · exact subexprs_arg (by simp) (optNamed_head (blankHead_test hh))
    · exact optNamed_head hh
  · exact optNamed_head hh

theorem blankHead_sub {env : MEnv} {v : Bool} {s : String} {p h : Ex} (hh : blankHead (callShape env v s p).elem = some h) : h ∈ subexprs p := by
  unfold callShape shape at hh
  split at hh
  · split at hh
    · exact subexprs_arg (by simp) (optShape_head hh)
    · exact testShape_head hh
  · exact testShape_head hh

/-- The default of an argument pattern, if it is optional. -/
def ownDefault (d : Option Ex) (p : Ex) : Option Ex :=
  match p with
  | .expr (.sym s :: _ :: rest) => if s = "System`Optional" then rest.head?.or d else none
  | _ => none

theorem shape_facts (d : Option Ex) (flat : Bool) (h : String) (p : Ex) :
    (shape d flat h p).name = argName p ∧ (shape d flat h p).absent = ownDefault d p ∧
      ((shape d flat h p).wrap = S "Sequence" ∨ flat = true ∧ (shape d flat h p).wrap = .sym h) := by
  unfold shape argName ownDefault
  have h1 := testShape_facts flat h
  have h2 := fun d => optShape_facts d flat h
  repeat' split
  all_goals simp_all

theorem ownDefault_eq {d : Option Ex} {p e : Ex} (h : noOwnDefault p = true) (he : ownDefault d p = some e) : d = some e ∧ isOptional p = true := by
  unfold ownDefault at he
  split at he
  · rename_i s q rest
    split at he
    · rename_i hs
      subst hs
      rcases rest with _ | ⟨r, rest⟩
      · simpa [isOptional] using he
      · simp [noOwnDefault] at h
    · simp at he
  · simp at he

/-- The value of the name of an argument pattern can take the place of the arguments it stands for. -/
theorem named_block {A : Type _} {M : Meaning A} {env : MEnv} {s : String} (hL : M.Lawful env s) (hs : s ≠ "System`Sequence") {flat : Bool}
    (hf : flat = true → env.flat s = true) {p : Ex} (hp : noOwnDefault p = true) (cs : List Ex) (X Y : List A)
    (ho : isOptional p = true → Y = [] ∨ env.orderless s = true) (b : Bool) :
    M.op s (X ++ (M.argVals ((shape (env.dflt s) flat s p).value b cs) ++ Y)) = M.op s (X ++ (M.vals cs ++ Y)) := by
  obtain ⟨_, h2, h3⟩ := shape_facts (env.dflt s) flat s p
  have hw : ∀ cs, M.op s (X ++ (M.argVals (.expr ((shape (env.dflt s) flat s p).wrap :: cs)) ++ Y)) = M.op s (X ++ (M.vals cs ++ Y)) := by
    intro cs
    rcases h3 with h3 | ⟨h3, h4⟩
    · rw [h3, Meaning.argVals_seq]
    · rw [h4, Meaning.argVals_app hs, List.singleton_append]
      exact hL.flat (hf h3) _ _ _
  unfold Shape.value
  split
  · rw [h2]
    cases hd : ownDefault (env.dflt s) p with
    | none => exact hw []
    | some e =>
      obtain ⟨h5, h6⟩ := ownDefault_eq hp hd
      have key := hL.dflt e h5
      simp only [Option.getD_some, Meaning.vals_nil, List.nil_append]
      rcases ho h6 with rfl | h7
      · rw [List.append_nil, List.append_nil]; exact key X
      · rw [← key (X ++ Y), List.append_assoc]
        exact hL.comm h7 _ _ (List.Perm.append_left _ List.perm_append_comm)
  · rename_i x
    split
    · simp [Meaning.vals_cons, Meaning.vals_nil]
    · exact hw [x]
  · exact hw _

/-- What is left to show for an argument pattern and the arguments it takes. -/
def Block {A : Type _} (M : Meaning A) (env : MEnv) (s : String) (ρ : String → Option Ex) (p : Ex) (cs : List Ex) : Prop :=
  ∀ X Y, (isOptional p = true → Y = [] ∨ env.orderless s = true) → M.op s (X ++ (M.argVals (fill ρ p) ++ Y)) = M.op s (X ++ (M.vals cs ++ Y))

theorem blocks_eq {A : Type _} {M : Meaning A} {env : MEnv} {s : String} {ρ : String → Option Ex} : ∀ {ps : List Ex} {CS : List (List Ex)},
    List.Forall₂ (Block M env s ρ) ps CS → (env.orderless s = true ∨ ∀ p ∈ ps.dropLast, isOptional p = false) → ∀ X,
    M.op s (X ++ M.vals (fillL ρ ps)) = M.op s (X ++ M.vals CS.flatten) := by
  intro ps CS h
  induction h with
  | nil => intro _ X; simp [fillL, Meaning.vals_nil]
  | @cons p cs ps CS h1 _ ih =>
    intro ho X
    rw [fillL, Meaning.vals_cons, List.flatten_cons, Meaning.vals_append, h1 X _ ?_, ← List.append_assoc, ← List.append_assoc]
    · refine ih ?_ _
      rcases ho with ho | ho
      · exact Or.inl ho
      · refine Or.inr (fun q hq => ho q ?_)
        rcases ps with _ | ⟨p', ps⟩
        · simp at hq
        · simp only [List.dropLast_cons₂, List.mem_cons]; exact Or.inr hq
    · intro hopt
      rcases ho with ho | ho
      · exact Or.inr ho
      · rcases ps with _ | ⟨p', ps⟩
        · left; simp [fillL, Meaning.vals_nil]
        · exact absurd (ho p (by simp)) (by simp [hopt])

theorem picks_flatten (as : List Ex) (L : List (List Nat)) : (L.map (fun is => is.filterMap (as[·]?))).flatten = L.flatten.filterMap (as[·]?) := by
  induction L with
  | nil => rfl
  | cons is L ih => rw [List.map_cons, List.flatten_cons, List.flatten_cons, List.filterMap_append, ih]

theorem picks_all (l : List Ex) : (List.range l.length).filterMap (l[·]?) = l := by
  induction l with
  | nil => rfl
  | cons a l ih =>
    rw [List.length_cons, List.range_succ_eq_map, List.filterMap_cons]
    simp only [List.getElem?_cons_zero, List.filterMap_map]
    have : ((fun i => (a :: l)[i]?) ∘ Nat.succ) = (fun i => l[i]?) := by funext i; simp
    rw [this, ih]

theorem pick_sublist {as : List Ex} {is : List Nat} (h : is.Pairwise (· < ·)) (hb : ∀ i ∈ is, i < as.length) :
    (is.filterMap (as[·]?)).Sublist as := by
  have h1 : is.Sublist (List.range as.length) := by
    refine List.sublist_of_subperm_of_pairwise ?_ (r := (· ≤ ·)) (h.imp le_of_lt) ((List.pairwise_lt_range).imp le_of_lt)
    exact List.subperm_of_subset (h.imp ne_of_lt) (fun i hi => List.mem_range.2 (hb i hi))
  have := h1.filterMap (as[·]?)
  rwa [picks_all] at this

theorem layout_mem {o : Bool} {l : Nat} {A : List (List Nat)} (h : Layout o l A) {is : List Nat} (hi : is ∈ A) : is.Pairwise (· < ·) ∧ ∀ i ∈ is, i < l := by
  unfold Layout at h
  split at h
  · refine ⟨h.2 is hi, fun i hx => ?_⟩
    exact List.mem_range.1 (h.1.mem_iff.1 (List.mem_flatten.2 ⟨is, hi, hx⟩))
  · constructor
    · have := List.pairwise_lt_range (n := l)
      rw [← h] at this
      exact (List.pairwise_flatten.1 this).1 is hi
    · intro i hx
      have : i ∈ A.flatten := List.mem_flatten.2 ⟨is, hi, hx⟩
      rw [h] at this
      exact List.mem_range.1 this

theorem layout_vals {A' : Type _} {M : Meaning A'} {env : MEnv} {s : String} (hL : M.Lawful env s) {o : Bool} (ho : o = true → env.orderless s = true)
    {as : List Ex} {A : List (List Nat)} (h : Layout o as.length A) :
    M.op s (M.vals (A.map (fun is => is.filterMap (as[·]?))).flatten) = M.op s (M.vals as) := by
  rw [picks_flatten]
  unfold Layout at h
  split at h
  · refine hL.comm (ho ‹_›) _ _ (Meaning.vals_perm ?_)
    have := h.1.filterMap (as[·]?)
    rwa [picks_all] at this
  · rw [h, picks_all]

/-- The arguments of a call: if every unnamed argument pattern keeps the meaning, so does the call. -/
theorem call_eq {A' : Type _} {M : Meaning A'} {env : MEnv} {s : String} (hL : M.Lawful env s) (hs : s ≠ "System`Sequence") {flat o : Bool}
    (hf : flat = true → env.flat s = true) (ho : o = true → env.orderless s = true) {ρ : String → Option Ex} {ps as : List Ex}
    (hown : ∀ p ∈ ps, noOwnDefault p = true) (hopt : env.orderless s = true ∨ ∀ p ∈ ps.dropLast, isOptional p = false)
    (hone : ∀ p ∈ ps, argName p = none → shape (env.dflt s) flat s p = ⟨1, 1, p, none, false, S "Sequence", none⟩ ∧
      ∀ c ∈ as, Matches env ρ p c → M.argVals (fill ρ p) = M.argVals c)
    (hval : ∀ p ∈ ps, ∀ cs v, cs.Sublist as → (∃ x, ρ x = some v) → isSameQ v ((shape (env.dflt s) flat s p).value (env.oneIdentity s) cs) = true →
      v = (shape (env.dflt s) flat s p).value (env.oneIdentity s) cs)
    {A : List (List Nat)} (h1 : A.length = ps.length) (h2 : Layout o as.length A)
    (h3 : ∀ (j : Nat) p is, ps[j]? = some p → A[j]? = some is →
        (shape (env.dflt s) flat s p).lo ≤ is.length ∧ (is.length : Int) ≤ (shape (env.dflt s) flat s p).hi)
    (h4 : ∀ (j : Nat) p is (i : Nat) c, ps[j]? = some p → A[j]? = some is → i ∈ is → as[i]? = some c →
        Matches env ρ (shape (env.dflt s) flat s p).elem c)
    (h5 : ∀ (j : Nat) p is x, ps[j]? = some p → A[j]? = some is → (shape (env.dflt s) flat s p).name = some x →
        ∃ v, ρ x = some v ∧ isSameQ v ((shape (env.dflt s) flat s p).value (env.oneIdentity s) (is.filterMap (as[·]?))) = true) :
    M.op s (M.vals (fillL ρ ps)) = M.op s (M.vals as) := by
  rw [← layout_vals hL ho h2]
  refine blocks_eq (X := []) (?_ : List.Forall₂ (Block M env s ρ) ps (A.map _)) hopt
  rw [List.forall₂_iff_get]
  refine ⟨by simp [h1], ?_⟩
  intro j hj hj'
  have hjA : j < A.length := by rw [h1]; exact hj
  have e1 : ps[j]? = some ps[j] := List.getElem?_eq_getElem hj
  have e2 : A[j]? = some A[j] := List.getElem?_eq_getElem hjA
  simp only [List.get_eq_getElem, List.getElem_map]
  obtain ⟨hpw, hlt⟩ := layout_mem h2 (List.getElem_mem hjA)
  have hmem := List.getElem_mem hj
  generalize hp : ps[j] = p at *
  generalize his : A[j] = is at *
  intro X Y hoY
  cases hn : argName p with
  | some x =>
    obtain ⟨v, hv, hsame⟩ := h5 j p is x e1 e2 (by rw [(shape_facts _ _ _ _).1, hn])
    have := hval p hmem _ v (pick_sublist hpw hlt) ⟨x, hv⟩ hsame
    have hfill : fill ρ p = v := by
      unfold fill; rw [hn]; simp [hv]
    rw [hfill, this]
    exact named_block hL hs hf (hown p hmem) _ X Y hoY _
  | none =>
    obtain ⟨hsh, hkeep⟩ := hone p hmem hn
    have hlen := h3 j p is e1 e2
    rw [hsh] at hlen
    obtain ⟨i, rfl⟩ := List.length_eq_one_iff.1 (show is.length = 1 by simp only at hlen; omega)
    have hi : i < as.length := hlt i (by simp)
    have e3 : as[i]? = some as[i] := List.getElem?_eq_getElem hi
    have hm := h4 j p [i] i as[i] e1 e2 (by simp) e3
    rw [hsh] at hm
    rw [hkeep _ (List.getElem_mem hi) hm]
    have : [i].filterMap (as[·]?) = [as[i]] := by simp [e3]
    rw [this, Meaning.vals_cons, Meaning.vals_nil, List.append_nil]

theorem special_ne {s t : String} (hs : s ∉ specialHeads) (ht : t ∈ specialHeads) : s ≠ t := by rintro rfl; exact hs ht

theorem bodyShape_app {s : String} {ps : List Ex} (hs : s ∉ specialHeads) (flat : Bool) (h : String) :
    bodyShape flat h (.expr (.sym s :: ps)) = ⟨1, 1, .expr (.sym s :: ps), none, false, S "Sequence", none⟩ := by
  have n1 := special_ne hs (t := "System`BlankNullSequence") (by decide)
  have n2 := special_ne hs (t := "System`BlankSequence") (by decide)
  have n3 := special_ne hs (t := "System`Blank") (by decide)
  have n4 := special_ne hs (t := "System`RepeatedNull") (by decide)
  have n5 := special_ne hs (t := "System`Repeated") (by decide)
  unfold bodyShape
  simp only [n1, n2, n3, n4, n5, if_false]

theorem bodyShape_fpat {env : MEnv} {L : String → Prop} {p : Ex} (hp : FPat env L p) (hn : coreName p = none) (flat : Bool) (h : String) :
    bodyShape flat h p = ⟨1, 1, p, none, false, S "Sequence", none⟩ := by
  cases hp with
  | atom h1 =>
    cases p with
    | expr _ => simp [isAtom] at h1
    | _ => rfl
  | named x h1 => simp [coreName, S] at hn
  | test t h1 => simp [bodyShape, S]
  | hold h1 => simp [bodyShape, S]
  | app h1 h2 => exact bodyShape_app h2 _ _
  | verb h1 h2 => rfl

theorem namedShape_of {p : Ex} (hn : coreName p = none) (flat : Bool) (h : String) : namedShape flat h p = bodyShape flat h p := by
  unfold namedShape
  unfold coreName at hn
  repeat' split
  all_goals simp_all

theorem testShape_fpat {env : MEnv} {L : String → Prop} {p : Ex} (hp : FPat env L p) (hn : testName p = none) (flat : Bool) (h : String) :
    testShape flat h p = ⟨1, 1, p, none, false, S "Sequence", none⟩ := by
  have key : coreName p = none → testShape flat h p = namedShape flat h p → testShape flat h p = ⟨1, 1, p, none, false, S "Sequence", none⟩ := by
    intro h1 h2
    rw [h2, namedShape_of h1, bodyShape_fpat hp h1]
  cases hp with
  | atom h1 =>
    cases p with
    | expr _ => simp [isAtom] at h1
    | _ => rfl
  | named x h1 => simp [testName, coreName, S] at hn
  | @test q t h1 =>
    have hq : coreName q = none := by simpa [testName, S] using hn
    unfold testShape
    simp only [S]
    rw [if_pos (by decide), namedShape_of hq, bodyShape_fpat h1 hq]
    rfl
  | hold h1 => exact key (by simp [coreName]) (by simp [testShape])
  | @app s ps h1 h2 =>
    have n1 := special_ne h2 (t := "System`PatternTest") (by decide)
    have n2 := special_ne h2 (t := "System`Pattern") (by decide)
    refine key ?_ ?_
    · unfold coreName; split <;> simp_all
    · unfold testShape; split <;> simp_all
  | verb h1 h2 =>
    refine key ?_ ?_
    · unfold coreName; split <;> simp_all
    · unfold testShape; split <;> simp_all

theorem shape_fpat {env : MEnv} {L : String → Prop} {p : Ex} (hp : FPat env L p) (hn : argName p = none) (d : Option Ex) (flat : Bool) (h : String) :
    shape d flat h p = ⟨1, 1, p, none, false, S "Sequence", none⟩ := by
  have hno : ∀ q rest, p ≠ .expr (.sym "System`Optional" :: q :: rest) := by
    intro q rest e
    cases hp with
    | atom h1 => subst e; simp [isAtom] at h1
    | named => simp [S] at e
    | test => simp [S] at e
    | hold => simp [S] at e
    | app _ h2 =>
      simp only [Ex.expr.injEq, List.cons.injEq, Ex.sym.injEq] at e
      rw [e.1] at h2
      exact h2 (by decide)
    | verb => simp at e
  have h1 : testName p = none := by
    unfold argName at hn
    split at hn
    · split at hn
      · rename_i e; subst e; exact absurd rfl (hno _ _)
      · exact hn
    · exact hn
  rw [← testShape_fpat hp h1 flat h]
  unfold shape
  split
  · split
    · rename_i e; subst e; exact absurd rfl (hno _ _)
    · rfl
  · rfl

section
variable {A' : Type _} {M : Meaning A'} {env : MEnv} {L : String → Prop} {P U T : Ex → Prop}

theorem shape_value_T (hD : Distinct env L P U T) {s : String} {as : List Ex} (hs : L s) (hU : ∀ x ∈ as, U x)
    (hT : ∀ cs : List Ex, cs.Sublist as → T (.expr (.sym s :: cs)) ∧ T (.expr (S "Sequence" :: cs))) {flat : Bool} {p : Ex} (hp : noOwnDefault p = true)
    {cs : List Ex} (hc : cs.Sublist as) (b : Bool) : T ((shape (env.dflt s) flat s p).value b cs) := by
  obtain ⟨_, h2, h3⟩ := shape_facts (env.dflt s) flat s p
  have hw : ∀ cs : List Ex, cs.Sublist as → T (.expr ((shape (env.dflt s) flat s p).wrap :: cs)) := by
    intro cs hc
    rcases h3 with h3 | ⟨_, h3⟩
    · rw [h3]; exact (hT cs hc).2
    · rw [h3]; exact (hT cs hc).1
  unfold Shape.value
  split
  · rw [h2]
    cases hd : ownDefault (env.dflt s) p with
    | none => exact hw _ hc
    | some e => exact hD.dflt s e hs (ownDefault_eq hp hd).1
  · split
    · exact hD.whole _ (hU _ (hc.subset (by simp)))
    · exact hw _ hc
  · exact hw _ hc

theorem matches_sym (hD : Distinct env L P U T) {ρ : String → Option Ex} {s : String} {a : Ex} (hU : U a) (hP : P (.sym s))
    (h : Matches env ρ (.sym s) a) : a = .sym s := by
  cases h with
  | lit _ _ h => exact hD.inj _ _ (hD.whole _ hU) (hD.pat _ hP) h

/-- A head of one argument, first in the list, stands for the first part. -/
theorem first_elem {ρ : String → Option Ex} {h : Ex} {ps as : List Ex} {A : List (List Nat)} (h4 : A.length = (h :: ps).length) (h5 : Layout false as.length A)
    {sh : Ex → Shape} (hsh : sh h = ⟨1, 1, h, none, false, S "Sequence", none⟩)
    (h6 : ∀ (j : Nat) p is, (h :: ps)[j]? = some p → A[j]? = some is → (sh p).lo ≤ is.length ∧ (is.length : Int) ≤ (sh p).hi)
    (h7 : ∀ (j : Nat) p is (i : Nat) c, (h :: ps)[j]? = some p → A[j]? = some is → i ∈ is → as[i]? = some c → Matches env ρ (sh p).elem c) :
    ∃ x t, as = x :: t ∧ Matches env ρ h x := by
  obtain ⟨is, A', rfl⟩ : ∃ is A', A = is :: A' := by
    rcases A with _ | ⟨is, A'⟩
    · simp at h4
    · exact ⟨_, _, rfl⟩
  have k1 := h6 0 _ is rfl rfl
  rw [hsh] at k1
  obtain ⟨i, rfl⟩ := List.length_eq_one_iff.1 (show is.length = 1 by simp only at k1; omega)
  rcases as with _ | ⟨x, t⟩
  · simp [Layout] at h5
  · have hi : i = 0 := by
      simp only [Layout, Bool.false_eq_true, if_false, List.flatten_cons, List.length_cons, List.range_succ_eq_map, List.cons_append] at h5
      exact (List.cons.inj h5).1
    subst hi
    refine ⟨x, t, rfl, ?_⟩
    have k2 := h7 0 _ _ 0 x rfl rfl (by simp) rfl
    rw [hsh] at k2
    exact k2

theorem matches_named_inv {ρ : String → Option Ex} {x : String} {b a : Ex} (h : Matches env ρ (.expr [S "Pattern", .sym x, b]) a) :
    ∃ v, ρ x = some v ∧ isSameQ v a = true := by
  generalize hb : Ex.expr [S "Pattern", .sym x, b] = q at h
  have hsp : ∀ {s ps}, s ∉ specialHeads → Ex.expr [S "Pattern", .sym x, b] ≠ .expr (.sym s :: ps) := by
    rintro s ps hs e
    simp only [S, Ex.expr.injEq, List.cons.injEq, Ex.sym.injEq] at e
    exact hs (by rw [← e.1]; decide)
  cases h with
  | lit g => subst hb; simp [isAtom] at g
  | blank g =>
    simp only [S, Ex.expr.injEq, List.cons.injEq, Ex.sym.injEq] at hb
    rw [← hb.1] at g; exact absurd g (by decide)
  | named _ _ g1 g2 =>
    simp only [S, Ex.expr.injEq, List.cons.injEq, Ex.sym.injEq] at hb
    obtain ⟨_, rfl, _⟩ := hb
    exact ⟨_, g1, g2⟩
  | same _ g => exact absurd hb (hsp g)
  | diff _ g => cases hb; exact absurd (by decide) (g ("System`" ++ "Pattern") rfl)
  | clash _ _ g => cases hb; exact absurd (by decide) (g ("System`" ++ "Pattern") rfl)
  | assumed g => exact absurd hb (hsp g)
  | verb => simp [S] at hb
  | verbClash => simp [S] at hb
  | alt => simp [S] at hb
  | test => simp [S] at hb
  | hold => simp [S] at hb

theorem matches_test_inv {ρ : String → Option Ex} {p t a : Ex} (h : Matches env ρ (.expr [S "PatternTest", p, t]) a) :
    Matches env ρ p a := by
  generalize hb : Ex.expr [S "PatternTest", p, t] = q at h
  have hsp : ∀ {s ps}, s ∉ specialHeads → Ex.expr [S "PatternTest", p, t] ≠ .expr (.sym s :: ps) := by
    rintro s ps hs e
    simp only [S, Ex.expr.injEq, List.cons.injEq, Ex.sym.injEq] at e
    exact hs (by rw [← e.1]; decide)
  cases h with
  | lit g => subst hb; simp [isAtom] at g
  | blank g =>
    simp only [S, Ex.expr.injEq, List.cons.injEq, Ex.sym.injEq] at hb
    rw [← hb.1] at g; exact absurd g (by decide)
  | named => simp [S] at hb
  | same _ g => exact absurd hb (hsp g)
  | diff _ g => cases hb; exact absurd (by decide) (g ("System`" ++ "PatternTest") rfl)
  | clash _ _ g => cases hb; exact absurd (by decide) (g ("System`" ++ "PatternTest") rfl)
  | assumed g => exact absurd hb (hsp g)
  | verb => simp [S] at hb
  | verbClash => simp [S] at hb
  | alt => simp [S] at hb
  | test g =>
    simp only [S, Ex.expr.injEq, List.cons.injEq, true_and, and_true] at hb
    obtain ⟨rfl, rfl⟩ := hb
    exact g
  | hold => simp [S] at hb

theorem matches_blank_inv {ρ : String → Option Ex} {h a : Ex} (hm : Matches env ρ (.expr [S "Blank", h]) a) : isSameQ (headOf a) h = true := by
  generalize hb : Ex.expr [S "Blank", h] = q at hm
  have hsp : ∀ {s ps}, s ∉ specialHeads → Ex.expr [S "Blank", h] ≠ .expr (.sym s :: ps) := by
    rintro s ps hs e
    simp only [S, Ex.expr.injEq, List.cons.injEq, Ex.sym.injEq] at e
    exact hs (by rw [← e.1]; decide)
  cases hm with
  | lit g => subst hb; simp [isAtom] at g
  | blank _ g =>
    simp only [S, Ex.expr.injEq, List.cons.injEq, Ex.sym.injEq] at hb
    obtain ⟨_, rfl⟩ := hb
    exact g h (by simp)
  | named => simp [S] at hb
  | same _ g => exact absurd hb (hsp g)
  | diff _ g => cases hb; exact absurd (by decide) (g ("System`" ++ "Blank") rfl)
  | clash _ _ g => cases hb; exact absurd (by decide) (g ("System`" ++ "Blank") rfl)
  | assumed g => exact absurd hb (hsp g)
  | verb => simp [S] at hb
  | verbClash => simp [S] at hb
  | alt => simp [S] at hb
  | test => simp [S] at hb
  | hold => simp [S] at hb

theorem matches_head {ρ : String → Option Ex} {q h a : Ex} (hq : blankHead q = some h) (hm : Matches env ρ q a) : isSameQ (headOf a) h = true := by
  unfold blankHead at hq
  split at hq
  · split at hq
    · rename_i hs
      subst hs
      simp only [Option.some.injEq] at hq
      subst hq
      exact matches_blank_inv hm
    · simp at hq
  · split at hq
    · rename_i hs
      obtain ⟨rfl, rfl⟩ := hs
      simp only [Option.some.injEq] at hq
      subst hq
      exact matches_blank_inv (matches_test_inv hm)
    · simp at hq
  · simp at hq

theorem matches_hold_inv {ρ : String → Option Ex} {p a : Ex} (h : Matches env ρ (.expr [S "HoldPattern", p]) a) :
    Matches env ρ p a := by
  generalize hb : Ex.expr [S "HoldPattern", p] = q at h
  have hsp : ∀ {s ps}, s ∉ specialHeads → Ex.expr [S "HoldPattern", p] ≠ .expr (.sym s :: ps) := by
    rintro s ps hs e
    simp only [S, Ex.expr.injEq, List.cons.injEq, Ex.sym.injEq] at e
    exact hs (by rw [← e.1]; decide)
  cases h with
  | lit g => subst hb; simp [isAtom] at g
  | blank g =>
    simp only [S, Ex.expr.injEq, List.cons.injEq, Ex.sym.injEq] at hb
    rw [← hb.1] at g; exact absurd g (by decide)
  | named => simp [S] at hb
  | same _ g => exact absurd hb (hsp g)
  | diff _ g => cases hb; exact absurd (by decide) (g ("System`" ++ "HoldPattern") rfl)
  | clash _ _ g => cases hb; exact absurd (by decide) (g ("System`" ++ "HoldPattern") rfl)
  | assumed g => exact absurd hb (hsp g)
  | verb => simp [S] at hb
  | verbClash => simp [S] at hb
  | alt => simp [S] at hb
  | test => simp [S] at hb
  | hold g =>
    simp only [S, Ex.expr.injEq, List.cons.injEq, true_and, and_true] at hb
    subst hb
    exact g

theorem matches_verb_sym {ρ : String → Option Ex} {s t : String} (h : Matches env ρ (.expr [S "Verbatim", .sym s]) (.sym t)) :
    isSameQ (.sym t) (.expr [S "Verbatim", .sym s]) = true := by
  generalize hb : Ex.expr [S "Verbatim", .sym s] = q at h
  cases h with
  | lit g => subst hb; simp [isAtom] at g
  | blank g =>
    simp only [S, Ex.expr.injEq, List.cons.injEq, Ex.sym.injEq] at hb
    rw [← hb.1] at g; exact absurd g (by decide)
  | named => simp [S] at hb
  | same _ _ g => simp [partsOf] at g
  | diff _ _ g => simp [partsOf] at g
  | clash _ _ _ _ g => exact g
  | assumed _ g =>
    simp only [Ex.expr.injEq] at hb
    rw [← hb] at g
    simp [headOmitted, isOptional, S] at g
  | verb => simp [S] at hb
  | verbClash => simp [S] at hb
  | alt => simp [S] at hb
  | test => simp [S] at hb
  | hold => simp [S] at hb

theorem fill_of_core {ρ : String → Option Ex} {p : Ex} {x : String} (h : coreName p = some x) : fill ρ p = (ρ x).getD (.sym x) := by
  have : argName p = some x := by
    unfold coreName at h
    split at h
    · split at h
      · rename_i e
        subst e
        simp only [Option.some.injEq] at h
        subst h
        simp [argName, testName, coreName]
      · simp at h
    · simp at h
  unfold fill
  rw [this]

theorem fill_test (ρ : String → Option Ex) (p t : Ex) : fill ρ (.expr [S "PatternTest", p, t]) = fill ρ p := by
  have e : argName (.expr [S "PatternTest", p, t]) = coreName p := by simp [argName, testName, S]
  cases h : coreName p with
  | some x =>
    rw [fill_of_core h]
    rw [h] at e
    unfold fill; rw [e]
  | none =>
    rw [h] at e
    conv_lhs => unfold fill
    rw [e]
    simp [S]

theorem fill_hold (ρ : String → Option Ex) (p : Ex) : fill ρ (.expr [S "HoldPattern", p]) = fill ρ p := by
  have e : argName (.expr [S "HoldPattern", p]) = none := by simp [argName, testName, coreName, S]
  conv_lhs => unfold fill
  rw [e]
  simp [S]

theorem fill_app {ρ : String → Option Ex} {s : String} {ps : List Ex} (hs : s ∉ specialHeads) :
    fill ρ (.expr (.sym s :: ps)) = .expr (.sym s :: fillL ρ ps) := by
  have n1 := special_ne hs (t := "System`PatternTest") (by decide)
  have n2 := special_ne hs (t := "System`Pattern") (by decide)
  have n3 := special_ne hs (t := "System`Optional") (by decide)
  have n4 := special_ne hs (t := "System`HoldPattern") (by decide)
  have hc : coreName (.expr (.sym s :: ps)) = none := by unfold coreName; split <;> simp_all
  have ht : testName (.expr (.sym s :: ps)) = none := by unfold testName; split <;> simp_all
  have e : argName (.expr (.sym s :: ps)) = none := by unfold argName; split <;> simp_all
  unfold fill
  rw [e]
  simp [n1, n4]

theorem fill_verb {ρ : String → Option Ex} {s : String} {ps : List Ex} :
    fill ρ (.expr (.expr [S "Verbatim", .sym s] :: ps)) = .expr (.sym s :: fillL ρ ps) := by
  have e : argName (.expr (.expr [S "Verbatim", .sym s] :: ps)) = none := by simp [argName, testName, coreName]
  unfold fill
  rw [e]
  simp [S]

/-- What a match of a call of `s` with the argument patterns `ps` against `a` consists of. -/
structure CallInv (M : Meaning A') (env : MEnv) (U T : Ex → Prop) (ρ : String → Option Ex) (v : Bool) (s : String) (ps : List Ex) (a : Ex)
    (as : List Ex) (A : List (List Nat)) : Prop where
  mem : ∀ x ∈ as, U x
  groups : ∀ cs : List Ex, cs.Sublist as → T (.expr (.sym s :: cs)) ∧ T (.expr (S "Sequence" :: cs))
  len : A.length = ps.length
  layout : Layout (env.orderless s && !v) as.length A
  bounds : ∀ (j : Nat) p is, ps[j]? = some p → A[j]? = some is →
    (callShape env v s p).lo ≤ is.length ∧ (is.length : Int) ≤ (callShape env v s p).hi
  elems : ∀ (j : Nat) p is (i : Nat) c, ps[j]? = some p → A[j]? = some is → i ∈ is → as[i]? = some c → Matches env ρ (callShape env v s p).elem c
  names : ∀ (j : Nat) p is x, ps[j]? = some p → A[j]? = some is → (callShape env v s p).name = some x →
    ∃ v', ρ x = some v' ∧ isSameQ v' ((callShape env v s p).value (env.oneIdentity s) (is.filterMap (as[·]?))) = true
  value : M.argVals a = [M.op s (M.vals as)]

theorem callShape_false (env : MEnv) (s : String) (p : Ex) : callShape env false s p = shape (env.dflt s) (env.flat s) s p := by
  simp [callShape]

theorem callShape_true (env : MEnv) (s : String) (p : Ex) : callShape env true s p = shape (env.dflt s) false s p := by
  simp [callShape]

theorem app_inv (hM : ∀ s, L s → M.Lawful env s) (hD : Distinct env L P U T) {ρ : String → Option Ex} {s : String} {ps : List Ex} {a : Ex}
    (h1 : L s) (h2 : s ∉ specialHeads) (h3 : s ≠ "System`Sequence") (hP : ∀ q ∈ subexprs (.expr (.sym s :: ps)), P q) (hU : U a)
    (hm : Matches env ρ (.expr (.sym s :: ps)) a) : ∃ as A, CallInv M env U T ρ false s ps a as A := by
  have hsp : ∀ t, t ∈ specialHeads → s ≠ t := fun t ht => special_ne h2 ht
  have hPs : P (.sym s) := hP _ (by simp [subexprs, subexprsL])
  cases hm with
  | lit g => simp [isAtom] at g
  | blank g => exact absurd rfl (hsp s (by simp [specialHeads, g]))
  | named => exact absurd rfl (hsp "System`Pattern" (by decide))
  | @same _ _ as _ A g1 g2 g3 g4 g5 g6 g7 =>
    refine ⟨as, A, fun x hx => hD.part _ _ hU g2 x (by simp [hx]), fun cs hc => hD.group _ _ _ _ hU g2 hc, g3, by simpa using g4, ?_, ?_, ?_,
      Meaning.argVals_parts h3 g2⟩ <;> simpa only [callShape_false]
  | @diff _ as _ A g1 g2 g3 g3' g4 g5 g6 g7 g8 =>
    obtain ⟨x, t, rfl, hx⟩ := first_elem g4 g5 (sh := shape (env.dflt "Sequence") false "Sequence") rfl g6 g7
    have : x = .sym s := matches_sym hD (hD.part _ _ hU g2 x (by simp)) hPs hx
    subst this
    exact absurd ⟨rfl, rfl⟩ (g3 s)
  | clash g1 g2 g3 g4 g5 =>
    have := hD.inj _ _ (hD.whole _ hU) (hD.pat _ (hP _ (subexprs_self _))) g5
    subst this
    simp [isAtom] at g1
  | assumed g1 g2 g3 =>
    have hone : env.oneIdentity s = true := by
      simp only [headOmitted, Bool.and_eq_true] at g2
      exact g2.1.1.1
    cases g3 with
    | lit g => simp [isAtom] at g
    | blank g => exact absurd rfl (hsp s (by simp [specialHeads, g]))
    | @same _ _ as' _ A _ g5 g6 g7 g8 g9 g10 =>
      simp only [partsOf, Option.some.injEq, List.cons.injEq, true_and] at g5
      subst g5
      refine ⟨[opened a], A, fun x hx => by simp at hx; subst hx; exact hD.opened _ hU, fun cs hc => hD.omitted _ _ _ hU h1 hc, g6, by simpa using g7,
        ?_, ?_, ?_, ?_⟩
      · simpa only [callShape_false]
      · simpa only [callShape_false]
      · simpa only [callShape_false]
      · rw [Meaning.vals_cons, Meaning.vals_nil, List.append_nil, argVals_opened, Meaning.argVals_eq _ (hD.noSeq _ hU), (hM s h1).one hone]
    | diff A _ g5 g6 =>
      simp only [partsOf, Option.some.injEq] at g5
      subst g5
      exact absurd ⟨rfl, rfl⟩ (g6 s)
    | clash g1 => simp [isAtom] at g1
    | assumed _ g5 _ => simp [headOmitted, partsOf] at g5
    | alt => exact absurd rfl (hsp "System`Alternatives" (by decide))
    | named => exact absurd rfl (hsp "System`Pattern" (by decide))
    | test => exact absurd rfl (hsp "System`PatternTest" (by decide))
    | hold => exact absurd rfl (hsp "System`HoldPattern" (by decide))
  | alt => exact absurd rfl (hsp "System`Alternatives" (by decide))
  | test => exact absurd rfl (hsp "System`PatternTest" (by decide))
  | hold => exact absurd rfl (hsp "System`HoldPattern" (by decide))

theorem verb_inv (hD : Distinct env L P U T) {ρ : String → Option Ex} {s : String} {ps : List Ex} {a : Ex}
    (h3 : s ≠ "System`Sequence") (hP : ∀ q ∈ subexprs (.expr (.expr [S "Verbatim", .sym s] :: ps)), P q) (hU : U a)
    (hm : Matches env ρ (.expr (.expr [S "Verbatim", .sym s] :: ps)) a) : ∃ as A, CallInv M env U T ρ true s ps a as A := by
  have hPs : P (.sym s) := hP _ (by simp [subexprs, subexprsL])
  have hPv : P (.expr [S "Verbatim", .sym s]) := hP _ (by simp [subexprs, subexprsL])
  cases hm with
  | lit g => simp [isAtom] at g
  | @diff _ as _ A g1 g2 g3 g3' g4 g5 g6 g7 g8 =>
    obtain ⟨x, t, rfl, hx⟩ := first_elem g4 g5 (sh := shape (env.dflt "Sequence") false "Sequence") rfl g6 g7
    obtain ⟨t', rfl⟩ := hD.headSym _ _ _ hU g2
    have hUx := hD.part _ _ hU g2 (.sym t') (by simp)
    exact absurd (hD.inj _ _ (hD.whole _ hUx) (hD.pat _ hPv) (matches_verb_sym hx)) (by simp)
  | clash g1 g2 g3 g4 g5 =>
    have := hD.inj _ _ (hD.whole _ hU) (hD.pat _ (hP _ (subexprs_self _))) g5
    subst this
    simp [isAtom] at g1
  | @verb _ _ as _ A g1 g2 g3 g4 g5 g6 g7 =>
    refine ⟨as, A, fun x hx => hD.part _ _ hU g2 x (by simp [hx]), fun cs hc => hD.group _ _ _ _ hU g2 hc, g3, by simpa using g4, ?_, ?_, ?_,
      Meaning.argVals_parts h3 g2⟩ <;> simpa only [callShape_true]
  | verbClash g1 g2 g3 =>
    exact absurd (hD.inj _ _ (hD.whole _ (hD.part _ _ hU g1 _ (by simp))) (hD.pat _ hPs) g2) g3

theorem argsOk {s : String} {ps : List Ex} (hown : ∀ p ∈ ps, noOwnDefault p = true) (hLs : L s) (hD : Distinct env L P U T) {ρ : String → Option Ex}
    (hρ : ∀ x v, ρ x = some v → T v) {v : Bool} {a : Ex} {as A} (hc : CallInv M env U T ρ v s ps a as A) :
    ∀ p ∈ ps, ∀ cs v', cs.Sublist as → (∃ x, ρ x = some v') → isSameQ v' ((callShape env v s p).value (env.oneIdentity s) cs) = true →
      v' = (callShape env v s p).value (env.oneIdentity s) cs := by
  intro p hp cs v hcs ⟨x, hx⟩ hsame
  exact hD.inj _ _ (hρ x v hx) (shape_value_T hD hLs hc.mem hc.groups (hown p hp) hcs _) hsame

/-- A match keeps the meaning. -/
theorem fill_matches (hM : ∀ s, L s → M.Lawful env s) (hD : Distinct env L P U T) {ρ : String → Option Ex} (hρ : ∀ x v, ρ x = some v → T v) :
    ∀ n (p a : Ex), sizeOf p < n → FPat env L p → (∀ q ∈ subexprs p, P q) → U a → Matches env ρ p a →
      M.argVals (fill ρ p) = M.argVals a ∧ ∀ t ∈ namedArgs p, Taken env U ρ t.1 t.2.1 t.2.2 := by
  intro n
  induction n with
  | zero => intro p a h; omega
  | succ n ih =>
    intro p a hn hp hP hU hm
    have hsz : ∀ {h : Ex} {ps : List Ex}, sizeOf (Ex.expr (h :: ps)) < n + 1 → ∀ q ∈ ps, sizeOf q < n := by
      intro h ps hlt q hq
      have := List.sizeOf_lt_of_mem hq
      simp only [Ex.expr.sizeOf_spec, List.cons.sizeOf_spec] at hlt
      omega
    have hPsub : ∀ {h : Ex} {ps : List Ex}, (∀ q ∈ subexprs (.expr (h :: ps)), P q) → ∀ q ∈ ps, ∀ q' ∈ subexprs q, P q' := by
      intro h ps hP q hq q' hq'
      refine hP q' ?_
      simp only [subexprs]
      exact List.mem_cons_of_mem _ (mem_subexprsL (List.mem_cons_of_mem _ hq) hq')
    have hcall : ∀ {s : String} {ps as : List Ex} {A : List (List Nat)} {v : Bool}, L s → s ≠ "System`Sequence" →
        (∀ p ∈ ps, noOwnDefault p = true) → (env.orderless s = true ∨ ∀ p ∈ ps.dropLast, isOptional p = false) →
        (∀ p ∈ ps, argName p = none → FPat env L p) → (∀ q ∈ ps, sizeOf q < n) → (∀ q ∈ ps, ∀ q' ∈ subexprs q, P q') →
        CallInv M env U T ρ v s ps a as A →
        M.op s (M.vals (fillL ρ ps)) = M.op s (M.vals as) ∧ ∀ t ∈ namedArgsL v s ps, Taken env U ρ t.1 t.2.1 t.2.2 := by
      intro s ps as A v hLs hs hown hopt hfp hsz hPs hc
      have hval := argsOk hown hLs hD hρ hc
      refine ⟨call_eq (hM s hLs) hs (fun h => by simp only [Bool.and_eq_true] at h; exact h.1) (fun h => by simp only [Bool.and_eq_true] at h; exact h.1) hown hopt ?_ hval hc.len hc.layout hc.bounds hc.elems hc.names, ?_⟩
      · intro p hp hnm
        exact ⟨shape_fpat (hfp p hp hnm) hnm _ _ _, fun c hc' hm => (ih p c (hsz p hp) (hfp p hp hnm) (hPs p hp) (hc.mem c hc') hm).1⟩
      · intro t ht
        obtain ⟨j, p, hj, htp⟩ : ∃ (j : Nat) (p : Ex), ps[j]? = some p ∧
            t ∈ (match argName p with | some _ => [(v, s, p)] | none => namedArgs p) := by
          clear hc hopt hown hfp hsz hPs hval
          induction ps with
          | nil => simp [namedArgsL] at ht
          | cons p ps ih' =>
            rw [namedArgsL, List.mem_append] at ht
            rcases ht with ht | ht
            · exact ⟨0, p, rfl, ht⟩
            · obtain ⟨j, q, h1, h2⟩ := ih' ht
              exact ⟨j + 1, q, h1, h2⟩
        have hmem : p ∈ ps := List.mem_of_getElem? hj
        have hjA : j < A.length := by rw [hc.len]; exact (List.getElem?_eq_some_iff.1 hj).1
        have e2 : A[j]? = some A[j] := List.getElem?_eq_getElem hjA
        obtain ⟨hpw, hlt⟩ := layout_mem hc.layout (List.getElem_mem hjA)
        cases hnm : argName p with
        | some x =>
          rw [hnm] at htp
          simp only [List.mem_singleton] at htp
          subst htp
          obtain ⟨v', hv, hsame⟩ := hc.names j p _ x hj e2 (by rw [callShape, (shape_facts _ _ _ _).1, hnm])
          have := hval p hmem _ v' (pick_sublist hpw hlt) ⟨x, hv⟩ hsame
          subst this
          have hlen : (A[j].filterMap (as[·]?)).length = A[j].length := by
            clear hv hsame e2
            revert hlt
            generalize A[j] = is
            intro hlt
            induction is with
            | nil => rfl
            | cons i is ih' =>
              have hi := hlt i (by simp)
              rw [List.filterMap_cons, List.getElem?_eq_getElem hi]
              simp only [List.length_cons]
              rw [ih' (fun k hk => hlt k (by simp [hk]))]
          refine ⟨x, A[j].filterMap (as[·]?), hnm, hv, ?_, ?_, ?_⟩
          · rw [hlen]; exact (hc.bounds j p _ hj e2).1
          · rw [hlen]; exact (hc.bounds j p _ hj e2).2
          · intro c hcm
            obtain ⟨i, hi, hic⟩ := List.mem_filterMap.1 hcm
            have hme := hc.elems j p _ i c hj e2 hi hic
            refine ⟨hc.mem c (List.mem_of_getElem? hic), hD.noSeq _ (hc.mem c (List.mem_of_getElem? hic)), hme, fun h hh => ?_⟩
            exact hD.inj _ _ (hD.head _ (hc.mem c (List.mem_of_getElem? hic))) (hD.pat _ (hPs p hmem h (blankHead_sub hh))) (matches_head hh hme)
        | none =>
          rw [hnm] at htp
          simp only at htp
          have hfp' := hfp p hmem hnm
          have hsh : callShape env v s p = _ := shape_fpat hfp' hnm _ _ _
          have hb := hc.bounds j p _ hj e2
          rw [hsh] at hb
          obtain ⟨i, hi⟩ := List.length_eq_one_iff.1 (show A[j].length = 1 by simp only at hb; omega)
          have hil := hlt i (by rw [hi]; simp)
          have e3 : as[i]? = some as[i] := List.getElem?_eq_getElem hil
          have hm := hc.elems j p _ i _ hj e2 (by rw [hi]; simp) e3
          rw [hsh] at hm
          exact (ih p _ (hsz p hmem) hfp' (hPs p hmem) (hc.mem _ (List.getElem_mem hil)) hm).2 t htp
    cases hp with
    | atom h1 =>
      have hlit : a = p := by
        cases hm with
        | lit _ _ h => exact hD.inj _ _ (hD.whole _ hU) (hD.pat _ (hP _ (subexprs_self _))) h
        | _ => simp [isAtom] at h1
      subst hlit
      cases a with
      | expr _ => simp [isAtom] at h1
      | _ => simp [fill, argName, testName, coreName, namedArgs]
    | @named s args x h1 =>
      obtain ⟨v, hv, hs⟩ := matches_named_inv hm
      have : v = a := hD.inj _ _ (hρ x v hv) (hD.whole _ hU) hs
      subst this
      have : fill ρ (.expr [S "Pattern", .sym x, .expr (.sym s :: args)]) = v := by
        simp [fill, argName, testName, coreName, S, hv]
      rw [this]
      refine ⟨rfl, ?_⟩
      simp [namedArgs, S]
    | @test q t h1 =>
      have hm' := matches_test_inv hm
      rw [fill_test]
      have := ih q a (hsz hn q (by simp)) h1 (hPsub hP q (by simp)) hU hm'
      refine ⟨this.1, ?_⟩
      rw [S, namedArgs]
      simpa using this.2
    | @hold q h1 =>
      have hm' := matches_hold_inv hm
      rw [fill_hold]
      have := ih q a (hsz hn q (by simp)) h1 (hPsub hP q (by simp)) hU hm'
      refine ⟨this.1, ?_⟩
      rw [S, namedArgs]
      simpa using this.2
    | @app s ps h1 h2 h3 h4 h5 h6 =>
      obtain ⟨as, A, hc⟩ := app_inv (M := M) hM hD h1 h2 h3 hP hU hm
      have := hcall h1 h3 h4 h6 h5 (hsz hn) (hPsub hP) hc
      rw [fill_app h2, Meaning.argVals_app h3, hc.value, this.1]
      refine ⟨rfl, ?_⟩
      have n1 := special_ne h2 (t := "System`PatternTest") (by decide)
      have n2 := special_ne h2 (t := "System`HoldPattern") (by decide)
      have n3 := special_ne h2 (t := "System`Pattern") (by decide)
      have e : namedArgs (.expr (.sym s :: ps)) = namedArgsL false s ps := by
        unfold namedArgs
        simp [n1, n2, n3]
      rw [e]
      exact this.2
    | @verb s ps h1 h2 h3 h4 h5 h6 =>
      obtain ⟨as, A, hc⟩ := verb_inv (M := M) hD h3 hP hU hm
      have := hcall h1 h3 h4 (Or.inr h6) h5 (hsz hn) (hPsub hP) hc
      rw [fill_verb, Meaning.argVals_app h3, hc.value, this.1]
      refine ⟨rfl, ?_⟩
      rw [S, namedArgs]
      simpa using this.2

end

end Expreduce
