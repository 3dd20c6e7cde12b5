import Verif.Proofs.MatchComplete

/-! Instances of plain patterns. -/

namespace Expreduce
open Ex

/-- The name of `x : body`. -/
def patName : List Ex → Option String
  | [.sym s, .sym x, _] => if s = "System`Pattern" then some x else none
  | _ => none

mutual
/-- The pattern with every named blank replaced by its value. -/
def inst (ρ : String → Option Ex) : Ex → Ex
  | .expr ps => match patName ps with
    | some x => (ρ x).getD (.sym x)
    | none => .expr (instL ρ ps)
  | e => e
/-- The same for a list. -/
def instL (ρ : String → Option Ex) : List Ex → List Ex
  | [] => []
  | p :: ps => inst ρ p :: instL ρ ps
end

/-- Patterns made of literals, named blanks `x_`, `x_h` and functions that are neither `Flat` nor `Orderless`. -/
inductive Plain (env : MEnv) : Ex → Prop
  | atom {p} : isAtom p = true → Plain env p
  | named (x : String) (args : List Ex) : args.length ≤ 1 → Plain env (.expr [S "Pattern", .sym x, .expr (S "Blank" :: args)])
  | app {s ps} : s ∉ specialHeads → env.flat s = false → env.orderless s = false → ps ≠ [] → (∀ p ∈ ps, Plain env p) →
      Plain env (.expr (.sym s :: ps))

mutual
/-- The subexpressions. -/
def subexprs : Ex → List Ex
  | .expr ps => .expr ps :: subexprsL ps
  | e => [e]
/-- The subexpressions of a list. -/
def subexprsL : List Ex → List Ex
  | [] => []
  | p :: ps => subexprs p ++ subexprsL ps
end

theorem subexprs_self (e : Ex) : e ∈ subexprs e := by cases e <;> simp [subexprs]

theorem mem_subexprsL {p q : Ex} {ps : List Ex} (hp : p ∈ ps) (hq : q ∈ subexprs p) : q ∈ subexprsL ps := by
  induction ps with
  | nil => simp at hp
  | cons a as ih =>
    simp only [subexprsL, List.mem_append]
    rcases List.mem_cons.1 hp with rfl | hp
    · exact Or.inl hq
    · exact Or.inr (ih hp)

theorem Plain.epat {env p} (h : Plain env p) : EPat p := by
  induction h with
  | atom h => exact .atom h
  | named x args h => exact .named x (by decide) h
  | app h1 _ _ h2 _ ih => exact .app h1 h2 (fun p hp => .body (.elem (ih p hp)))

theorem patName_none {s : String} {ps : List Ex} (h : s ∉ specialHeads) : patName (.sym s :: ps) = none := by
  unfold patName
  split
  · rename_i e
    simp only [List.cons.injEq, Ex.sym.injEq] at e
    rw [if_neg]
    rintro rfl
    apply h
    rw [e.1]
    simp [specialHeads]
  · rfl

theorem singletons {l : Nat} {A : List (List Nat)} (h : A.flatten = List.range l) (h1 : ∀ is ∈ A, is.length = 1) :
    A = (List.range l).map (fun i => [i]) := by
  have : A = A.flatten.map (fun i => [i]) := by
    clear h
    induction A with
    | nil => rfl
    | cons is A ih =>
      obtain ⟨i, rfl⟩ := List.length_eq_one_iff.1 (h1 is (by simp))
      simp only [List.flatten_cons, List.map_append, List.map_cons, List.map_nil, List.singleton_append]
      rw [← ih (fun x hx => h1 x (by simp [hx]))]
  rw [this, h]

theorem hash_expr_congr {ps qs : List Ex} (h : List.Forall₂ (fun p q => hash p = hash q) ps qs) : hash (.expr ps) = hash (.expr qs) := by
  have : encParts ps = encParts qs := by
    induction h with
    | nil => rfl
    | cons h _ ih =>
      simp only [encParts]
      unfold hash at h
      rw [h, ih]
  unfold hash
  rw [enc, enc, this]

theorem Plain.shape {env p} (h : Plain env p) (d : Option Ex) (sh : String) : (shape d false sh p).lo = 1 ∧ (shape d false sh p).hi = 1 ∧
    ((∃ x args, p = .expr [S "Pattern", .sym x, .expr (S "Blank" :: args)] ∧ (Expreduce.shape d false sh p).name = some x ∧
      (Expreduce.shape d false sh p).bare = true) ∨ (Expreduce.shape d false sh p).elem = p) := by
  cases h with
  | atom h => cases p <;> simp_all [isAtom, Expreduce.shape, testShape, namedShape, bodyShape]
  | named x args h =>
    refine ⟨?_, ?_, Or.inl ⟨x, args, rfl, ?_, ?_⟩⟩ <;> simp [Expreduce.shape, testShape, namedShape, bodyShape, S]
  | @app s ps h1 _ _ h2 _ =>
    have hn : ∀ t, t ∈ specialHeads → s ≠ t := by rintro t ht rfl; exact h1 ht
    have e : Expreduce.shape d false sh (.expr (.sym s :: ps)) = ⟨1, 1, .expr (.sym s :: ps), none, false, S "Sequence", none⟩ := by
      rw [shape_eq_test (by simp only [headSym, ne_eq, Option.some.injEq]; exact hn _ (by decide)), shape_eq_named (by simp only [headSym, ne_eq, Option.some.injEq]; exact hn _ (by decide)),
        namedShape_eq_body (by simp only [headSym, ne_eq, Option.some.injEq]; exact hn _ (by decide)), bodyShape_other]
      intro t ht
      simp only [headSym, Option.some.injEq] at ht
      subst ht
      exact ⟨hn _ (by decide), hn _ (by decide), hn _ (by decide), hn _ (by decide),
        hn _ (by decide)⟩
    rw [e]
    exact ⟨rfl, rfl, Or.inr rfl⟩

theorem parts_number {a : Ex} {as : List Ex} (hp : partsOf a = some as) (hc : a ≠ .expr as) : isAtom a = true ∧
    ∃ k as', partsOf a = some (.sym k :: as') ∧ (k = "System`Rational" ∨ k = "System`Complex") := by
  cases a with
  | rat n d => exact ⟨rfl, _, _, rfl, Or.inl rfl⟩
  | cplx r i => exact ⟨rfl, _, _, rfl, Or.inr rfl⟩
  | expr ps => simp only [partsOf, Option.some.injEq] at hp; exact absurd (by rw [hp]) hc
  | _ => simp [partsOf] at hp

theorem Plain.notOptional {env p} (h : Plain env p) : isOptional p = false := by
  cases h with
  | atom h => cases p <;> simp_all [isAtom, isOptional]
  | named x args h => rfl
  | @app s ps h1 _ _ h2 _ =>
    simp only [isOptional, beq_eq_false_iff_ne]
    rintro rfl
    exact h1 (by decide)

/-- An instance of a plain pattern is the pattern with its names replaced. -/
theorem Plain.instance {env ρ p} (h : Plain env p) : ∀ a, noReal a = true → Matches env ρ p a →
    (∀ q ∈ subexprs p, ∀ c ∈ subexprs a, isAtom q = false → partsOf c = none → hash c ≠ hash q) →
    (∀ q ∈ subexprs p, ∀ c ∈ subexprs a, isAtom q = false → isAtom c = true → partsOf c ≠ none → plainHeads q = true) →
    hash (inst ρ p) = hash a := by
  induction h with
  | @atom p h =>
    intro a ha hm _ _
    cases hm with
    | lit h1 h2 h3 =>
      rw [isSameQ_notFlt' (noReal_notFlt ha)] at h3
      have : inst ρ p = p := by cases p <;> simp_all [isAtom, inst]
      rw [this, h3]
    | _ => simp [isAtom] at h
  | named x args h =>
    intro a ha hm _ _
    have : ∃ v, ρ x = some v ∧ isSameQ v a = true := by
      cases hm with
      | lit h1 => simp [isAtom] at h1
      | blank h1 => simp [blankHeads] at h1
      | named _ _ h2 h3 => exact ⟨_, h2, h3⟩
      | same A h1 => exact absurd (by simp [specialHeads]) h1
      | diff A h1 => exact absurd (by simp [specialHeads]) (h1 "System`Pattern" rfl)
      | clash _ _ h1 => exact absurd (by simp [specialHeads]) (h1 "System`Pattern" rfl)
      | assumed h1 => exact absurd (by simp [specialHeads]) h1
    obtain ⟨v, hv, e⟩ := this
    rw [isSameQ_notFlt (noReal_notFlt ha)] at e
    simp [inst, patName, S, hv, e]
  | @app s ps h1 hf ho hne hps ih =>
    intro a ha hm hcl hpl
    have hP := PartsPat.app h1 hne (fun p hp => .body (.elem (hps p hp).epat))
    have hsp : ∀ t, t ∈ specialHeads → s ≠ t := by rintro t ht rfl; exact h1 ht
    have hinst : inst ρ (.expr (.sym s :: ps)) = .expr (.sym s :: instL ρ ps) := by
      simp [inst, patName_none h1, instL]
    rw [hinst]
    -- rationals and complex numbers are not instances
    have hexp : ∀ as, partsOf a = some as → a = .expr as := by
      intro as hp
      by_contra hc
      obtain ⟨hat, k, as', hk1, hk2⟩ := parts_number hp hc
      have hpl' := hpl _ (subexprs_self _) a (subexprs_self a) rfl hat (by rw [hp]; simp)
      exact not_matches_number hP hpl' hk1 hat hk2 hm
    have hargs : ∀ (d : Option Ex) (qs as : List Ex) (sh : String) (A : List (List Nat)), (∀ p ∈ qs, p ∈ ps) → A.length = qs.length →
        A = (List.range as.length).map (fun i => [i]) → (∀ c ∈ as, c ∈ subexprsL as ∧ noReal c = true) →
        (∀ c ∈ as, ∀ d ∈ subexprs c, d ∈ subexprs a) →
        (∀ (j : Nat) p is (i : Nat) c, qs[j]? = some p → A[j]? = some is → i ∈ is → as[i]? = some c →
          Matches env ρ (Expreduce.shape d false sh p).elem c) →
        (∀ (j : Nat) p is x, qs[j]? = some p → A[j]? = some is → (Expreduce.shape d false sh p).name = some x →
          ∃ v, ρ x = some v ∧ isSameQ v ((Expreduce.shape d false sh p).value (env.oneIdentity sh) (is.filterMap (as[·]?))) = true) →
        List.Forall₂ (fun p q => hash p = hash q) (instL ρ qs) as := by
      intro d qs as sh A hsub hl hA hc hin h6 h7
      have hl2 : qs.length = as.length := by rw [← hl, hA]; simp
      have hil : ∀ qs : List Ex, instL ρ qs = qs.map (inst ρ) := by
        intro qs; induction qs with
        | nil => rfl
        | cons q qs ih => simp [instL, ih]
      rw [hil, List.forall₂_iff_get]
      refine ⟨by simp [hl2], ?_⟩
      intro j h1' h2'
      simp only [List.get_eq_getElem, List.getElem_map]
      have hj : j < qs.length := by simpa using h1'
      have hq : qs[j]? = some qs[j] := List.getElem?_eq_getElem hj
      have hcj : as[j]? = some as[j] := List.getElem?_eq_getElem h2'
      have hAj : A[j]? = some [j] := by
        rw [hA, List.getElem?_map, List.getElem?_range h2']; rfl
      have hmem := hsub _ (List.getElem_mem hj)
      obtain ⟨_, _, hsh⟩ := (hps _ hmem).shape d sh
      have hno := (hc _ (List.getElem_mem h2')).2
      rcases hsh with ⟨x, args, e1, e2, e3⟩ | e1
      · obtain ⟨v, hv, e4⟩ := h7 j _ _ x hq hAj e2
        have e5 : ([j] : List Nat).filterMap (as[·]?) = [as[j]] := by simp [hcj]
        rw [e5] at e4
        simp only [Shape.value, e3, Bool.true_or, if_true] at e4
        rw [isSameQ_notFlt (noReal_notFlt hno)] at e4
        have : inst ρ qs[j] = v := by rw [e1]; simp [inst, patName, S, hv]
        rw [this, e4]
      · have hm := h6 j _ _ j _ hq hAj (by simp) hcj
        rw [e1] at hm
        refine ih _ hmem _ hno hm ?_ ?_
        · intro q hq c hc' h8 h9
          exact hcl q (by simp only [subexprs, List.mem_cons]; right; exact mem_subexprsL (by simp [hmem]) hq) c (hin _ (List.getElem_mem h2') c hc') h8 h9
        · intro q hq c hc' h8 h9 h10
          exact hpl q (by simp only [subexprs, List.mem_cons]; right; exact mem_subexprsL (by simp [hmem]) hq) c (hin _ (List.getElem_mem h2') c hc') h8 h9 h10
    have hone : ∀ (d : Option Ex) (qs : List Ex) (sh : String) (A : List (List Nat)), (∀ p ∈ qs, Plain env p) → A.length = qs.length →
        (∀ (j : Nat) p is, qs[j]? = some p → A[j]? = some is →
          (Expreduce.shape d false sh p).lo ≤ is.length ∧ (is.length : Int) ≤ (Expreduce.shape d false sh p).hi) → ∀ is ∈ A, is.length = 1 := by
      intro d qs sh A hq hl h5 is his
      obtain ⟨j, hj⟩ := List.mem_iff_getElem?.1 his
      have hjl : j < qs.length := by
        rw [← hl]
        rw [List.getElem?_eq_some_iff] at hj; exact hj.1
      have := h5 j qs[j] is (List.getElem?_eq_getElem hjl) hj
      obtain ⟨e1, e2, _⟩ := (hq _ (List.getElem_mem hjl)).shape d sh
      rw [e1, e2] at this
      omega
    have hin : ∀ as, a = .expr as → ∀ c ∈ as, ∀ d ∈ subexprs c, d ∈ subexprs a := by
      rintro as rfl c hc d hd
      simp only [subexprs, List.mem_cons]
      exact Or.inr (mem_subexprsL hc hd)
    cases hm with
    | lit h1 => simp [isAtom] at h1
    | blank h2 _ => exact absurd rfl (hsp s (by simp [specialHeads, h2]))
    | named => exact absurd rfl (hsp "System`Pattern" (by simp [specialHeads]))
    | @same _ _ as _ A _ h2 h3 h4 h5 h6 h7 =>
      have hae := hexp _ h2
      have hnr := noReal_parts ha h2
      rw [hf] at h5 h6 h7
      simp only [Layout, ho, Bool.false_eq_true, if_false] at h4
      have hA := singletons h4 (hone _ ps s A hps h3 h5)
      rw [hae]
      refine hash_expr_congr (.cons rfl ?_)
      exact hargs _ ps as s A (fun p hp => hp) h3 hA (fun c hc => ⟨mem_subexprsL hc (subexprs_self c), hnr c (by simp [hc])⟩)
        (fun c hc => hin _ hae c (by simp [hc])) h6 h7
    | @diff _ as _ A _ h2 h3 _ h3' h4 h5 h6 h7 =>
      have hae := hexp _ h2
      have hnr := noReal_parts ha h2
      simp only [Layout, Bool.false_eq_true, if_false] at h4
      have hall : ∀ p ∈ Ex.sym s :: ps, Plain env p := by
        intro p hp
        rcases List.mem_cons.1 hp with rfl | hp
        · exact .atom rfl
        · exact hps p hp
      have hA := singletons h4 (hone _ _ "Sequence" A hall h3' h5)
      rw [hae]
      rcases as with _ | ⟨c, as⟩
      · rw [hA] at h3'; simp at h3'
      have hA0 : A[0]? = some [0] := by rw [hA]; simp [List.range_succ_eq_map]
      refine hash_expr_congr (.cons ?_ ?_)
      · have hm := h6 0 (.sym s) [0] 0 c rfl hA0 (by simp) rfl
        simp [Expreduce.shape, testShape, namedShape, bodyShape] at hm
        cases hm with
        | lit _ _ h9 =>
          rw [isSameQ_notFlt' (noReal_notFlt (hnr c (by simp)))] at h9
          exact h9.symm
      · -- drop the head: positions are shifted by one
        refine hargs (env.dflt "Sequence") ps as "Sequence" ((List.range as.length).map (fun i => [i])) (fun p hp => hp) ?_ rfl
          (fun c hc => ⟨mem_subexprsL hc (subexprs_self c), hnr c (by simp [hc])⟩) (fun c hc => hin _ hae c (by simp [hc])) ?_ ?_
        · rw [hA] at h3'; simpa using h3'
        · intro j p is i c' hp his hi hc'
          have hj : j < as.length := by
            by_contra hge
            rw [List.getElem?_eq_none (by simp; omega)] at his; simp at his
          rw [List.getElem?_map, List.getElem?_range hj] at his
          simp at his; subst his
          simp at hi; subst hi
          refine h6 (i + 1) p [i + 1] (i + 1) c' (by simpa using hp) ?_ (by simp) (by simpa using hc')
          rw [hA, List.getElem?_map, List.getElem?_range (by simp; omega)]; rfl
        · intro j p is x hp his hx
          have hj : j < as.length := by
            by_contra hge
            rw [List.getElem?_eq_none (by simp; omega)] at his; simp at his
          rw [List.getElem?_map, List.getElem?_range hj] at his
          simp at his; subst his
          have := h7 (j + 1) p [j + 1] x (by simpa using hp) (by
            rw [hA, List.getElem?_map, List.getElem?_range (by simp; omega)]; rfl) hx
          have e : List.filterMap (fun x => (c :: as)[x]?) [j + 1] = List.filterMap (fun x => as[x]?) [j] := by
            simp [List.filterMap_cons]
          rw [e] at this
          exact this
    | clash h2 h3 _ _ h4 =>
      rw [isSameQ_notFlt' (noReal_notFlt ha)] at h4
      exact absurd h4 (hcl _ (subexprs_self _) a (subexprs_self a) rfl h3)
    | assumed _ h2 _ =>
      rw [not_headOmitted (fun p hp => ?_) a] at h2
      · simp at h2
      · rcases List.mem_cons.1 hp with rfl | hp
        · rfl
        · exact (hps p hp).notOptional
    | alt => exact absurd rfl (hsp "System`Alternatives" (by simp [specialHeads]))
    | test => exact absurd rfl (hsp "System`PatternTest" (by simp [specialHeads]))
    | hold => exact absurd rfl (hsp "System`HoldPattern" (by simp [specialHeads]))

theorem mem_subexprsL_iff {q : Ex} {ps : List Ex} : q ∈ subexprsL ps ↔ ∃ p ∈ ps, q ∈ subexprs p := by
  induction ps with
  | nil => simp [subexprsL]
  | cons p ps ih => simp [subexprsL, ih]

theorem plainHeads_subexprs (b q : Ex) (hq : q ∈ subexprs b) (h : plainHeads b = true) : plainHeads q = true := by
  induction b using Ex.ind with
  | hexpr ps ih =>
    simp only [subexprs, List.mem_cons] at hq
    rcases hq with rfl | hq
    · exact h
    · obtain ⟨p, hp, hq⟩ := mem_subexprsL_iff.1 hq
      exact ih p hp hq (plainHeads_sub h p hp)
  | _ => simp [subexprs] at hq; rw [hq]; exact h

theorem quotFree_subexprs (b q : Ex) (hq : q ∈ subexprs b) (h : quotFree b = true) : quotFree q = true := by
  induction b using Ex.ind with
  | hexpr ps ih =>
    simp only [subexprs, List.mem_cons] at hq
    rcases hq with rfl | hq
    · exact h
    · obtain ⟨p, hp, hq⟩ := mem_subexprsL_iff.1 hq
      exact ih p hp hq (quotFree_sub h p hp)
  | _ => simp [subexprs] at hq; rw [hq]; exact h

end Expreduce
