import Verif.Model.ReplacePart
import Verif.Spec.ReplacePart
import Verif.Props.Replace

/-! Property C117: `ReplacePart`. -/

namespace Expreduce
open Ex

section
variable {env : MEnv} {m n : Nat} {rules : List Ex}

theorem partsReplaced_atom {new : List Nat → Option Ex} {e : Ex} (h : ∀ π x, partAt e π = some x → π = [] ∧ x = e) : PartsReplaced new e e where
  replaced := by
    intro π v x h1 h2
    exact absurd (h π x h2).1 h1
  kept := by
    intro π x h1 _
    obtain ⟨rfl, rfl⟩ := h π x h1
    refine ⟨_, h1, ?_⟩
    unfold SameTop
    split
    · exact ⟨_, rfl, rfl⟩
    · rfl

mutual
theorem replaceParts_spec {new : List Nat → Option Ex} : ∀ {path : List Nat} {e r : Ex},
    (∀ π, π ≠ [] → (partAt e π).isSome → partValue env m n rules (path ++ π) = some (new π)) →
    replaceParts env m n rules path e = some r → PartsReplaced new e r
  | path, .expr (h :: as), r, hv, hr => by
    rw [replaceParts, Option.map_eq_some_iff] at hr
    obtain ⟨bs, hbs, rfl⟩ := hr
    have hs := replacePartsArgs_spec (new := new) (i := 0) (path := path) (as := as) (bs := bs)
      (fun k a hk π hπ => by
        refine hv ((k + 0 + 1) :: π) (by simp) ?_
        simp only [partAt, Nat.add_zero, hk]
        exact hπ) hbs
    obtain ⟨hlen, hs⟩ := hs
    constructor
    · intro π v x hne hx hnew hpre
      cases π with
      | nil => exact absurd rfl hne
      | cons k π =>
        cases k with
        | zero => simp [partAt] at hx
        | succ k =>
          simp only [partAt] at hx
          cases hk : as[k]? with
          | none => simp [hk] at hx
          | some a =>
            rw [hk] at hx
            simp only at hx
            obtain ⟨b, hb, hsel, hrec⟩ := hs k a hk
            simp only [partAt, hb]
            simp only [Nat.add_zero] at hsel hrec
            cases π with
            | nil =>
              rw [hsel v hnew]; rfl
            | cons j π =>
              have h0 : new [k + 1] = none := hpre [k + 1] (by simp) (by simp) (by simp)
              refine (hrec h0).replaced (j :: π) v x (by simp) hx hnew ?_
              intro ρ h1 h2 h3
              exact hpre ((k + 1) :: ρ) (by simp) (by simpa using h2) (by simpa using h3)
    · intro π x hx hpre
      cases π with
      | nil =>
        simp only [partAt, Option.some.injEq] at hx
        subst hx
        exact ⟨_, rfl, bs, rfl, hlen⟩
      | cons k π =>
        cases k with
        | zero => simp [partAt] at hx
        | succ k =>
          simp only [partAt] at hx
          cases hk : as[k]? with
          | none => simp [hk] at hx
          | some a =>
            rw [hk] at hx
            simp only at hx
            obtain ⟨b, hb, hsel, hrec⟩ := hs k a hk
            simp only [partAt, hb]
            simp only [Nat.add_zero] at hsel hrec
            have h0 : new [k + 1] = none := hpre [k + 1] (by simp) (by simp)
            refine (hrec h0).kept π x hx ?_
            intro ρ h1 h2
            exact hpre ((k + 1) :: ρ) (by simp) (by simpa using h2)
  | path, .expr [], r, _, hr => by simp [replaceParts] at hr
  | path, .sym s, r, _, hr => by
    simp only [replaceParts, Option.some.injEq] at hr
    subst hr
    exact partsReplaced_atom (by intro π x h; cases π <;> simp_all [partAt])
  | path, .str s, r, _, hr => by
    simp only [replaceParts, Option.some.injEq] at hr
    subst hr
    exact partsReplaced_atom (by intro π x h; cases π <;> simp_all [partAt])
  | path, .int s, r, _, hr => by
    simp only [replaceParts, Option.some.injEq] at hr
    subst hr
    exact partsReplaced_atom (by intro π x h; cases π <;> simp_all [partAt])
  | path, .rat _ _, r, _, hr => by
    simp only [replaceParts, Option.some.injEq] at hr
    subst hr
    exact partsReplaced_atom (by intro π x h; cases π <;> simp_all [partAt])
  | path, .flt _, r, _, hr => by
    simp only [replaceParts, Option.some.injEq] at hr
    subst hr
    exact partsReplaced_atom (by intro π x h; cases π <;> simp_all [partAt])
  | path, .cplx _ _, r, _, hr => by
    simp only [replaceParts, Option.some.injEq] at hr
    subst hr
    exact partsReplaced_atom (by intro π x h; cases π <;> simp_all [partAt])
theorem replacePartsArgs_spec {new : List Nat → Option Ex} : ∀ {path : List Nat} {i : Nat} {as bs : List Ex},
    (∀ k a, as[k]? = some a → ∀ π, (partAt a π).isSome → partValue env m n rules (path ++ (k + i + 1) :: π) = some (new ((k + i + 1) :: π))) →
    replacePartsArgs env m n rules path (i + 1) as = some bs →
    bs.length = as.length ∧ ∀ k a, as[k]? = some a → ∃ b, bs[k]? = some b ∧ (∀ v, new [k + i + 1] = some v → b = v) ∧
      (new [k + i + 1] = none → PartsReplaced (fun π => new ((k + i + 1) :: π)) a b)
  | path, i, [], bs, _, h => by
    simp only [replacePartsArgs, Option.some.injEq] at h
    subst h
    simp
  | path, i, a :: as, bs, hv, h => by
    have h0 := hv 0 a (by simp) [] (by simp [partAt])
    simp only [Nat.zero_add] at h0
    rw [replacePartsArgs, h0] at h
    have hrest : ∀ cs, replacePartsArgs env m n rules path (i + 1 + 1) as = some cs → _ := fun cs hcs =>
      replacePartsArgs_spec (new := new) (path := path) (i := i + 1) (as := as) (bs := cs)
        (fun k b hk π hπ => by
          have := hv (k + 1) b (by simpa using hk) π hπ
          rw [show k + 1 + i + 1 = k + (i + 1) + 1 by omega] at this
          exact this) hcs
    have fin : ∀ b cs, replacePartsArgs env m n rules path (i + 1 + 1) as = some cs → bs = b :: cs →
        (∀ v, new [i + 1] = some v → b = v) → (new [i + 1] = none → PartsReplaced (fun π => new ((i + 1) :: π)) a b) →
        bs.length = (a :: as).length ∧ ∀ k a', (a :: as)[k]? = some a' → ∃ b, bs[k]? = some b ∧ (∀ v, new [k + i + 1] = some v → b = v) ∧
          (new [k + i + 1] = none → PartsReplaced (fun π => new ((k + i + 1) :: π)) a' b) := by
      intro b cs hcs hbs h1 h2
      obtain ⟨hl, hk⟩ := hrest cs hcs
      subst hbs
      refine ⟨by simp [hl], ?_⟩
      intro k a' ha'
      cases k with
      | zero =>
        simp only [List.getElem?_cons_zero, Option.some.injEq] at ha'
        subst ha'
        exact ⟨b, by simp, by simpa using h1, by simpa using h2⟩
      | succ k =>
        obtain ⟨c, hc1, hc2, hc3⟩ := hk k a' (by simpa using ha')
        rw [show k + 1 + i + 1 = k + (i + 1) + 1 by omega]
        exact ⟨c, by simpa using hc1, hc2, hc3⟩
    cases hn : new [i + 1] with
    | some v =>
      rw [hn] at h
      simp only [Option.map_eq_some_iff] at h
      obtain ⟨cs, hcs, rfl⟩ := h
      exact fin v cs hcs rfl (by intro w hw; rw [hn] at hw; simpa using hw) (by intro hw; rw [hn] at hw; simp at hw)
    | none =>
      rw [hn] at h
      simp only at h
      cases hb : replaceParts env m n rules (path ++ [i + 1]) a with
      | none => simp [hb] at h
      | some b =>
        rw [hb] at h
        simp only [Option.map_eq_some_iff] at h
        obtain ⟨cs, hcs, rfl⟩ := h
        refine fin b cs hcs rfl (by intro w hw; rw [hn] at hw; simp at hw) (fun _ => ?_)
        refine replaceParts_spec (new := fun π => new ((i + 1) :: π)) (path := path ++ [i + 1]) ?_ hb
        intro π _ hπ
        have := hv 0 a (by simp) π hπ
        simpa using this
end

end

/-- **C117, any rules.** Whatever the rules are: if they give the value `new π` (or none) for each position `π` of the expression, the result is the
expression with exactly these parts replaced. -/
theorem C117_parts (env : MEnv) (m n : Nat) (rules : List Ex) (new : List Nat → Option Ex) (e r : Ex)
    (hv : ∀ π, π ≠ [] → (partAt e π).isSome → partValue env m n rules π = some (new π))
    (h : replacePartFn env m n [e, listOf rules] = some r) (hr : rules.all (hasHead "System`Rule") = true) : PartsReplaced new e r := by
  have : argsOf "System`List" (listOf rules) = some rules := by simp [listOf, argsOf, S]
  rw [replacePartFn, this] at h
  simp only [hr, if_true] at h
  exact replaceParts_spec (path := []) (by simpa using hv) h

/-! ### Rules with fixed positions -/

/-- The rule `p -> v`. -/
def placeRule (r : Place × Ex) : Ex := rule r.1.ex r.2

theorem shape_int (d : Option Ex) (flat : Bool) (s : String) (k : Int) : shape d flat s (.int k) = ⟨1, 1, .int k, none, false, S "Sequence", none⟩ := by
  simp [shape, testShape, namedShape, bodyShape]

theorem matches_ints {env : MEnv} {ρ : String → Option Ex} (ho : env.orderless "System`List" = false) (is : List Int) :
    Matches env ρ (.expr (S "List" :: is.map Ex.int)) (.expr (S "List" :: is.map Ex.int)) := by
  refine .same (s := "System`List") ((List.range is.length).map (fun k => [k])) (by decide) rfl (by simp) ?_ ?_ ?_ ?_
  · rw [ho]
    simp only [Layout, List.length_map, Bool.false_eq_true, if_false]
    generalize List.range is.length = l
    induction l with
    | nil => rfl
    | cons a l ih => simp [ih]
  · intro j p js hp hj
    rw [List.getElem?_map, Option.map_eq_some_iff] at hp hj
    obtain ⟨k, hk, rfl⟩ := hp
    obtain ⟨t, ht, rfl⟩ := hj
    rw [shape_int]
    simp
  · intro j p js i c hp hj hi hc
    rw [List.getElem?_map, Option.map_eq_some_iff] at hp hj hc
    obtain ⟨k, hk, rfl⟩ := hp
    obtain ⟨t, ht, rfl⟩ := hj
    obtain ⟨u, hu, rfl⟩ := hc
    rw [shape_int]
    simp only [List.mem_singleton] at hi
    subst hi
    have hji : i = j := by
      rw [List.getElem?_eq_some_iff] at ht
      obtain ⟨_, ht⟩ := ht
      simpa using ht.symm
    subst hji
    rw [hu] at hk
    cases hk
    exact .lit rfl rfl (by simp [isSameQ])
  · intro j p js x hp hj hx
    rw [List.getElem?_map, Option.map_eq_some_iff] at hp
    obtain ⟨k, hk, rfl⟩ := hp
    rw [shape_int] at hx
    simp at hx

theorem ints_noReal : ∀ is : List Int, noRealL (is.map Ex.int) = true
  | [] => rfl
  | _ :: is => by simpa [noRealL, noReal] using ints_noReal is
theorem ints_wellFormed : ∀ is : List Int, wellFormedL (is.map Ex.int) = true
  | [] => rfl
  | _ :: is => by simpa [wellFormedL, wellFormed] using ints_wellFormed is
theorem ints_plainHeads : ∀ is : List Int, plainHeadsL (is.map Ex.int) = true
  | [] => rfl
  | _ :: is => by simpa [plainHeadsL, plainHeads] using ints_plainHeads is
theorem ints_committed : ∀ is : List Int, committedL (is.map Ex.int) = true
  | [] => rfl
  | _ :: is => by simpa [committedL, committed] using ints_committed is
theorem ints_patNames : ∀ is : List Int, patNamesL (is.map Ex.int) = []
  | [] => rfl
  | _ :: is => by simpa [patNamesL, patNames] using ints_patNames is
theorem ints_inst (ρ : String → Option Ex) : ∀ is : List Int, instL ρ (is.map Ex.int) = is.map Ex.int
  | [] => rfl
  | _ :: is => by simpa [instL, inst] using ints_inst ρ is
theorem ints_subexprs : ∀ is : List Int, subexprsL (is.map Ex.int) = is.map Ex.int
  | [] => rfl
  | _ :: is => by simpa [subexprsL, subexprs] using ints_subexprs is

theorem patName_list (qs : List Ex) : patName (S "List" :: qs) = none := by
  unfold patName
  split
  · rename_i h
    simp only [S, List.cons.injEq, Ex.sym.injEq] at h
    rw [if_neg]
    rw [← h.1]; decide
  · rfl

theorem place_names (p : Place) : patNames p.ex = [] := by
  cases p with
  | «at» i => rfl
  | path is => rw [Place.ex, patNames, patName_list, patNamesL, ints_patNames]; rfl

theorem place_inst (ρ : String → Option Ex) (p : Place) : inst ρ p.ex = p.ex := by
  cases p with
  | «at» i => rfl
  | path is => rw [Place.ex, inst, patName_list]; simp [instL, inst, S, ints_inst]

/-- A position as a pattern matches itself only. -/
theorem place_match {env : MEnv} [env.Exact] (ho : env.orderless "System`List" = false) (hf : env.flat "System`List" = false) {m : Nat} {p : Place}
    (hp : p ≠ .path []) (hm : 2 * size p.ex + 1 ≤ m) {q : Place} (hcl : ∀ c ∈ subexprs q.ex, hash c = hash p.ex → c = p.ex) :
    ∃ rs pm', matchF env m q.ex p.ex [] = some (rs, pm') ∧ (rs ≠ [] ↔ p.ex = q.ex) ∧ ∀ r ∈ rs, bindingsOf r = fun _ => none := by
  have hpl : Plain env p.ex := by
    cases p with
    | «at» i => exact .atom rfl
    | path is =>
      refine .app (s := "System`List") (by decide) hf ho (by simpa using hp) ?_
      intro q hq
      obtain ⟨k, _, rfl⟩ := List.mem_map.1 hq
      exact .atom rfl
  have hnr : noReal q.ex = true := by
    cases q with
    | «at» i => rfl
    | path is => simp [Place.ex, noReal, noRealL, S, ints_noReal]
  have hwf : wellFormed q.ex = true := by
    cases q with
    | «at» i => rfl
    | path is => simp [Place.ex, wellFormed, wellFormedL, S, ints_wellFormed]
  have hcm : committed p.ex = true := by
    cases p with
    | «at» i => rfl
    | path is => simp [Place.ex, committed, committedL, committedHere, S, ints_committed]
  have hph : plainHeads p.ex = true := by
    cases p with
    | «at» i => rfl
    | path is =>
      rw [Place.ex, plainHeads, plainHeadsL, ints_plainHeads]
      simp only [S, plainHead, plainHeads]
      decide +kernel
  have hfuel : matchFuel q.ex p.ex ≤ m := le_trans (matchFuel_le _ _) hm
  obtain ⟨⟨rs, pm'⟩, hmt⟩ := matchF_total env m q.ex p.ex [] hpl.epat hwf hfuel
  refine ⟨rs, pm', hmt, ⟨?_, ?_⟩, ?_⟩
  · intro hne
    cases rs with
    | nil => exact absurd rfl hne
    | cons r rs =>
      have hq : isMatchQ env m q.ex p.ex [] = some (true, r) := by rw [isMatchQ, hmt]
      have := C20_reproduces env m q.ex p.ex r hpl hnr ?_ (.inl hph) hq
      · rw [place_inst, isSameQ_notFlt (noReal_notFlt hnr)] at this
        exact (hcl q.ex (subexprs_self _) this.symm).symm
      · intro t ht c hc hat hpc hh
        have htp : t = p.ex := by
          cases p with
          | «at» i => simp only [Place.ex, subexprs, List.mem_singleton] at ht; exact ht
          | path is =>
            simp only [Place.ex, subexprs, subexprsL, S, ints_subexprs, List.mem_cons, List.mem_append, List.mem_map, List.not_mem_nil, or_false] at ht
            rcases ht with rfl | rfl | ⟨k, _, rfl⟩
            · rfl
            · simp [isAtom] at hat
            · simp [isAtom] at hat
        subst htp
        have := hcl c hc hh
        rw [this] at hpc
        cases p with
        | «at» i => simp [Place.ex, isAtom] at hat
        | path is => simp [Place.ex, partsOf] at hpc
  · intro heq
    have hM : Matches env (fun _ => none) p.ex q.ex := by
      rw [← heq]
      cases p with
      | «at» i => exact .lit rfl rfl (by simp [Place.ex, isSameQ])
      | path is => exact matches_ints ho is
    obtain ⟨r, hr⟩ := (C20_decides env m q.ex p.ex hpl.epat hcm (.inl hph) hnr hwf hfuel).2 ⟨_, hM⟩
    rw [isMatchQ, hmt] at hr
    rintro rfl
    simp at hr
  · intro r hr
    have := matchF_names hpl.epat hmt r hr
    funext x
    by_contra hx
    have h1 := this x hx
    rw [place_names] at h1
    cases h1

/-- What the rules are: positions with values that are not conditions, `Position` lists that are not empty; the fuel suffices. -/
structure PlaceRules (env : MEnv) (m n : Nat) (rules : List (Place × Ex)) : Prop where
  orderless : env.orderless "System`List" = false
  flat : env.flat "System`List" = false
  nonempty : ∀ r ∈ rules, r.1 ≠ .path []
  fuel : ∀ r ∈ rules, 2 * size r.1.ex + 1 ≤ m
  value : ∀ r ∈ rules, argsOf "System`Condition" r.2 = none
  depth : 1 ≤ n

theorem place_ruleSides (r : Place × Ex) : ruleSides (placeRule r) = some (r.1.ex, r.2) := by simp [placeRule, rule, ruleSides]

theorem place_inj {p q : Place} (h : p.ex = q.ex) : p = q := by
  cases p <;> cases q <;> simp [Place.ex] at h ⊢
  · exact h
  · exact (List.map_injective_iff.2 (fun a b h => by simpa using h)) h

theorem finalPD_none {part : Ex} {r : Option PM} (h : bindingsOf r = fun _ => none) : bindingsOf (finalPD part r) = fun _ => none := by
  cases r with
  | none => rfl
  | some pm =>
    cases pm with
    | nil => rfl
    | cons b pm =>
      have := congrFun h b.1
      simp [bindingsOf, PM.get, List.lookup] at this

theorem rulesFinal_places {env : MEnv} [env.Exact] {m n : Nat} {q : Place} : ∀ {rules : List (Place × Ex)}, PlaceRules env m n rules →
    (∀ r ∈ rules, ∀ c ∈ subexprs q.ex, hash c = hash r.1.ex → c = r.1.ex) →
    rulesFinal env m n q.ex (rules.map placeRule) = some ((rules.find? (fun r => r.1 = q)).map (·.2))
  | [], _, _ => rfl
  | r :: rules, hR, hcl => by
    obtain ⟨rs, pm', h1, h2, h3⟩ := place_match hR.orderless hR.flat (hR.nonempty r (by simp)) (hR.fuel r (by simp)) (hcl r (by simp))
    have hrec := rulesFinal_places (rules := rules) (q := q)
      ⟨hR.orderless, hR.flat, fun r h => hR.nonempty r (by simp [h]), fun r h => hR.fuel r (by simp [h]), fun r h => hR.value r (by simp [h]), hR.depth⟩
      (fun r h => hcl r (by simp [h]))
    rw [List.map_cons, rulesFinal, place_ruleSides]
    simp only [h1]
    obtain ⟨n, rfl⟩ : ∃ k, n = k + 1 := ⟨n - 1, by have := hR.depth; omega⟩
    cases rs with
    | nil =>
      have hne : r.1 ≠ q := fun h => by
        have := h2.2 (by rw [h])
        exact this rfl
      simp only [finalLoop, hrec, List.find?_cons, hne, decide_false]
    | cons t rs =>
      have heq : r.1 = q := place_inj (h2.1 (by simp))
      have e1 : replacePD r.2 t = r.2 := by
        rw [replacePD_bindings, h3 t (by simp)]; exact subst_nil _
      have e2 : replacePD r.2 (finalPD q.ex t) = r.2 := by
        rw [replacePD_bindings, finalPD_none (h3 t (by simp))]; exact subst_nil _
      simp only [finalLoop, e1, e2, tryCondFinal, hR.value r (by simp), List.find?_cons, heq, decide_true, Option.map_some]

theorem rulesReplace_places {env : MEnv} [env.Exact] {m n : Nat} {q : Place} : ∀ {rules : List (Place × Ex)}, PlaceRules env m n rules →
    (∀ r ∈ rules, ∀ c ∈ subexprs q.ex, hash c = hash r.1.ex → c = r.1.ex) →
    rulesReplace env (fun _ => none) m n q.ex (rules.map placeRule) = some ((rules.find? (fun r => r.1 = q)).map (·.2))
  | [], _, _ => rfl
  | r :: rules, hR, hcl => by
    obtain ⟨rs, pm', h1, h2, h3⟩ := place_match hR.orderless hR.flat (hR.nonempty r (by simp)) (hR.fuel r (by simp)) (hcl r (by simp))
    have hrec := rulesReplace_places (rules := rules) (q := q)
      ⟨hR.orderless, hR.flat, fun r h => hR.nonempty r (by simp [h]), fun r h => hR.fuel r (by simp [h]), fun r h => hR.value r (by simp [h]), hR.depth⟩
      (fun r h => hcl r (by simp [h]))
    rw [List.map_cons, rulesReplace, place_ruleSides]
    simp only [replace, h1]
    obtain ⟨n, rfl⟩ : ∃ k, n = k + 1 := ⟨n - 1, by have := hR.depth; omega⟩
    cases rs with
    | nil =>
      have hne : r.1 ≠ q := fun h => by
        have := h2.2 (by rw [h])
        exact this rfl
      simp only [replaceLoop, hrec, List.find?_cons, hne, decide_false]
    | cons t rs =>
      have heq : r.1 = q := place_inj (h2.1 (by simp))
      have e1 : replacePD r.2 t = r.2 := by
        rw [replacePD_bindings, h3 t (by simp)]; exact subst_nil _
      have e2 : condArgs (fun _ => none) r.2 = none := by simp [condArgs, hR.value r (by simp)]
      simp only [replaceLoop, e1, tryCond, e2, List.find?_cons, heq, decide_true, Option.map_some]

/-- **C117, fixed positions.** `ReplacePart[e, {p1 -> v1, ...}]`, where each `pk` is a number or a list of numbers, is `e` with the parts at these
positions replaced by the values and nothing else changed. No position in a rule may have the same fingerprint as a different position in `e`
(C09). -/
theorem C117_places_partial (env : MEnv) [env.Exact] (m n : Nat) (rules : List (Place × Ex)) (hR : PlaceRules env m n rules) (e : Ex)
    (hcl : ∀ r ∈ rules, ∀ π, (partAt e π).isSome → ∀ c ∈ subexprs (partList π), hash c = hash r.1.ex → c = r.1.ex)
    (r : Ex) (h : replacePartFn env m n [e, listOf (rules.map placeRule)] = some r) : PartsReplaced (placeValue rules) e r := by
  refine C117_parts env m n _ (placeValue rules) e r ?_ h (by
    rw [List.all_eq_true]
    intro x hx
    obtain ⟨t, _, rfl⟩ := List.mem_map.1 hx
    simp [placeRule, rule, hasHead, S])
  intro π hne hπ
  have hq : partList π = (Place.path (π.map (fun k : Nat => (k : Int)))).ex := by simp [partList, Place.ex]
  have h1 := rulesFinal_places (q := .path (π.map (fun k : Nat => (k : Int)))) hR (fun r hr c hc => hcl r hr π hπ c (by rw [hq]; exact hc))
  unfold partValue placeValue
  rw [hq, h1]
  cases hfind : rules.find? (fun r => r.1 = .path (π.map (fun k : Nat => (k : Int)))) with
  | some t => simp
  | none =>
    simp only [Option.map_none]
    match π with
    | [] => rfl
    | _ :: _ :: _ => rfl
    | [i] =>
      refine rulesReplace_places (q := .at (i : Int)) hR (fun r hr c hc => hcl r hr [i] hπ c ?_)
      simp only [Place.ex, subexprs, List.mem_singleton] at hc
      subst hc
      simp [partList, subexprs, subexprsL]

/-- A call that is not of this form, or with something else than rules in the list, is unchanged. -/
theorem C117_other (env : MEnv) (m n : Nat) (args : List Ex) (h : ∀ e rules, args = [e, listOf rules] → rules.all (hasHead "System`Rule") = false) :
    replacePartFn env m n args = some (.expr (S "ReplacePart" :: args)) := by
  unfold replacePartFn
  split
  · rename_i e arg
    split
    · rename_i rules hr
      have harg : arg = listOf rules := by
        have := argsOf_eq hr
        simpa [listOf, S] using this
      rw [harg] at h ⊢
      rw [h e rules rfl]
      simp
    · rfl
  · rfl

/-! ### Examples -/

/-- `f[x, g[y, 7]]` with the rules `{2, 2} -> a` and `1 -> b`. -/
def partExample : Ex := fOf [gx, .expr [.sym "Global`g", gy, .int 7]]
def partRules : List (Place × Ex) := [(.path [2, 2], .sym "Global`a"), (.at 1, .sym "Global`b")]

example : replacePartFn envP 60 9 [partExample, listOf (partRules.map placeRule)] =
    some (fOf [.sym "Global`b", .expr [.sym "Global`g", gy, .sym "Global`a"]]) := by decide +kernel
example : PlaceRules envP 60 9 partRules := by
  constructor <;> decide +kernel

theorem partExample_positions : ∀ π, (partAt partExample π).isSome = true → π ∈ [[], [1], [2], [2, 1], [2, 2]]
  | [], _ => by simp
  | [1], _ => by simp
  | [2], _ => by simp
  | [2, 1], _ => by simp
  | [2, 2], _ => by simp
  | 0 :: _, h => by simp [partAt, partExample, fOf] at h
  | 1 :: _ :: _, h => by simp [partAt, partExample, fOf, gx] at h
  | 2 :: 0 :: _, h => by simp [partAt, partExample, fOf, gx] at h
  | 2 :: 1 :: _ :: _, h => by simp [partAt, partExample, fOf, gy] at h
  | 2 :: 2 :: _ :: _, h => by simp [partAt, partExample, fOf, gx] at h
  | 2 :: (_ + 3) :: _, h => by simp [partAt, partExample, fOf, gx] at h
  | (_ + 3) :: _, h => by simp [partAt, partExample, fOf] at h
example : ∀ r ∈ partRules, ∀ π, (partAt partExample π).isSome → ∀ c ∈ subexprs (partList π), hash c = hash r.1.ex → c = r.1.ex := by
  intro r hr π hπ
  have := partExample_positions π hπ
  revert r π
  have h : ∀ r ∈ partRules, ∀ π ∈ [[], [1], [2], [2, 1], [2, 2]], ∀ c ∈ subexprs (partList π), hash c = hash r.1.ex → c = r.1.ex := by decide +kernel
  exact fun r hr π _ h1 => h r hr π h1

/-- Patterns: `{_, k_} -> k` puts the last number of each position on the second level there. -/
example : replacePartFn envP 60 9 [partExample, listOf [rule (listOf [bl, nm "Global`k" bl]) (.sym "Global`k")]] =
    some (fOf [gx, .expr [.sym "Global`g", .int 1, .int 2]]) := by decide +kernel

/-- The list form comes before the number: `{2 -> a, {2} -> b}` uses `b`. -/
example : replacePartFn envP 60 9 [fOf [gx, gy], listOf [rule (.int 2) (.sym "Global`a"), rule (listOf [.int 2]) (.sym "Global`b")]] =
    some (fOf [gx, .sym "Global`b"]) := by decide +kernel

/-- **C117, a wrong result.** A variable that stands for the whole position gives an empty list: `ReplacePart[f[x, y], p_List -> p]` is
`f[{}, {}]` and not `f[{1}, {2}]`. -/
theorem C117_position_lost : replacePartFn envP 60 9 [fOf [gx, gy], listOf [rule (.expr [S "Pattern", .sym "Global`p", .expr [S "Blank", S "List"]]) (.sym "Global`p")]] =
    some (fOf [listOf [], listOf []]) := by decide +kernel

end Expreduce
