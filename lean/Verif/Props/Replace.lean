import Verif.Proofs.ReplaceSlot

/-! Properties C23, C63, C64, C65: replacement rules and pure functions. -/

namespace Expreduce
open Ex

/-- `l -> r` -/
def rule (l r : Ex) : Ex := .expr [S "Rule", l, r]
/-- `{...}` -/
def listOf (l : List Ex) : Ex := .expr (S "List" :: l)
/-- The symbol `Global`x`. -/
def gx : Ex := .sym "Global`x"
/-- The symbol `Global`y`. -/
def gy : Ex := .sym "Global`y"

theorem getValidRules_rule (l r : Ex) : getValidRules (rule l r) = [rule l r] := by simp [getValidRules, rule, isRule, hasHead, S]

theorem getValidRules_list (rs : List (Ex × Ex)) : getValidRules (listOf (rs.map (fun r => rule r.1 r.2))) = rs.map (fun r => rule r.1 r.2) := by
  have h1 : isRule (listOf (rs.map (fun r => rule r.1 r.2))) = false := by simp [isRule, listOf, hasHead, S]
  have h2 : argsOf "System`List" (listOf (rs.map (fun r => rule r.1 r.2))) = some (rs.map (fun r => rule r.1 r.2)) := by
    simp [argsOf, listOf, S]
  unfold getValidRules
  rw [h1, h2]
  simp only [Bool.false_eq_true, if_false]
  rw [List.filter_eq_self]
  intro a ha
  obtain ⟨r, _, rfl⟩ := List.mem_map.1 ha
  simp [isRule, rule, hasHead, S]

/-- C23, one rule. `e /. lhs -> rhs` returns, and the result is one outermost-first pass of the rule over `e`: matching subexpressions
are replaced by the right side under the bindings of the match, inserted text is not looked at again. (Covered patterns; `e` without
machine reals; the head of `lhs` is not `Flat`.) -/
theorem C23_one_rule_partial (env : MEnv) [env.Exact] (m : Nat) (lhs rhs e : Ex) (hb : EPat lhs) (hc : committed lhs = true)
    (hfl : ∀ s args, lhs = .expr (.sym s :: args) → env.flat s = false) (hn : 2 * size lhs + 1 ≤ m)
    (hq : plainHeads lhs = true ∨ quotFree e = true) (hr : noReal e = true) (hw : wellFormed e = true) (hs : containsSymbol "" e = false) :
    ∃ e', replaceAllFn env m e (rule lhs rhs) = some e' ∧ Rewritten env (fun _ => False) lhs rhs e e' := by
  obtain ⟨e', h, hR⟩ := replaceAll_rewritten env m "" lhs rhs hb hc hfl hn e hq hr hw
  refine ⟨e', ?_, ?_⟩
  · unfold replaceAllFn
    rw [getValidRules_rule]
    simp only [rulesReplaceAll, ruleSides, rule]
    rw [h]
  · refine rewritten_mono ?_ hR (by simp)
    intro u hu hc
    cases u with
    | expr ps =>
      cases ps with
      | nil => simp [hasHead] at hc
      | cons p ps =>
        cases p <;> simp [hasHead] at hc
        subst hc
        have := (containsSymbol_iff_mem "" e).2 (subexprs_trans (mem_subexprs_part (List.mem_cons_self) (subexprs_self _)) hu)
        rw [hs] at this
        simp at this
    | _ => simp [hasHead] at hc

/-- Such a case: `f[1, g[f[2, 3]]] /. f[a_, b_] -> g[b, a]`: the outer `f` is replaced, the inner one is not looked at. -/
example : EPat (fOf [nm "Global`a" bl, nm "Global`b" bl]) ∧ committed (fOf [nm "Global`a" bl, nm "Global`b" bl]) = true ∧
    replaceAllFn envP 60 (fOf [.int 1, fOf [.int 2, .int 3]])
      (rule (fOf [nm "Global`a" bl, nm "Global`b" bl]) (listOf [.sym "Global`b", .sym "Global`a"])) =
      some (listOf [fOf [.int 2, .int 3], .int 1]) := by
  refine ⟨?_, by decide +kernel, by decide +kernel⟩
  refine fOf_pat _ (by simp) ?_
  intro p hp
  simp only [List.mem_cons, List.not_mem_nil, or_false] at hp
  rcases hp with rfl | rfl
  · exact .body (.elem (.named _ (by decide) (by simp)))
  · exact .body (.elem (.named _ (by decide) (by simp)))

/-- C23 as stated is false: the rules are applied one after the other. `{x, y} /. {x -> y, y -> x}` gives `{x, x}`. -/
theorem C23_not_simultaneous : replaceAllFn envP 60 (listOf [gx, gy]) (listOf [rule gx gy, rule gy gx]) = some (listOf [gx, gx]) := by
  decide +kernel

/-- C23 as stated is false for `Flat` heads: below a `Flat` function with the head of the pattern, occurrences inside the arguments
are missed. `c + x*(a+b) /. a+b -> d` changes nothing although `a+b` occurs. -/
theorem C23_flat_inner_missed :
    let ab := plusOf [.sym "Global`a", .sym "Global`b"]
    let e := plusOf [.sym "Global`c", .expr [S "Times", gx, ab]]
    replaceAllFn envP 60 e (rule ab (.sym "Global`d")) = some e ∧ replaceAllFn envP 60 (.expr [S "Times", gx, ab]) (rule ab (.sym "Global`d")) =
      some (.expr [S "Times", gx, .sym "Global`d"]) := by
  decide +kernel

/-- The patterns and expressions covered by the theorems on the matcher. -/
structure Covered (m : Nat) (lhs e : Ex) : Prop where
  pat : EPat lhs
  comm : committed lhs = true
  heads : plainHeads lhs = true ∨ quotFree e = true
  fuel : 2 * size lhs + 1 ≤ m

/-- `x___` -/
def anySeq (x : String) : Ex := .expr [S "Pattern", .sym x, .expr [S "BlankNullSequence"]]

/-- What a match reports. -/
theorem isMatchQ_covered {env : MEnv} [env.Exact] {m : Nat} {lhs e : Ex} (hc : Covered m lhs e) (hr : noReal e = true) (hw : wellFormed e = true) :
    ∃ v q, isMatchQ env m e lhs [] = some (v, q) ∧ (v = true → Matches env (bindingsOf q) lhs e ∧ OnlyNames (bindingsOf q) lhs) ∧
      (v = false → ¬ ∃ ρ, Matches env ρ lhs e) := by
  have hn' := le_trans (matchFuel_le e lhs) hc.fuel
  obtain ⟨v, q, h⟩ := C20_returns env m e lhs [] hc.pat hw hn'
  refine ⟨v, q, h, ?_, ?_⟩
  · rintro rfl
    exact ⟨C20_sound_partial env m e lhs q hc.pat hr h, isMatchQ_names hc.pat h⟩
  · rintro rfl
    exact isMatchQ_false hc.pat hc.comm hc.heads hr hw hn' h

/-- C23 under a `Flat` head `h`: if `h[largs]` does not match `h[args]` as a whole, it is matched as
`h[start___, largs, end___]` (without `start___` if `h` is `Orderless`), and the leftover arguments stay around the result. Otherwise
nothing changes, not even inside the arguments. -/
theorem C23_flat (env : MEnv) [env.Exact] (m : Nat) (h : String) (largs args : List Ex) (rhs : Ex) (hfl : env.flat h = true) (hne : h ≠ "") :
    let e := Ex.expr (.sym h :: args)
    let lhs := Ex.expr (.sym h :: largs)
    let before := if env.orderless h then [] else [anySeq "System`Expreduce`start"]
    let before' := if env.orderless h then [] else [Ex.sym "System`Expreduce`start"]
    let loose := Ex.expr (.sym h :: (before ++ largs ++ [anySeq "System`Expreduce`end"]))
    Covered m lhs e → Covered m loose e → noReal e = true → wellFormed e = true →
    ∃ e', replaceAllFn env m e (rule lhs rhs) = some e' ∧
      ((∃ ρ, Matches env ρ lhs e ∧ OnlyNames ρ lhs ∧ e' = subst ρ rhs) ∨
       ((¬ ∃ ρ, Matches env ρ lhs e) ∧ ∃ ρ, Matches env ρ loose e ∧ OnlyNames ρ loose ∧
          e' = subst ρ (.expr (.sym h :: (before' ++ [rhs, .sym "System`Expreduce`end"])))) ∨
       ((¬ ∃ ρ, Matches env ρ lhs e) ∧ (¬ ∃ ρ, Matches env ρ loose e) ∧ e' = e)) := by
  intro e lhs before before' loose hc hc' hr hw
  obtain ⟨v, q, hv, h1, h2⟩ := isMatchQ_covered (env := env) hc hr hw
  obtain ⟨v', q', hv', h1', h2'⟩ := isMatchQ_covered (env := env) hc' hr hw
  have hfn : replaceAllFn env m e (rule lhs rhs) = replaceAll env m "" lhs rhs e := by
    unfold replaceAllFn
    rw [getValidRules_rule]
    simp only [rulesReplaceAll, ruleSides, rule]
    cases replaceAll env m "" lhs rhs e <;> rfl
  rw [hfn]
  have hs : hasHead "" e = false := by simpa [e, hasHead] using hne
  cases v with
  | true =>
    refine ⟨_, replaceAll_hit hs hv, Or.inl ⟨bindingsOf q, (h1 rfl).1, (h1 rfl).2, replacePD_bindings _ _⟩⟩
  | false =>
    have hfc : flatCase env (.sym h :: args) lhs = some (h, largs) := by simp [flatCase, lhs, hfl]
    rw [replaceAll_flat hs hv hfc]
    have hloose : looseLHS (env.orderless h) (.sym h) largs = loose := rfl
    unfold flatReplace
    rw [hloose, hv']
    cases v' with
    | true =>
      exact ⟨_, rfl, Or.inr (Or.inl ⟨h2 rfl, bindingsOf q', (h1' rfl).1, (h1' rfl).2, replacePD_bindings _ _⟩)⟩
    | false => exact ⟨_, rfl, Or.inr (Or.inr ⟨h2 rfl, h2' rfl, rfl⟩)⟩

/-- Such a case: `a + b + c /. a + c -> d` gives `d + b`. -/
example : replaceAllFn envP 60 (plusOf [.sym "Global`a", .sym "Global`b", .sym "Global`c"])
      (rule (plusOf [.sym "Global`a", .sym "Global`c"]) (.sym "Global`d")) =
      some (plusOf [.sym "Global`d", .sym "Global`b"]) ∧
    Covered 60 (plusOf [.sym "Global`a", .sym "Global`c", anySeq "System`Expreduce`end"])
      (plusOf [.sym "Global`a", .sym "Global`b", .sym "Global`c"]) := by
  refine ⟨by decide +kernel, ?_, by decide +kernel, Or.inl (by decide +kernel), by decide +kernel⟩
  refine plusOf_pat _ (by simp) ?_
  intro p hp
  simp only [List.mem_cons, List.not_mem_nil, or_false] at hp
  rcases hp with rfl | rfl | rfl
  · exact .body (.elem (.atom rfl))
  · exact .body (.elem (.atom rfl))
  · exact .body (.elem (.named _ (by decide) (by simp)))

/-- No symbol of the list is the head of a special node, and the empty name does not occur: `stop` never applies. -/
theorem hasHead_empty {e : Ex} (hs : containsSymbol "" e = false) : ∀ u ∈ subexprs e, hasHead "" u = false := by
  intro u hu
  by_contra hc
  simp only [Bool.not_eq_false] at hc
  cases u with
  | expr ps =>
    cases ps with
    | nil => simp [hasHead] at hc
    | cons p ps =>
      cases p <;> simp [hasHead] at hc
      subst hc
      have := (containsSymbol_iff_mem "" e).2 (subexprs_trans (mem_subexprs_part (List.mem_cons_self) (subexprs_self _)) hu)
      rw [hs] at this
      simp at this
  | _ => simp [hasHead] at hc

/-- Rules `x1 -> v1, x2 -> v2, ...` as expressions. -/
def symRules (rs : List (String × Ex)) : List Ex := rs.map (fun r => rule (.sym r.1) r.2)

/-- What C23 assumes of the fingerprints (see C09): the replacement of the first rules is told apart from the next stage. -/
def StagesDistinct (rs : List (String × Ex)) (e : Ex) : Prop :=
  ∀ j < rs.length, NoCollision (subexprs (subst (ruleValue (rs.take j)) e) ++ subexprs (subst (ruleValue (rs.take (j + 1))) e) ++
    (rs.map (fun r => Ex.sym r.1)))

theorem ruleValue_snoc (rs : List (String × Ex)) (x : String) (v : Ex) (s : String) :
    ruleValue (rs ++ [(x, v)]) s = (ruleValue rs s).orElse (fun _ => bind1 x v s) := by
  unfold ruleValue bind1
  induction rs with
  | nil =>
    simp only [List.nil_append, List.lookup, Option.orElse_none]
    by_cases h : s = x
    · simp [h]
    · rw [show (s == x) = false by simpa using h]; simp [h]
  | cons r rs ih =>
    simp only [List.cons_append, List.lookup]
    split
    · rfl
    · exact ih

theorem ruleValue_mem {rs : List (String × Ex)} {s : String} {w : Ex} (h : ruleValue rs s = some w) : ∃ r ∈ rs, r.2 = w := by
  unfold ruleValue at h
  induction rs with
  | nil => simp at h
  | cons r rs ih =>
    simp only [List.lookup] at h
    split at h
    · exact ⟨r, by simp, by simpa using h⟩
    · obtain ⟨r', hr, h⟩ := ih h
      exact ⟨r', by simp [hr], h⟩

theorem rulesReplaceAll_append (env : MEnv) (m : Nat) : ∀ (a b : List Ex) (e : Ex),
    rulesReplaceAll env m (a ++ b) e = (rulesReplaceAll env m a e).bind (rulesReplaceAll env m b)
  | [], b, e => by simp [rulesReplaceAll]
  | r :: a, b, e => by
    simp only [List.cons_append, rulesReplaceAll]
    split
    · rfl
    · split
      · rfl
      · exact rulesReplaceAll_append env m a b _

theorem subst_subexprs {ρ : String → Option Ex} {u : Ex} : ∀ e : Ex, u ∈ subexprs e → subst ρ u ∈ subexprs (subst ρ e) := by
  intro e
  induction e using Ex.ind with
  | hexpr ps ih =>
    intro hu
    simp only [subexprs, List.mem_cons, mem_subexprsL_iff] at hu
    rcases hu with rfl | ⟨p, hp, hu⟩
    · exact subexprs_self _
    · have := ih p hp hu
      simp only [subst, substL_eq]
      exact mem_subexprs_part (List.mem_map_of_mem hp) this
  | _ => intro hu; simp only [subexprs, List.mem_singleton] at hu; subst hu; exact subexprs_self _

/-- C23, several rules. Rules for symbols whose values mention none of the replaced symbols do act simultaneously, the first rule for a
symbol winning. -/
theorem C23_symbols (env : MEnv) (m : Nat) (rs : List (String × Ex)) (e : Ex) (hm : 1 ≤ m)
    (hind : ∀ r ∈ rs, ∀ r' ∈ rs, containsSymbol r.1 r'.2 = false)
    (hw : wellFormed e = true) (hwv : ∀ r ∈ rs, wellFormed r.2 = true)
    (hs : containsSymbol "" e = false) (hsv : ∀ r ∈ rs, containsSymbol "" r.2 = false) (hd : StagesDistinct rs e) :
    replaceAllFn env m e (listOf (symRules rs)) = some (subst (ruleValue rs) e) := by
  have hrules : getValidRules (listOf (symRules rs)) = symRules rs := by
    have := getValidRules_list (rs.map (fun r => (Ex.sym r.1, r.2)))
    simpa [List.map_map, Function.comp_def, symRules] using this
  unfold replaceAllFn
  rw [hrules]
  have main : ∀ j ≤ rs.length, rulesReplaceAll env m (symRules (rs.take j)) e = some (subst (ruleValue (rs.take j)) e) := by
    intro j
    induction j with
    | zero =>
      intro _
      simp only [List.take_zero, symRules, List.map_nil, rulesReplaceAll]
      congr 1
      exact (subst_nil e).symm
    | succ j ih =>
      intro hj
      have hj' : j < rs.length := by omega
      obtain ⟨⟨x, v⟩, hx⟩ : ∃ r, rs[j] = r := ⟨_, rfl⟩
      have hmem : (x, v) ∈ rs := by rw [← hx]; exact List.getElem_mem _
      have htake : rs.take (j + 1) = rs.take j ++ [(x, v)] := by rw [List.take_succ_eq_append_getElem hj', hx]
      have hsub : ∀ s w, ruleValue (rs.take j) s = some w → ∃ r ∈ rs, r.2 = w := by
        intro s w h
        obtain ⟨r, hr, h⟩ := ruleValue_mem h
        exact ⟨r, List.mem_of_mem_take hr, h⟩
      have hcomp : subst (ruleValue (rs.take (j + 1))) e = subst (bind1 x v) (subst (ruleValue (rs.take j)) e) := by
        rw [subst_comp, htake]
        · congr 1
          funext s
          exact ruleValue_snoc _ _ _ _
        · intro s w h
          obtain ⟨r, hr, rfl⟩ := hsub s w h
          exact hind _ hmem _ hr
      have hnc := hd j hj'
      rw [hcomp] at hnc
      have hd1 : Decides env m (.sym x) v (onlyAt (.sym x) v) (subst (ruleValue (rs.take j)) e) := by
        refine decides_symbol hm (wellFormed_subst ?_ e hw) ?_
        · intro s w h
          obtain ⟨r, hr, rfl⟩ := hsub s w h
          exact hwv _ hr
        · intro u hu hh
          refine hnc _ ?_ _ ?_ hh
          · simp [hu]
          · simp only [List.mem_append, List.mem_map]
            exact Or.inr ⟨_, hmem, rfl⟩
      have hne : ∀ u ∈ subexprs (subst (ruleValue (rs.take j)) e), hasHead "" u = false := by
        refine hasHead_empty (containsSymbol_subst ?_ e hs)
        intro s w h
        obtain ⟨r, hr, rfl⟩ := hsub s w h
        exact hsv _ hr
      have hre : ∀ u ∈ subexprs (subst (ruleValue (rs.take j)) e), rewriteOut (hasHead "") (onlyAt (.sym x) v) u = subst (bind1 x v) u := by
        intro u hu
        exact rewriteOut_subst u (fun w hw => hne w (subexprs_trans hw hu))
      have hstep := replaceAll_eq (env := env) (m := m) (stop := "") (lhs := .sym x) (rhs := v) (hit := onlyAt (.sym x) v)
        (by simp) _ hd1 (by
          intro u hu hh
          rw [hre u hu] at hh ⊢
          refine hnc _ ?_ _ ?_ hh
          · have := subst_subexprs (ρ := bind1 x v) _ hu
            simp [this]
          · simp [hu])
      rw [hre _ (subexprs_self _)] at hstep
      rw [htake]
      have : symRules (rs.take j ++ [(x, v)]) = symRules (rs.take j) ++ [rule (.sym x) v] := by simp [symRules]
      rw [this, rulesReplaceAll_append, ih (by omega)]
      simp only [Option.bind_some, rulesReplaceAll, ruleSides, rule]
      rw [hstep, ← htake, hcomp]
  have := main rs.length le_rfl
  rwa [List.take_length] at this

/-- Such a case: `{x, y, f[x]} /. {x -> 1, y -> f[2]}`. -/
example : let rs := [("Global`x", Ex.int 1), ("Global`y", fOf [.int 2])]
    let e := listOf [gx, gy, fOf [gx]]
    (∀ r ∈ rs, ∀ r' ∈ rs, containsSymbol r.1 r'.2 = false) ∧ wellFormed e = true ∧ containsSymbol "" e = false ∧ StagesDistinct rs e ∧
      replaceAllFn envP 1 e (listOf (symRules rs)) = some (listOf [.int 1, fOf [.int 2], fOf [.int 1]]) := by
  refine ⟨by decide +kernel, by decide +kernel, by decide +kernel, ?_, by decide +kernel⟩
  unfold StagesDistinct NoCollision; decide +kernel

/-! ### C63: `Replace` and function application use the first rule that applies -/

theorem argsOf_none_hasHead {h : String} {t : Ex} (hs : argsOf h t = none) : hasHead h t = false := by
  unfold hasHead
  split
  · simp only [argsOf, ite_eq_right_iff, reduceCtorEq, imp_false] at hs
    simpa using hs
  · rfl

theorem hasHead_argsOf_none {h : String} {t : Ex} (hs : hasHead h t = false) : argsOf h t = none := by
  unfold hasHead at hs
  unfold argsOf
  split
  · rw [if_neg]; simpa using hs
  · rfl

theorem argsOf_eq {h : String} {t : Ex} {args : List Ex} (hs : argsOf h t = some args) : t = .expr (.sym h :: args) := by
  unfold argsOf at hs
  split at hs
  · split at hs
    · rename_i h1; simp only [Option.some.injEq] at hs; rw [hs, h1]
    · simp at hs
  · simp at hs

theorem argsOf_S {args : List Ex} : argsOf "System`Condition" (.expr (S "Condition" :: args)) = some args := by simp [argsOf, S]

/-- The right side after a match, under the bindings found. -/
theorem tryCond_yields {env : MEnv} {locals : Ex → Option Ex} : ∀ {n : Nat} {rhs res : Ex}, tryCond env locals n rhs = some (some res) →
    Yields env locals rhs res
  | 0, rhs, res, h => by simp [tryCond] at h
  | n + 1, rhs, res, h => by
    rw [tryCond] at h
    split at h
    · rename_i hc
      simp only [Option.some.injEq] at h
      subst h
      unfold condArgs at hc
      split at hc
      · simp at hc
      · rename_i hno
        refine .plain ?_ ?_
        · exact argsOf_none_hasHead hno
        · intro b hb
          rw [hb] at hc
          simp only [Option.bind_some] at hc
          exact argsOf_none_hasHead hc
    · rename_i body cond rest hc
      split at h
      · rename_i ht
        have ih := tryCond_yields h
        unfold condArgs at hc
        split at hc
        · rename_i args hargs
          simp only [Option.some.injEq] at hc
          subst hc
          rw [argsOf_eq hargs]
          exact .cond ht ih
        · rename_i hno
          obtain ⟨b, hb, hb2⟩ := Option.bind_eq_some_iff.1 hc
          rw [argsOf_eq hb2] at hb
          exact .inner (argsOf_none_hasHead hno) hb ht ih
      · simp at h
    · simp at h

/-- A right side whose condition fails yields nothing. -/
theorem tryCond_fails {env : MEnv} {locals : Ex → Option Ex} : ∀ {n : Nat} {rhs : Ex}, tryCond env locals n rhs = some none →
    ¬ ∃ res, Yields env locals rhs res
  | 0, rhs, h => by simp [tryCond] at h
  | n + 1, rhs, h => by
    rw [tryCond] at h
    split at h
    · simp at h
    · rename_i body cond rest hc
      have key : ∀ res, Yields env locals rhs res → env.isTrue cond = true ∧ Yields env locals body res := by
        intro res hy
        unfold condArgs at hc
        cases hy with
        | plain h1 h2 =>
          rw [hasHead_argsOf_none h1] at hc
          obtain ⟨b, hb, hb2⟩ := Option.bind_eq_some_iff.1 hc
          have := h2 b hb
          rw [argsOf_eq hb2] at this
          simp [hasHead] at this
        | cond ht hy =>
          rw [show argsOf "System`Condition" _ = some _ from argsOf_S] at hc
          simp only [Option.some.injEq, List.cons.injEq] at hc
          obtain ⟨rfl, rfl, rfl⟩ := hc
          exact ⟨ht, hy⟩
        | inner h1 h2 ht hy =>
          rw [hasHead_argsOf_none h1, h2] at hc
          simp only [Option.bind_some] at hc
          rw [argsOf_S] at hc
          simp only [Option.some.injEq, List.cons.injEq] at hc
          obtain ⟨rfl, rfl, rfl⟩ := hc
          exact ⟨ht, hy⟩
      split at h
      · have ih := tryCond_fails h
        rintro ⟨res, hy⟩
        exact ih ⟨res, (key res hy).2⟩
      · rename_i ht
        rintro ⟨res, hy⟩
        exact ht (key res hy).1
    · simp at h

theorem replaceLoop_some {env : MEnv} {locals : Ex → Option Ex} {n : Nat} {rhs res : Ex} : ∀ {rs : List (Option PM)},
    replaceLoop env locals n rhs rs = some (some res) → ∃ l r t, rs = l ++ r :: t ∧ Yields env locals (subst (bindingsOf r) rhs) res ∧
      ∀ r' ∈ l, ¬ ∃ res', Yields env locals (subst (bindingsOf r') rhs) res'
  | [], h => by simp [replaceLoop] at h
  | r :: rs, h => by
    rw [replaceLoop] at h
    split at h
    · simp at h
    · rename_i res' hr
      simp only [Option.some.injEq] at h
      subst h
      refine ⟨[], r, rs, rfl, ?_, by simp⟩
      rw [← replacePD_bindings]
      exact tryCond_yields hr
    · rename_i hr
      obtain ⟨l, r', t, rfl, hy, hl⟩ := replaceLoop_some h
      refine ⟨r :: l, r', t, rfl, hy, ?_⟩
      intro r'' hr''
      rcases List.mem_cons.1 hr'' with rfl | hm
      · rw [← replacePD_bindings]
        exact tryCond_fails hr
      · exact hl _ hm

theorem replaceLoop_none {env : MEnv} {locals : Ex → Option Ex} {n : Nat} {rhs : Ex} : ∀ {rs : List (Option PM)},
    replaceLoop env locals n rhs rs = some none → ∀ r ∈ rs, ¬ ∃ res, Yields env locals (subst (bindingsOf r) rhs) res
  | [], _ => by simp
  | r :: rs, h => by
    rw [replaceLoop] at h
    split at h
    · simp at h
    · simp at h
    · rename_i hr
      intro r' hr'
      rcases List.mem_cons.1 hr' with rfl | hm
      · rw [← replacePD_bindings]; exact tryCond_fails hr
      · exact replaceLoop_none h _ hm

/-- The rule `lhs -> rhs` applies to `e` and gives `res`. -/
def Applies (env : MEnv) (locals : Ex → Option Ex) (lhs rhs e res : Ex) : Prop :=
  ∃ ρ, Matches env ρ lhs e ∧ OnlyNames ρ lhs ∧ Yields env locals (subst ρ rhs) res

/-- The rule `lhs -> rhs` does not apply to `e`: for every way of matching (up to sameness of the values) the condition of the right
side fails. -/
def NeverApplies (env : MEnv) (locals : Ex → Option Ex) (lhs rhs e : Ex) : Prop :=
  ∀ ρ, Matches env ρ lhs e → ∃ ρ', Matches env ρ' lhs e ∧ OnlyNames ρ' lhs ∧ (∀ x v, ρ' x = some v → ∃ w, ρ x = some w ∧ hash v = hash w) ∧
    ¬ ∃ res, Yields env locals (subst ρ' rhs) res

theorem matchF_names {env : MEnv} {n : Nat} {a b : Ex} {rs pm'} (hb : EPat b) (h : matchF env n a b [] = some (rs, pm')) :
    ∀ r ∈ rs, OnlyNames (bindingsOf r) b := by
  intro r hr y hy
  by_contra hc
  have := matchF_inertAt y env n b hb hc a [] _ _ h
  cases r with
  | none => simp [bindingsOf] at hy
  | some q =>
    have := this.2 (some q) hr q rfl
    simp only [bindingsOf] at hy
    rw [this] at hy
    simp [PM.get] at hy

theorem matchF_matches {env : MEnv} [env.Exact] {n : Nat} {a b : Ex} {rs pm'} (hb : EPat b) (ha : noReal a = true) (h : matchF env n a b [] = some (rs, pm')) :
    ∀ r ∈ rs, Matches env (bindingsOf r) b a := by
  intro r hr
  have := (matchF_sound env n a b [] _ _ ha hb h).2 r hr
  cases r with
  | none => exact this _
  | some q => exact this.2

/-- C20. A match binds only names that occur in the pattern. -/
theorem C20_binds_only_names (env : MEnv) (n : Nat) (a b : Ex) (rs pm') (hb : EPat b) (h : matchF env n a b [] = some (rs, pm')) :
    ∀ r ∈ rs, ∀ x v, bindingsOf r x = some v → x ∈ patNames b := by
  intro r hr x v hx
  exact matchF_names hb h r hr x (by rw [hx]; simp)

/-- C63. One rule: if `replace` gives a result, the rule applies with it. -/
theorem C63_rule_applies (env : MEnv) [env.Exact] (locals : Ex → Option Ex) (m n : Nat) (lhs rhs e res : Ex) (hc : Covered m lhs e) (ha : noReal e = true)
    (h : replace env locals m n lhs rhs e = some (some res)) : Applies env locals lhs rhs e res := by
  unfold replace at h
  split at h
  · simp at h
  · rename_i rs pm' hm
    obtain ⟨l, r, t, rfl, hy, _⟩ := replaceLoop_some h
    exact ⟨bindingsOf r, matchF_matches hc.pat ha hm r (by simp), matchF_names hc.pat hm r (by simp), hy⟩

/-- C63. One rule: if `replace` gives none, the rule does not apply. -/
theorem C63_rule_fails (env : MEnv) [env.Exact] (locals : Ex → Option Ex) (m n : Nat) (lhs rhs e : Ex) (hc : Covered m lhs e) (ha : noReal e = true)
    (hw : wellFormed e = true) (h : replace env locals m n lhs rhs e = some none) : NeverApplies env locals lhs rhs e := by
  unfold replace at h
  split at h
  · simp at h
  · rename_i rs pm' hm
    intro ρ hρ
    obtain ⟨rs', pm'', hm', r, hr, hag⟩ := C20_all_ways env m e lhs ρ hc.pat hc.comm hc.heads ha hw (le_trans (matchFuel_le e lhs) hc.fuel) hρ
    rw [hm] at hm'
    simp only [Option.some.injEq, Prod.mk.injEq] at hm'
    obtain ⟨rfl, rfl⟩ := hm'
    exact ⟨bindingsOf r, matchF_matches hc.pat ha hm r hr, matchF_names hc.pat hm r hr, hag, replaceLoop_none h r hr⟩

theorem rulesReplace_spec {env : MEnv} [env.Exact] {locals : Ex → Option Ex} {m n : Nat} {e : Ex} (ha : noReal e = true) (hw : wellFormed e = true) :
    ∀ {rs : List (Ex × Ex)} {out : Option Ex}, (∀ r ∈ rs, Covered m r.1 e) →
      rulesReplace env locals m n e (rs.map (fun r => rule r.1 r.2)) = some out →
      (∃ l r t res, rs = l ++ r :: t ∧ out = some res ∧ Applies env locals r.1 r.2 e res ∧ ∀ r' ∈ l, NeverApplies env locals r'.1 r'.2 e) ∨
        (out = none ∧ ∀ r ∈ rs, NeverApplies env locals r.1 r.2 e)
  | [], out, _, h => by
    simp only [List.map_nil, rulesReplace, Option.some.injEq] at h
    exact Or.inr ⟨h.symm, by simp⟩
  | r :: rs, out, hc, h => by
    simp only [List.map_cons, rulesReplace, ruleSides, rule] at h
    split at h
    · simp at h
    · rename_i res hr
      simp only [Option.some.injEq] at h
      exact Or.inl ⟨[], r, rs, res, rfl, h.symm, C63_rule_applies env locals m n _ _ e res (hc r (by simp)) ha hr, by simp⟩
    · rename_i hr
      have hn := C63_rule_fails env locals m n _ _ e (hc r (by simp)) ha hw hr
      rcases rulesReplace_spec ha hw (fun r' hr' => hc r' (by simp [hr'])) h with ⟨l, r', t, res, rfl, h1, h2, h3⟩ | ⟨h1, h2⟩
      · refine Or.inl ⟨r :: l, r', t, res, rfl, h1, h2, ?_⟩
        intro r'' hr''
        rcases List.mem_cons.1 hr'' with rfl | hm
        · exact hn
        · exact h3 _ hm
      · refine Or.inr ⟨h1, ?_⟩
        intro r'' hr''
        rcases List.mem_cons.1 hr'' with rfl | hm
        · exact hn
        · exact h2 _ hm

/-- C63. `Replace[e, {r1, ..., rk}]` uses the first rule that applies to `e` as a whole, and gives `e` back if none does. -/
theorem C63_first_rule_partial (env : MEnv) [env.Exact] (locals : Ex → Option Ex) (m n : Nat) (e out : Ex) (rs : List (Ex × Ex)) (hne : rs ≠ [])
    (hc : ∀ r ∈ rs, Covered m r.1 e) (ha : noReal e = true) (hw : wellFormed e = true)
    (h : replaceFn env locals m n e (listOf (rs.map (fun r => rule r.1 r.2))) = some out) :
    (∃ l r t, rs = l ++ r :: t ∧ Applies env locals r.1 r.2 e out ∧ ∀ r' ∈ l, NeverApplies env locals r'.1 r'.2 e) ∨
      (out = e ∧ ∀ r ∈ rs, NeverApplies env locals r.1 r.2 e) := by
  unfold replaceFn at h
  rw [getValidRules_list] at h
  rw [if_neg (by simpa using hne)] at h
  split at h
  · simp at h
  · rename_i res hr
    simp only [Option.some.injEq] at h
    subst h
    rcases rulesReplace_spec ha hw hc hr with ⟨l, r, t, res', h1, h2, h3, h4⟩ | ⟨h1, h2⟩
    · simp only [Option.some.injEq] at h2
      subst h2
      exact Or.inl ⟨l, r, t, h1, h3, h4⟩
    · simp at h1
  · rename_i hr
    simp only [Option.some.injEq] at h
    rcases rulesReplace_spec ha hw hc hr with ⟨l, r, t, res', h1, h2, h3, h4⟩ | ⟨h1, h2⟩
    · simp at h2
    · exact Or.inr ⟨h.symm, h2⟩

/-- Such a case: `Replace[f[3], {f[x_] /; EvenQ[x] -> 0, f[x_] -> x}]`: the condition of the first rule fails, the second applies. -/
example : let rs := [(fOf [nm "Global`x" bl], .expr [S "Condition", .int 0, .expr [S "EvenQ", gx]]), (fOf [nm "Global`x" bl], gx)]
    (∀ r ∈ rs, Covered 60 r.1 (fOf [.int 3])) ∧
      replaceFn envP (fun _ => none) 60 9 (fOf [.int 3]) (listOf (rs.map (fun r => rule r.1 r.2))) = some (.int 3) := by
  refine ⟨?_, by decide +kernel⟩
  have hp : EPat (fOf [nm "Global`x" bl]) := by
    refine fOf_pat _ (by simp) ?_
    intro p hp
    simp only [List.mem_cons, List.not_mem_nil, or_false] at hp
    subst hp
    exact .body (.elem (.named _ (by decide) (by simp)))
  intro r hr
  simp only [List.mem_cons, List.not_mem_nil, or_false] at hr
  rcases hr with rfl | rfl
  · exact ⟨hp, by decide +kernel, Or.inl (by decide +kernel), by decide +kernel⟩
  · exact ⟨hp, by decide +kernel, Or.inl (by decide +kernel), by decide +kernel⟩

/-- C63 has an unwanted side: a right side that happens to become data with head `Condition` is taken for a condition.
`Replace[f[Condition[1, False]], f[x_] -> x]` leaves the expression alone, although the pattern matches. -/
theorem C63_data_condition : let e := fOf [.expr [S "Condition", .int 1, S "False"]]
    replaceFn envP (fun _ => none) 60 9 e (rule (fOf [nm "Global`x" bl]) gx) = some e ∧
      isMatchQ envP 60 e (fOf [nm "Global`x" bl]) [] = some (true, some [("Global`x", .expr [S "Condition", .int 1, S "False"])]) := by
  decide +kernel

/-! ### C64: `ReplaceRepeated` -/

/-- `n` rounds of evaluating `ReplaceAll`. -/
def rounds (ev : Ex → Option Ex) (arg e : Ex) : Nat → Option Ex
  | 0 => some e
  | n + 1 => (rounds ev arg e n).bind (fun t => ev (.expr [S "ReplaceAll", t, arg]))

theorem rounds_shift (ev : Ex → Option Ex) (arg e e' : Ex) (h : ev (.expr [S "ReplaceAll", e, arg]) = some e') : ∀ n,
    rounds ev arg e (n + 1) = rounds ev arg e' n
  | 0 => by simp [rounds, h]
  | n + 1 => by rw [rounds, rounds_shift ev arg e e' h n]; rfl

/-- C64. `e //. rules` returns `r` exactly if `r` is the first of the successive results of `/.` that is the same as the one before
(at most `k` rounds). -/
theorem C64_first_stable (ev : Ex → Option Ex) (arg : Ex) : ∀ (k : Nat) (e r : Ex), replaceRepeated ev arg k e = some r ↔
    ∃ j < k, ∃ t, rounds ev arg e j = some t ∧ rounds ev arg e (j + 1) = some r ∧ isSameQ t r = true ∧
      ∀ i < j, ∀ u v, rounds ev arg e i = some u → rounds ev arg e (i + 1) = some v → isSameQ u v = false
  | 0, e, r => by simp [replaceRepeated]
  | k + 1, e, r => by
    rw [replaceRepeated]
    cases hev : ev (.expr [S "ReplaceAll", e, arg]) with
    | none =>
      simp only [reduceCtorEq, false_iff, not_exists, not_and]
      intro j _ t ht hr
      have : ∀ n, rounds ev arg e (n + 1) = none := by
        intro n
        induction n with
        | zero => simp [rounds, hev]
        | succ n ih => rw [rounds, ih]; rfl
      rw [this] at hr
      simp at hr
    | some new =>
      simp only
      have h1 : rounds ev arg e 1 = some new := by simp [rounds, hev]
      by_cases hsame : isSameQ e new = true
      · rw [if_pos hsame]
        constructor
        · intro h
          simp only [Option.some.injEq] at h
          subst h
          exact ⟨0, by omega, e, rfl, h1, hsame, by omega⟩
        · rintro ⟨j, hj, t, ht, hr, hs, hmin⟩
          cases j with
          | zero =>
            rw [h1] at hr
            exact hr
          | succ j =>
            have := hmin 0 (by omega) e new rfl h1
            rw [hsame] at this
            simp at this
      · rw [if_neg hsame, C64_first_stable ev arg k new r]
        constructor
        · rintro ⟨j, hj, t, ht, hr, hs, hmin⟩
          refine ⟨j + 1, by omega, t, ?_, ?_, hs, ?_⟩
          · rw [rounds_shift _ _ _ _ hev]; exact ht
          · rw [rounds_shift _ _ _ _ hev]; exact hr
          · intro i hi u v hu hv
            cases i with
            | zero =>
              simp only [rounds, Option.some.injEq] at hu
              rw [h1] at hv
              simp only [Option.some.injEq] at hv
              subst hu hv
              simpa using hsame
            | succ i =>
              rw [rounds_shift _ _ _ _ hev] at hu hv
              exact hmin i (by omega) u v hu hv
        · rintro ⟨j, hj, t, ht, hr, hs, hmin⟩
          cases j with
          | zero =>
            simp only [rounds, Option.some.injEq] at ht
            rw [h1] at hr
            simp only [Option.some.injEq] at hr
            subst ht hr
            exact absurd hs hsame
          | succ j =>
            rw [rounds_shift _ _ _ _ hev] at ht hr
            refine ⟨j, by omega, t, ht, hr, hs, ?_⟩
            intro i hi u v hu hv
            refine hmin (i + 1) (by omega) u v ?_ ?_
            · rw [rounds_shift _ _ _ _ hev]; exact hu
            · rw [rounds_shift _ _ _ _ hev]; exact hv

/-- `es.Eval` on `ReplaceAll[e, arg]`, if nothing else has to be evaluated. -/
def evReplaceAll (env : MEnv) (m : Nat) : Ex → Option Ex
  | .expr [_, e, arg] => replaceAllFn env m e arg
  | _ => none

/-- C64, termination fails: `f[1, 2] //. f[a_, b_] -> f[b, a]` runs forever. -/
theorem C64_flip_diverges (k : Nat) :
    replaceRepeated (evReplaceAll envP 60) (rule (fOf [nm "Global`a" bl, nm "Global`b" bl]) (fOf [.sym "Global`b", .sym "Global`a"])) k
      (fOf [.int 1, .int 2]) = none := by
  have h12 : evReplaceAll envP 60 (.expr [S "ReplaceAll", fOf [.int 1, .int 2],
      rule (fOf [nm "Global`a" bl, nm "Global`b" bl]) (fOf [.sym "Global`b", .sym "Global`a"])]) = some (fOf [.int 2, .int 1]) := by decide +kernel
  have h21 : evReplaceAll envP 60 (.expr [S "ReplaceAll", fOf [.int 2, .int 1],
      rule (fOf [nm "Global`a" bl, nm "Global`b" bl]) (fOf [.sym "Global`b", .sym "Global`a"])]) = some (fOf [.int 1, .int 2]) := by decide +kernel
  have s12 : isSameQ (fOf [.int 1, .int 2]) (fOf [.int 2, .int 1]) = false := by decide +kernel
  have s21 : isSameQ (fOf [.int 2, .int 1]) (fOf [.int 1, .int 2]) = false := by decide +kernel
  have both : ∀ k, replaceRepeated (evReplaceAll envP 60) (rule (fOf [nm "Global`a" bl, nm "Global`b" bl]) (fOf [.sym "Global`b", .sym "Global`a"])) k
      (fOf [.int 1, .int 2]) = none ∧ replaceRepeated (evReplaceAll envP 60)
        (rule (fOf [nm "Global`a" bl, nm "Global`b" bl]) (fOf [.sym "Global`b", .sym "Global`a"])) k (fOf [.int 2, .int 1]) = none := by
    intro k
    induction k with
    | zero => exact ⟨rfl, rfl⟩
    | succ k ih =>
      constructor
      · rw [replaceRepeated, h12]; simp only [s12]; exact ih.2
      · rw [replaceRepeated, h21]; simp only [s21]; exact ih.1
  exact (both k).1

/-- A case that stops: `f[f[f[1]]] //. f[x_] -> x`. -/
example : replaceRepeated (evReplaceAll envP 60) (rule (fOf [nm "Global`x" bl]) gx) 9 (fOf [fOf [fOf [.int 1]]]) = some (.int 1) := by
  decide +kernel

/-! ### C65: pure functions -/

/-- `body &` is applied to arguments: the rewriting that the application should be. -/
def filled (args : List Ex) (body : Ex) : Ex := rewriteOut (hasHead "System`Function") (slotValue args) body

/-- What C65 assumes of the fingerprints (see C09). -/
def SlotStagesDistinct (args : List Ex) (body : Ex) : Prop :=
  ∀ j < args.length, NoCollision (subexprs (filled (args.take j) body) ++
    (subexprs (filled (args.take j) body)).map (rewriteOut (hasHead "System`Function") (onlyAt (slot (j + 1)) (args.getD j (.int 0)))) ++
    subexprs (slot (j + 1)))

theorem fillSlots_append (env : MEnv) (m : Nat) : ∀ (a b : List Ex) (i : Nat) (e : Ex),
    fillSlots env m i (a ++ b) e = (fillSlots env m i a e).bind (fillSlots env m (i + a.length) b)
  | [], b, i, e => by simp [fillSlots]
  | x :: a, b, i, e => by
    simp only [List.cons_append, fillSlots]
    split
    · rfl
    · rw [fillSlots_append env m a b (i + 1)]
      congr 2
      simp only [List.length_cons]
      omega

theorem slot_litPat (env : MEnv) (hfl : env.flat "System`Slot" = false) (hor : env.orderless "System`Slot" = false) (k : Int) :
    LitPat env "System`Slot" [.int k] where
  head := by decide
  flat := hfl
  ordl := hor
  ne := by simp
  atoms := by intro c hc; simp only [List.mem_singleton] at hc; subst hc; exact ⟨rfl, rfl⟩
  rat := by decide +kernel
  cplx := by decide +kernel

/-- C65. Applying `body &` to arguments puts the `k`-th argument in place of every `#k` of the body, except inside nested pure
functions, all at once; slots without argument stay. (The arguments contain no slots themselves and are not the bare symbols `Slot`
and `Function`.) -/
theorem C65_slots_partial (env : MEnv) (m : Nat) (body : Ex) (args : List Ex) (hm : 3 ≤ m)
    (hfl : env.flat "System`Slot" = false) (hor : env.orderless "System`Slot" = false)
    (hargs : ∀ a ∈ args, ArgOk a ∧ wellFormed a = true) (hw : wellFormed body = true) (hl : SlotsLiteral body)
    (hd : SlotStagesDistinct args body) : evalFunction env m [body] args = some (filled args body) := by
  have main : ∀ j ≤ args.length, fillSlots env m 1 (args.take j) body = some (filled (args.take j) body) := by
    intro j
    induction j with
    | zero =>
      intro _
      simp only [List.take_zero, fillSlots, filled]
      congr 1
      exact (rewriteOut_none _ (fun u _ => slotValue_nil u)).symm
    | succ j ih =>
      intro hj
      have hj' : j < args.length := by omega
      obtain ⟨a, hx⟩ : ∃ r, args[j] = r := ⟨_, rfl⟩
      have htake : args.take (j + 1) = args.take j ++ [a] := by rw [List.take_succ_eq_append_getElem hj', hx]
      have hlen : (args.take j).length = j := by simp; omega
      have hget : args.getD j (.int 0) = a := by simp [List.getD, hj', hx]
      have hok : ∀ b ∈ args.take j, ArgOk b := fun b hb => (hargs b (List.mem_of_mem_take hb)).1
      have hcomp : filled (args.take (j + 1)) body =
          rewriteOut (hasHead "System`Function") (onlyAt (slot (j + 1)) a) (filled (args.take j) body) := by
        have := slot_step (a := a) hok body hl
        rw [hlen] at this
        rw [htake]
        exact this.symm
      have hnc := hd j hj'
      rw [hget] at hnc
      have hwf : wellFormed (filled (args.take j) body) = true := by
        refine wellFormed_rewriteOut ?_ body hw
        intro u v h
        obtain ⟨_, _, hmem⟩ := slotValue_some h
        exact (hargs v (List.mem_of_mem_take hmem)).2
      have hd1 : Decides env m (slot (j + 1)) a (onlyAt (slot (j + 1)) a) (filled (args.take j) body) := by
        refine decides_lit (slot_litPat env hfl hor _) hm hwf ?_
        intro u hu c hc hh
        exact hnc u (by simp [hu]) c (by simp only [List.mem_append]; exact Or.inr hc) hh
      have hstep := replaceAll_eq (env := env) (m := m) (stop := "System`Function") (lhs := slot (j + 1)) (rhs := a)
        (hit := onlyAt (slot (j + 1)) a) (by
          intro s l h
          simp only [slot, Ex.expr.injEq, List.cons.injEq, Ex.sym.injEq] at h
          rw [← h.1]; exact hfl) _ hd1 (by
          intro u hu hh
          refine hnc _ ?_ _ ?_ hh
          · simp only [List.mem_append, List.mem_map]
            exact Or.inl (Or.inr ⟨u, hu, rfl⟩)
          · simp [hu])
      rw [htake, fillSlots_append, ih (by omega)]
      simp only [Option.bind_some, fillSlots]
      have hidx : Ex.expr [S "Slot", .int ((1 + (args.take j).length : Nat) : Int)] = slot (j + 1) := by
        rw [hlen]; unfold slot; simp only [S]; congr 3; push_cast; ring_nf
      rw [hidx, hstep, ← hcomp, htake]
  have := main args.length le_rfl
  rw [List.take_length] at this
  unfold evalFunction
  exact this

/-- Such a case: `f[#1, #2, (#1 &)]&[3, g]`: the slot of the inner function stays. -/
example : let body := fOf [slot 1, slot 2, .expr [S "Function", slot 1]]
    let args := [Ex.int 3, .sym "Global`g"]
    (∀ a ∈ args, wellFormed a = true) ∧ wellFormed body = true ∧ SlotStagesDistinct args body ∧
      evalFunction envP 3 [body] args = some (fOf [.int 3, .sym "Global`g", .expr [S "Function", slot 1]]) := by
  refine ⟨by decide +kernel, by decide +kernel, ?_, by decide +kernel⟩
  unfold SlotStagesDistinct NoCollision
  decide +kernel

/-- The argument condition is met by every atom that is not one of the two symbols. -/
theorem argOk_atom {a : Ex} (h : isAtom a = true) (h1 : a ≠ .sym "System`Slot") (h2 : a ≠ .sym "System`Function") : ArgOk a := by
  refine ⟨?_, h1, h2⟩
  intro u hu
  cases a <;> simp_all [isAtom, subexprs, hasHead]

/-- C65, one named parameter: `Function[x, body][a]` is `body` with `a` for `x`, except inside nested pure functions; further arguments
are ignored. -/
theorem C65_named (env : MEnv) (m : Nat) (x : String) (body a : Ex) (rest : List Ex) (hm : 1 ≤ m) (hw : wellFormed body = true)
    (hd : NoCollision (subexprs body ++ (subexprs body).map (rewriteOut (hasHead "System`Function") (onlyAt (.sym x) a)) ++ [.sym x])) :
    evalFunction env m [.sym x, body] (a :: rest) = some (rewriteOut (hasHead "System`Function") (onlyAt (.sym x) a) body) := by
  unfold evalFunction
  simp only
  refine replaceAll_eq (by simp) body (decides_symbol hm hw ?_) ?_
  · intro u hu hh
    exact hd u (by simp [hu]) _ (by simp) hh
  · intro u hu hh
    refine hd _ ?_ u (by simp [hu]) hh
    simp only [List.mem_append, List.mem_map]
    exact Or.inl (Or.inr ⟨u, hu, rfl⟩)

/-- Such a case: `Function[x, f[x, Function[x, x]]][7]`. -/
example : let body := fOf [gx, .expr [S "Function", gx, gx]]
    NoCollision (subexprs body ++ (subexprs body).map (rewriteOut (hasHead "System`Function") (onlyAt gx (.int 7))) ++ [gx]) ∧
      evalFunction envP 1 [gx, body] [.int 7] = some (fOf [.int 7, .expr [S "Function", gx, gx]]) := by
  refine ⟨?_, by decide +kernel⟩
  unfold NoCollision
  decide +kernel

/-- C65, slots in arguments are captured: `f[#1, #2]&[#2, 5]` gives `f[5, 5]`, not `f[#2, 5]`. -/
theorem C65_capture : evalFunction envP 9 [fOf [slot 1, slot 2]] [slot 2, .int 5] = some (fOf [.int 5, .int 5]) := by decide +kernel

/-- C65, `Function[x, body][]` crashes, whatever the body. -/
theorem C65_no_argument_crashes (env : MEnv) (m : Nat) (x : String) (body : Ex) : evalFunction env m [.sym x, body] [] = none := rfl

/-- C65, functions with a list of parameters are not applied and lose their arguments: `Function[{x, y}, body][1, 2]` becomes
`Function[{x, y}, body]`. -/
theorem C65_list_parameters_lost (env : MEnv) (m : Nat) (xs args : List Ex) (body : Ex) :
    evalFunction env m [listOf xs, body] args = some (.expr [S "Function", listOf xs, body]) := rfl

/-- C65, the head made by a replacement stops later ones: `#1[#2]&[Function, 5]` keeps the second slot. -/
theorem C65_function_argument : evalFunction envP 9 [.expr [slot 1, slot 2]] [S "Function", .int 5] = some (.expr [S "Function", slot 2]) := by
  decide +kernel

end Expreduce
