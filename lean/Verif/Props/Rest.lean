import Verif.Model.Rest
import Verif.Props.Replace
import Mathlib.NumberTheory.PrimeCounting

/-!
# `MatchQ`, `ReplaceList`, `DownValues`, `Prime`, random numbers and pauses (C106 to C109)
-/

namespace Expreduce
open Ex

/-! ### C106: `ReplaceList` -/

/-- C106. `MatchQ` answers `True` exactly if the expression is an instance of the pattern, and otherwise `False`. -/
theorem C106_matchq (env : MEnv) [env.Exact] (n : Nat) (e p : Ex) (hc : Covered n p e) (ha : noReal e = true) (hw : wellFormed e = true) :
    ((∃ ρ, Matches env ρ p e) → matchQFn env n [e, p] = some (S "True")) ∧
      ((¬ ∃ ρ, Matches env ρ p e) → matchQFn env n [e, p] = some (S "False")) := by
  have hd := C20_decides env n e p hc.pat hc.comm hc.heads ha hw (le_trans (matchFuel_le e p) hc.fuel)
  obtain ⟨v, r, hr⟩ := C20_returns env n e p [] hc.pat hw (le_trans (matchFuel_le e p) hc.fuel)
  constructor
  · intro h
    obtain ⟨r', h'⟩ := hd.2 h
    simp [matchQFn, h']
  · intro h
    cases v with
    | true => exact absurd (hd.1 ⟨r, hr⟩) h
    | false => simp [matchQFn, hr]

/-- C106. Every entry of `ReplaceList[e, l -> r]` is the right side with the names replaced by the values of one way to match. -/
theorem C106_sound_partial (env : MEnv) [env.Exact] (n : Nat) (e l r out : Ex) (hl : EPat l) (ha : noReal e = true)
    (h : replaceListFn env n [e, rule l r] = some out) :
    ∃ xs, out = listOf xs ∧ ∀ x ∈ xs, ∃ ρ, Matches env ρ l e ∧ OnlyNames ρ l ∧ x = subst ρ r := by
  simp only [replaceListFn, rule, argsOf, S, String.reduceAppend, if_true, beq_self_eq_true, replaceListLoop, Option.map_map,
    Option.map_eq_some_iff, Function.comp] at h
  obtain ⟨⟨rs, pm'⟩, hm, rfl⟩ := h
  refine ⟨_, rfl, ?_⟩
  intro x hx
  obtain ⟨q, hq, rfl⟩ := List.mem_map.1 hx
  exact ⟨bindingsOf q, matchF_matches hl ha hm q hq, matchF_names hl hm q hq, replacePD_bindings r q⟩

/-- C106. `ReplaceList` misses no way to match: for all bindings `ρ` under which the expression is an instance of the pattern there is an entry,
made with values that are those of `ρ` (up to a coincidence of fingerprints). In particular the result is empty only if nothing matches. -/
theorem C106_complete (env : MEnv) [env.Exact] (n : Nat) (e l r : Ex) (hc : Covered n l e) (ha : noReal e = true) (hw : wellFormed e = true) :
    ∃ xs, replaceListFn env n [e, rule l r] = some (listOf xs) ∧ ∀ ρ, Matches env ρ l e →
      ∃ ρ', subst ρ' r ∈ xs ∧ Matches env ρ' l e ∧ ∀ x v, ρ' x = some v → ∃ w, ρ x = some w ∧ hash v = hash w := by
  obtain ⟨⟨rs, pm'⟩, hm⟩ := matchF_total env n e l [] hc.pat hw (le_trans (matchFuel_le e l) hc.fuel)
  refine ⟨rs.map (replacePD r), ?_, ?_⟩
  · simp [replaceListFn, rule, argsOf, S, replaceListLoop, hm, listOf]
  · intro ρ hρ
    obtain ⟨rs', pm'', hm', q, hq, hag⟩ := C20_all_ways env n e l ρ hc.pat hc.comm hc.heads ha hw (le_trans (matchFuel_le e l) hc.fuel) hρ
    rw [hm] at hm'
    simp only [Option.some.injEq, Prod.mk.injEq] at hm'
    obtain ⟨rfl, rfl⟩ := hm'
    refine ⟨bindingsOf q, ?_, matchF_matches hc.pat ha hm q hq, hag⟩
    rw [← replacePD_bindings]
    exact List.mem_map_of_mem hq

/-- C106, an example: the three ways to cut a list in two. -/
example : replaceListFn envP 60 [listOf [.int 1, .int 2], rule (listOf [anySeq "x", anySeq "y"]) (listOf [.expr [S "f", .sym "x"], .expr [S "g", .sym "y"]])] =
    some (listOf [
      listOf [.expr [S "f", .expr [S "Sequence"]], .expr [S "g", .expr [S "Sequence", .int 1, .int 2]]],
      listOf [.expr [S "f", .expr [S "Sequence", .int 1]], .expr [S "g", .expr [S "Sequence", .int 2]]],
      listOf [.expr [S "f", .expr [S "Sequence", .int 1, .int 2]], .expr [S "g", .expr [S "Sequence"]]]]) := by
  decide +kernel

example : Covered 60 (listOf [anySeq "x", anySeq "y"]) (listOf [.int 1, .int 2]) where
  pat := by
    refine .app (s := "System`List") (by decide) (by simp) ?_
    intro p hp
    simp only [List.mem_cons, List.not_mem_nil, or_false] at hp
    rcases hp with rfl | rfl
    · exact .named _ (.elem (.blank (by decide) (by simp)))
    · exact .named _ (.elem (.blank (by decide) (by simp)))
  comm := by decide +kernel
  heads := Or.inl (by decide +kernel)
  fuel := by decide +kernel

/-- C106, a disagreement: a condition on the right side is not tested; the entry is left with the failed condition in it. -/
theorem C106_condition_ignored : replaceListFn envP 60 [fOf [.int 1], rule (fOf [nm "x" bl]) (.expr [S "Condition", .sym "x", S "False"])] =
    some (listOf [.expr [S "Condition", .int 1, S "False"]]) := by
  decide +kernel

/-- C106, a disagreement: a delayed rule (or a list of rules) is not accepted. -/
theorem C106_delayed_refused (env : MEnv) (n : Nat) (e l r : Ex) :
    replaceListFn env n [e, .expr [S "RuleDelayed", l, r]] = some (.expr [S "ReplaceList", e, .expr [S "RuleDelayed", l, r]]) := by
  simp [replaceListFn, argsOf, S]

/-- C106, a crash: `ReplaceList[e, Rule[l]]`. -/
theorem C106_short_rule_crashes (env : MEnv) (n : Nat) (e l : Ex) : replaceListFn env n [e, .expr [S "Rule", l]] = none := by
  simp [replaceListFn, argsOf, S]

/-! ### C107: `DownValues` -/

/-- Rules as assignments make them: the left side is below `HoldPattern` and is a symbol or a compound expression. -/
def Assigned (dvs : List DV) : Prop := ∀ dv ∈ dvs, ∃ l, dv.lhs = held l ∧ (isCompound l = true ∨ ∃ s, l = .sym s)

theorem overwrite_lhs {hl rhs : Ex} : ∀ {dvs dvs' : List DV}, overwrite hl rhs dvs = some (some dvs') → dvs'.map DV.lhs = dvs.map DV.lhs
  | [], dvs', h => by simp [overwrite] at h
  | dv :: dvs, dvs', h => by
    rw [overwrite] at h
    have key : ∀ {q}, (overwrite hl rhs dvs).map (Option.map (dv :: ·)) = some (some q) → q.map DV.lhs = (dv :: dvs).map DV.lhs := by
      intro q hq
      simp only [Option.map_eq_some_iff] at hq
      obtain ⟨o, ho, hq⟩ := hq
      obtain ⟨o', ho', rfl⟩ := hq
      subst ho'
      simp [overwrite_lhs ho]
    split at h
    · split at h
      · split at h
        · simp only [Option.some.injEq] at h
          subst h
          simp
        · exact key h
      · simp at h
    · exact key h

theorem insertRule_mem {strLen name hl rhs new} : ∀ {dvs dvs' : List DV}, insertRule strLen name hl rhs new dvs = some dvs' →
    ∀ dv ∈ dvs', dv.lhs = hl ∨ dv ∈ dvs
  | [], dvs', h, dv, hdv => by
    simp only [insertRule, Option.some.injEq] at h
    subst h
    simp only [List.mem_singleton] at hdv
    subst hdv
    exact Or.inl rfl
  | d :: dvs, dvs', h, dv, hdv => by
    rw [insertRule] at h
    split at h
    · simp at h
    · split at h
      · simp only [Option.some.injEq] at h
        subst h
        rcases List.mem_cons.1 hdv with rfl | hdv
        · exact Or.inl rfl
        · exact Or.inr hdv
      · simp only [Option.map_eq_some_iff] at h
        obtain ⟨q, hq, rfl⟩ := h
        rcases List.mem_cons.1 hdv with rfl | hdv
        · exact Or.inr (by simp)
        · rcases insertRule_mem hq dv hdv with h | h
          · exact Or.inl h
          · exact Or.inr (by simp [h])

theorem targetOf_rule {lhs : Ex} {name : String} (h : targetOf lhs = .rule name) : isCompound lhs = true ∨ ∃ s, lhs = .sym s := by
  cases lhs with
  | sym s => exact Or.inr ⟨s, rfl⟩
  | expr ps => exact Or.inl rfl
  | _ => simp [targetOf] at h

/-- Assignments (other than those to `DownValues[...]`) store such rules. -/
theorem define_assigned {strLen st lhs rhs st'} (h : define strLen st lhs rhs = some st') (ht : ∀ s, targetOf lhs ≠ .downValues s)
    (hs : ∀ s d, st.defs s = some d → Assigned d.downvalues) : ∀ s d, st'.defs s = some d → Assigned d.downvalues := by
  unfold define at h
  split at h
  · simp only [Option.some.injEq] at h
    subst h
    exact hs
  · split at h
    · simp at h
    · simp only [Option.some.injEq] at h
      subst h
      exact hs
    · rename_i a _
      simp only [Option.some.injEq] at h
      subst h
      intro s d hd
      change defineAttrs st.defs a rhs s = some d at hd
      have hd' := hd
      unfold defineAttrs at hd'
      cases hx : argsOf "System`List" rhs with
      | none => rw [hx] at hd'; exact hs s d hd'
      | some as =>
        rw [hx] at hd'
        simp only at hd'
        cases hy : attrNamesOf as with
        | none => rw [hy] at hd'; exact hs s d hd'
        | some ns =>
          rw [hy] at hd'
          clear hd
          rename' hd' => hd
          simp only [Table.set] at hd
          split at hd
          · simp only [Option.some.injEq] at hd
            subst hd
            rename_i e
            subst e
            cases hq : st.defs s with
            | none => simp [Assigned]
            | some q => simpa using hs s q hq
          · exact hs s d hd
    · rename_i s hq
      exact absurd hq (ht s)
    · rename_i name hq
      split at h
      · simp only [Option.some.injEq] at h
        subst h
        intro s d hd
        simp only [Table.set] at hd
        split at hd
        · simp only [Option.some.injEq] at hd
          subst hd
          intro dv hdv
          simp only [List.mem_singleton] at hdv
          subst hdv
          exact ⟨lhs, rfl, targetOf_rule hq⟩
        · exact hs s d hd
      · rename_i d0 hd0
        simp only [Option.map_eq_some_iff] at h
        obtain ⟨dvs, hdvs, rfl⟩ := h
        intro s d hd
        simp only [Table.set] at hd
        split at hd
        · simp only [Option.some.injEq] at hd
          subst hd
          intro dv hdv
          simp only at hdv
          unfold defineRule at hdvs
          split at hdvs
          · simp at hdvs
          · rename_i q ho
            simp only [Option.some.injEq] at hdvs
            subst hdvs
            have h1 := overwrite_lhs ho
            have h2 : dv.lhs ∈ d0.downvalues.map DV.lhs := by rw [← h1]; exact List.mem_map_of_mem hdv
            obtain ⟨dv', h3, h4⟩ := List.mem_map.1 h2
            rw [← h4]
            exact hs _ _ hd0 dv' h3
          · split at hdvs
            · simp at hdvs
            · rcases insertRule_mem hdvs dv hdv with h | h
              · exact ⟨lhs, h, targetOf_rule hq⟩
              · exact hs _ _ hd0 dv h
        · exact hs s d hd

/-- The rule as `DownValues` shows it. -/
def listed (dv : DV) : Ex := .expr [S "RuleDelayed", dv.lhs, dv.rhs]

/-- A value of the symbol itself (`x = 5`), which `DownValues` does not show. -/
def isOwn (dv : DV) : Prop := ∃ s, dv.lhs = held (.sym s)

instance (dv : DV) : Decidable (isOwn dv) :=
  match h : dv.lhs with
  | .expr [.sym t, .sym s] => if ht : t = "System`HoldPattern" then isTrue ⟨s, by rw [h, ht]; rfl⟩ else isFalse (by
      rintro ⟨s', hs'⟩; rw [h] at hs'; simp [held, S] at hs'; exact ht hs'.1)
  | .sym _ | .str _ | .int _ | .rat _ _ | .flt _ | .cplx _ _ => isFalse (by rintro ⟨s, hs⟩; rw [h] at hs; simp [held] at hs)
  | .expr [] => isFalse (by rintro ⟨s, hs⟩; rw [h] at hs; simp [held] at hs)
  | .expr [_] => isFalse (by rintro ⟨s, hs⟩; rw [h] at hs; simp [held] at hs)
  | .expr (_ :: _ :: _ :: _) => isFalse (by rintro ⟨s, hs⟩; rw [h] at hs; simp [held] at hs)
  | .expr [.expr _, _] | .expr [.str _, _] | .expr [.int _, _] | .expr [.rat _ _, _] | .expr [.flt _, _] | .expr [.cplx _ _, _] =>
    isFalse (by rintro ⟨s, hs⟩; rw [h] at hs; simp [held, S] at hs)
  | .expr [.sym _, .expr _] | .expr [.sym _, .str _] | .expr [.sym _, .int _] | .expr [.sym _, .rat _ _] | .expr [.sym _, .flt _]
  | .expr [.sym _, .cplx _ _] =>
    isFalse (by rintro ⟨s, hs⟩; rw [h] at hs; simp [held, S] at hs)

theorem listRules_assigned : ∀ {dvs : List DV}, Assigned dvs → listRules dvs = some ((dvs.filter (fun dv => ¬ isOwn dv)).map listed)
  | [], _ => rfl
  | dv :: dvs, h => by
    have ih := listRules_assigned (dvs := dvs) (fun d hd => h d (by simp [hd]))
    obtain ⟨l, hl, hc⟩ := h dv (by simp)
    rw [listRules, hl]
    simp only [held, lhsPart, ih, Option.map_some]
    rcases hc with hc | ⟨s, rfl⟩
    · have hn : ¬ isOwn dv := by
        rintro ⟨s, hs⟩
        rw [hl] at hs
        simp only [held, Ex.expr.injEq, List.cons.injEq, true_and, and_true] at hs
        subst hs
        simp [isCompound] at hc
      simp [hc, hn, listed, hl, held]
    · have hn : isOwn dv := ⟨s, hl⟩
      simp [isCompound, hn]

/-- C107. `DownValues[f]` lists exactly the rules for calls of `f`, in the order in which they are tried. -/
theorem C107_lists_partial (t : Table) (s : String) (d : DefM) (hd : t s = some d) (ha : Assigned d.downvalues) :
    downValuesFn t s = some (listOf ((d.downvalues.filter (fun dv => ¬ isOwn dv)).map listed)) := by
  simp [downValuesFn, hd, listRules_assigned ha, listOf]

/-- C107. A symbol nothing is known of has no rules. -/
theorem C107_lists_unknown (t : Table) (s : String) (hd : t s = none) : downValuesFn t s = some (listOf []) := by
  simp [downValuesFn, hd, listOf]

theorem rulesOf_listed : ∀ dvs : List DV, rulesOf (dvs.map listed) = some (dvs.map (fun dv => { lhs := dv.lhs, rhs := dv.rhs }))
  | [] => rfl
  | dv :: dvs => by
    simp [rulesOf, listed, S, rulesOf_listed dvs]

/-- What the evaluation of calls and symbols can see of a table: the rules in their order, the attributes, the default, the builtin function. -/
def visible (t : Table) (s : String) : Option (List (Ex × Ex) × Attrs × Option Ex × Bool) :=
  (t s).map (fun d => (d.downvalues.map (fun dv => (dv.lhs, dv.rhs)), d.attrs, d.dflt, d.builtin))

/-- `DownValues[f]` as a left side. -/
def downValuesOf (s : String) : Ex := .expr [S "DownValues", .sym s]

/-- C107. The listing can be assigned back: `DownValues[f] = DownValues[f]` changes nothing, if the symbol has no value of its own. -/
theorem C107_roundtrip (strLen : Ex → Nat) (st st' : DState) (s : String) (d : DefM) (out : Ex) (hd : st.defs s = some d) (ha : Assigned d.downvalues)
    (hown : ∀ dv ∈ d.downvalues, ¬ isOwn dv) (ho : downValuesFn st.defs s = some out)
    (h : define strLen st (downValuesOf s) out = some st') : ∀ name, visible st'.defs name = visible st.defs name := by
  rw [C107_lists_partial _ _ _ hd ha, List.filter_eq_self.2 (by simpa using hown), Option.some.injEq] at ho
  subst ho
  intro name
  unfold define at h
  split at h
  · simp only [Option.some.injEq] at h
    rw [h]
  · simp only [targetOf, downValuesOf, S, metaTarget, String.reduceAppend, String.reduceEq, if_false, if_true, defineDownValues, listOf, argsOf,
      beq_self_eq_true, rulesOf_listed, Option.map_some, Option.some.injEq, hd, Option.getD_some] at h
    subst h
    simp only [visible, Table.set]
    split
    · rename_i e
      subst e
      simp [hd]
    · rfl

/-- C107, a disagreement: a value of the symbol itself is lost when the listing is assigned back. -/
theorem C107_own_value_lost : ∃ st st' : DState, getSymDef st "f" = some (.int 5) ∧ (∃ out, downValuesFn st.defs "f" = some out ∧
    define (fun _ => 1) st (downValuesOf "f") out = some st') ∧ getSymDef st' "f" = none := by
  refine ⟨{ defs := fun n => if n = "f" then some { downvalues := [{ lhs := held (.sym "f"), rhs := .int 5 }] } else none },
    { defs := Table.set (fun n => if n = "f" then some { downvalues := [{ lhs := held (.sym "f"), rhs := .int 5 }] } else none) "f" {} },
    by simp [getSymDef, held, S, isSymbolRule], ⟨listOf [], ?_, ?_⟩, by simp [getSymDef, Table.set]⟩
  · simp [downValuesFn, listRules, held, lhsPart, isCompound, listOf]
  · simp [define, targetOf, downValuesOf, S, metaTarget, defineDownValues, listOf, argsOf, rulesOf]

/-- C107, a disagreement: a rule assigned through `DownValues[f] = {f[1] :> r}` works but is not listed. -/
theorem C107_unheld_hidden (t : Table) (s : String) (r : Ex) : ∃ t', defineDownValues t s (listOf [.expr [S "RuleDelayed", .expr [.sym s, .int 1], r]]) = some t' ∧
    (∃ d, t' s = some d ∧ ∃ dv ∈ d.downvalues, dv.lhs = .expr [.sym s, .int 1] ∧ dv.rhs = r) ∧ downValuesFn t' s = some (listOf []) := by
  refine ⟨t.set s { (t s).getD {} with downvalues := [{ lhs := .expr [.sym s, .int 1], rhs := r }] }, ?_, ⟨{ (t s).getD {} with downvalues := [{ lhs := .expr [.sym s, .int 1], rhs := r }] }, by simp only [Table.set, if_true], { lhs := .expr [.sym s, .int 1], rhs := r }, List.mem_singleton.2 rfl, rfl, rfl⟩, ?_⟩
  · simp [defineDownValues, listOf, argsOf, S, rulesOf]
  · simp [downValuesFn, Table.set, listRules, lhsPart, isCompound, listOf]

/-- C107, a crash: after `DownValues[f] = {f[] :> r}` the listing indexes a part that is not there. -/
theorem C107_unheld_crashes (t : Table) (s : String) (r : Ex) : ∃ t', defineDownValues t s (listOf [.expr [S "RuleDelayed", .expr [.sym s], r]]) = some t' ∧
    downValuesFn t' s = none := by
  refine ⟨t.set s { (t s).getD {} with downvalues := [{ lhs := .expr [.sym s], rhs := r }] }, ?_, ?_⟩
  · simp [defineDownValues, listOf, argsOf, S, rulesOf]
  · simp [downValuesFn, Table.set, listRules, lhsPart]

/-! #### Later definitions -/

/-- Two lists of rules that are the same but for the stored specificities, which agree when they are looked up. -/
def SameRules (strLen : Ex → Nat) (name : String) (l l' : List DV) : Prop :=
  List.Forall₂ (fun a b => a.lhs = b.lhs ∧ a.rhs = b.rhs ∧ specOf strLen name a = specOf strLen name b) l l'

/-- No accident with the fingerprints of masks among the right sides `P`: only conditions are taken for conditions. -/
def MasksAgree (P : Ex → Prop) : Prop := ∀ r r' m m', P r → P r' → maskOf r = some m → maskOf r' = some m' → isSameQ m m' = true →
  hasHead "System`Condition" r = hasHead "System`Condition" r'

theorem ruleSpecificity_congr {strLen lhs r r' name} (h : hasHead "System`Condition" r = hasHead "System`Condition" r') :
    ruleSpecificity strLen lhs r name = ruleSpecificity strLen lhs r' name := by
  unfold ruleSpecificity
  rw [h]

theorem overwrite_same {strLen name} {P : Ex → Prop} (hP : MasksAgree P) {hl rhs : Ex} (hr : P rhs) : ∀ {l l' : List DV}, SameRules strLen name l l' →
    (∀ dv ∈ l, P dv.rhs) →
    (overwrite hl rhs l = none ∧ overwrite hl rhs l' = none) ∨ (overwrite hl rhs l = some none ∧ overwrite hl rhs l' = some none) ∨
      ∃ q q', overwrite hl rhs l = some (some q) ∧ overwrite hl rhs l' = some (some q') ∧ SameRules strLen name q q' ∧ ∀ dv ∈ q, P dv.rhs
  | _, _, .nil, _ => Or.inr (Or.inl ⟨rfl, rfl⟩)
  | a :: l, b :: l', .cons ⟨h1, h2, h3⟩ ht, hl' => by
    have ih := overwrite_same hP (hl := hl) hr ht (fun d hd => hl' d (by simp [hd]))
    have key : ((overwrite hl rhs l).map (Option.map (a :: ·)) = none ∧ (overwrite hl rhs l').map (Option.map (b :: ·)) = none) ∨
        ((overwrite hl rhs l).map (Option.map (a :: ·)) = some none ∧ (overwrite hl rhs l').map (Option.map (b :: ·)) = some none) ∨
        ∃ q q', (overwrite hl rhs l).map (Option.map (a :: ·)) = some (some q) ∧ (overwrite hl rhs l').map (Option.map (b :: ·)) = some (some q') ∧
          SameRules strLen name q q' ∧ ∀ dv ∈ q, P dv.rhs := by
      rcases ih with ⟨e1, e2⟩ | ⟨e1, e2⟩ | ⟨q, q', e1, e2, e3, e4⟩
      · exact Or.inl (by simp [e1, e2])
      · exact Or.inr (Or.inl (by simp [e1, e2]))
      · refine Or.inr (Or.inr ⟨a :: q, b :: q', by simp [e1], by simp [e2], .cons ⟨h1, h2, h3⟩ e3, ?_⟩)
        intro dv hdv
        rcases List.mem_cons.1 hdv with rfl | hdv
        · exact hl' _ (by simp)
        · exact e4 dv hdv
    simp only [overwrite, ← h1, ← h2]
    split
    · split
      · rename_i m m' hm hm'
        split
        · rename_i hs
          refine Or.inr (Or.inr ⟨_, _, rfl, rfl, .cons ⟨rfl, rfl, ?_⟩ ht, ?_⟩)
          · have hcond := hP _ _ _ _ (hl' a (by simp)) hr hm hm' hs
            have hr1 : ruleSpecificity strLen a.lhs a.rhs name = ruleSpecificity strLen a.lhs rhs name := ruleSpecificity_congr hcond
            simp only [specOf] at h3 ⊢
            rw [← h1, ← h2] at h3
            rw [← hr1]
            exact h3
          · intro dv hdv
            rcases List.mem_cons.1 hdv with rfl | hdv
            · exact hr
            · exact hl' dv (by simp [hdv])
        · exact key
      · exact Or.inl ⟨rfl, rfl⟩
    · exact key

theorem insertRule_same {strLen name} {P : Ex → Prop} {hl rhs : Ex} {new : Int} (hr : P rhs) : ∀ {l l' : List DV},
    SameRules strLen name l l' → (∀ dv ∈ l, P dv.rhs) →
    (insertRule strLen name hl rhs new l = none ∧ insertRule strLen name hl rhs new l' = none) ∨
      ∃ q q', insertRule strLen name hl rhs new l = some q ∧ insertRule strLen name hl rhs new l' = some q' ∧ SameRules strLen name q q' ∧
        ∀ dv ∈ q, P dv.rhs
  | _, _, .nil, _ => Or.inr ⟨_, _, rfl, rfl, .cons ⟨rfl, rfl, rfl⟩ .nil, by simpa using hr⟩
  | a :: l, b :: l', .cons ⟨h1, h2, h3⟩ ht, hl' => by
    simp only [insertRule, ← h3]
    split
    · exact Or.inl ⟨rfl, rfl⟩
    · split
      · refine Or.inr ⟨_, _, rfl, rfl, .cons ⟨rfl, rfl, rfl⟩ (.cons ⟨h1, h2, h3⟩ ht), ?_⟩
        intro dv hdv
        rcases List.mem_cons.1 hdv with rfl | hdv
        · exact hr
        · exact hl' dv hdv
      · rcases insertRule_same (hl := hl) (new := new) hr ht (fun d hd => hl' d (by simp [hd])) with ⟨e1, e2⟩ | ⟨q, q', e1, e2, e3, e4⟩
        · exact Or.inl (by simp [e1, e2])
        · refine Or.inr ⟨a :: q, b :: q', by simp [e1], by simp [e2], .cons ⟨h1, h2, h3⟩ e3, ?_⟩
          intro dv hdv
          rcases List.mem_cons.1 hdv with rfl | hdv
          · exact hl' _ (by simp)
          · exact e4 dv hdv

theorem defineRule_same {strLen name} {P : Ex → Prop} (hP : MasksAgree P) {hl rhs : Ex} (hr : P rhs) {l l' : List DV}
    (h : SameRules strLen name l l') (hl' : ∀ dv ∈ l, P dv.rhs) :
    (defineRule strLen name hl rhs l = none ∧ defineRule strLen name hl rhs l' = none) ∨
      ∃ q q', defineRule strLen name hl rhs l = some q ∧ defineRule strLen name hl rhs l' = some q' ∧ SameRules strLen name q q' ∧
        ∀ dv ∈ q, P dv.rhs := by
  unfold defineRule
  rcases overwrite_same hP (hl := hl) hr h hl' with ⟨e1, e2⟩ | ⟨e1, e2⟩ | ⟨q, q', e1, e2, e3, e4⟩
  · rw [e1, e2]; exact Or.inl ⟨rfl, rfl⟩
  · rw [e1, e2]
    simp only
    split
    · exact Or.inl ⟨rfl, rfl⟩
    · exact insertRule_same hr h hl'
  · rw [e1, e2]; exact Or.inr ⟨q, q', rfl, rfl, e3, e4⟩

/-- Two states that differ only in stored specificities. -/
structure SameState (strLen : Ex → Nat) (P : Ex → Prop) (st st' : DState) : Prop where
  frozen : st.frozen = st'.frozen
  known : ∀ s, (st.defs s).isSome = (st'.defs s).isSome
  rules : ∀ s d d', st.defs s = some d → st'.defs s = some d' → SameRules strLen s d.downvalues d'.downvalues ∧ d.attrs = d'.attrs ∧
    d.dflt = d'.dflt ∧ d.builtin = d'.builtin ∧ ∀ dv ∈ d.downvalues, P dv.rhs

theorem SameRules.visible {strLen name} {l l' : List DV} (h : SameRules strLen name l l') :
    l.map (fun dv => (dv.lhs, dv.rhs)) = l'.map (fun dv => (dv.lhs, dv.rhs)) := by
  induction h with
  | nil => rfl
  | cons h _ ih => simp [h.1, h.2.1, ih]

theorem SameRules.refl {strLen name} (l : List DV) : SameRules strLen name l l := by
  unfold SameRules
  induction l with
  | nil => exact .nil
  | cons a l ih => exact .cons ⟨rfl, rfl, rfl⟩ ih

theorem SameState.visible {strLen P st st'} (h : SameState strLen P st st') (s : String) : visible st.defs s = visible st'.defs s := by
  have hk := h.known s
  unfold Expreduce.visible
  cases h1 : st.defs s with
  | none => rw [h1] at hk; cases h2 : st'.defs s with
    | none => rfl
    | some d' => rw [h2] at hk; simp at hk
  | some d => rw [h1] at hk; cases h2 : st'.defs s with
    | none => rw [h2] at hk; simp at hk
    | some d' =>
      obtain ⟨a1, a2, a3, a4, _⟩ := h.rules s d d' h1 h2
      simp [a1.visible, a2, a3, a4]

theorem SameState.set {strLen P st st'} (h : SameState strLen P st st') {s : String} {d d' : DefM}
    (hs : SameRules strLen s d.downvalues d'.downvalues ∧ d.attrs = d'.attrs ∧
    d.dflt = d'.dflt ∧ d.builtin = d'.builtin ∧ ∀ dv ∈ d.downvalues, P dv.rhs) :
    SameState strLen P { st with defs := st.defs.set s d } { st' with defs := st'.defs.set s d' } where
  frozen := h.frozen
  known := by
    intro n
    simp only [Table.set]
    split
    · rfl
    · exact h.known n
  rules := by
    intro n e e' he he'
    simp only [Table.set] at he he'
    split at he
    · rename_i hn
      subst hn
      simp only [if_true, Option.some.injEq] at he he'
      subst he he'
      exact hs
    · rename_i hn
      rw [if_neg hn] at he'
      exact h.rules n e e' he he'

theorem define_same {strLen} {P : Ex → Prop} (hP : MasksAgree P) {st st' : DState} (h : SameState strLen P st st') {lhs rhs : Ex} (hr : P rhs)
    (ht : ∀ s, targetOf lhs ≠ .downValues s) :
    (define strLen st lhs rhs = none ∧ define strLen st' lhs rhs = none) ∨
      ∃ q q', define strLen st lhs rhs = some q ∧ define strLen st' lhs rhs = some q' ∧ SameState strLen P q q' := by
  obtain ⟨t, f⟩ := st
  obtain ⟨t', f'⟩ := st'
  have hf : f = f' := h.frozen
  subst hf
  unfold define
  simp only
  split
  · exact Or.inr ⟨_, _, rfl, rfl, h⟩
  · split
    · exact Or.inl ⟨rfl, rfl⟩
    · exact Or.inr ⟨_, _, rfl, rfl, h⟩
    · rename_i s _
      refine Or.inr ⟨_, _, rfl, rfl, ?_⟩
      simp only [defineAttrs]
      split
      · exact h
      · split
        · exact h
        · refine h.set ?_
          have hk : (t s).isSome = (t' s).isSome := h.known s
          cases h1 : t s with
          | none => rw [h1] at hk; cases h2 : t' s with
            | none => simp [SameRules.refl]
            | some d' => rw [h2] at hk; simp at hk
          | some d => rw [h1] at hk; cases h2 : t' s with
            | none => rw [h2] at hk; simp at hk
            | some d' => simpa using ⟨(h.rules s d d' h1 h2).1, (h.rules s d d' h1 h2).2.2⟩
    · rename_i s hq
      exact absurd hq (ht s)
    · rename_i name _
      have hk : (t name).isSome = (t' name).isSome := h.known name
      cases h1 : t name with
      | none => rw [h1] at hk; cases h2 : t' name with
        | none =>
          refine Or.inr ⟨_, _, rfl, rfl, SameState.set h (d := { downvalues := [{ lhs := held lhs, rhs := rhs }] }) (d' := { downvalues := [{ lhs := held lhs, rhs := rhs }] }) ⟨SameRules.refl _, rfl, rfl, rfl, by simpa using hr⟩⟩
        | some d' => rw [h2] at hk; simp at hk
      | some d => rw [h1] at hk; cases h2 : t' name with
        | none => rw [h2] at hk; simp at hk
        | some d' =>
          obtain ⟨a1, a2, a3, a4, a5⟩ := h.rules name d d' h1 h2
          rcases defineRule_same hP (hl := held lhs) hr a1 a5 with ⟨e1, e2⟩ | ⟨q, q', e1, e2, e3, e4⟩
          · exact Or.inl (by simp [e1, e2])
          · exact Or.inr ⟨_, _, by simp only [e1, Option.map_some], by simp only [e2, Option.map_some], SameState.set h (d := { d with downvalues := q }) (d' := { d' with downvalues := q' }) ⟨e3, a2, a3, a4, e4⟩⟩

/-- A sequence of assignments. -/
def defineAll (strLen : Ex → Nat) : DState → List (Ex × Ex) → Option DState
  | st, [] => some st
  | st, (l, r) :: ds => (define strLen st l r).bind (fun st' => defineAll strLen st' ds)

theorem defineAll_same {strLen} {P : Ex → Prop} (hP : MasksAgree P) : ∀ (ds : List (Ex × Ex)) {st st' : DState}, SameState strLen P st st' →
    (∀ p ∈ ds, P p.2 ∧ ∀ s, targetOf p.1 ≠ .downValues s) → 
    (defineAll strLen st ds).map (fun q => visible q.defs) = (defineAll strLen st' ds).map (fun q => visible q.defs)
  | [], st, st', h, _ => by
    simp only [defineAll, Option.map_some]
    congr 1
    funext s
    exact h.visible s
  | (l, r) :: ds, st, st', h, hd => by
    obtain ⟨hr, ht⟩ := hd (l, r) (by simp)
    simp only [defineAll]
    rcases define_same hP h hr ht with ⟨e1, e2⟩ | ⟨q, q', e1, e2, e3⟩
    · simp [e1, e2]
    · rw [e1, e2]
      exact defineAll_same hP ds e3 (fun p hp => hd p (by simp [hp]))

/-- A rule whose stored specificity is that of the rule (or 0, not computed yet). -/
def SpecOk (strLen : Ex → Nat) (name : String) (dv : DV) : Prop := dv.spec = 0 ∨ ruleSpecificity strLen dv.lhs dv.rhs name = some dv.spec

/-- C107. After `DownValues[f] = DownValues[f]` also all later assignments have the effect they would have had, whatever is assigned (but for
assignments to `DownValues[...]` themselves): the same rules in the same order for every symbol. (`P` are the right sides that occur.) -/
theorem C107_later (strLen : Ex → Nat) (st st' : DState) (s : String) (d : DefM) (out : Ex) (ds : List (Ex × Ex)) (P : Ex → Prop) (hP : MasksAgree P)
    (hd : st.defs s = some d) (ha : Assigned d.downvalues) (hown : ∀ dv ∈ d.downvalues, ¬ isOwn dv) (hsp : ∀ dv ∈ d.downvalues, SpecOk strLen s dv)
    (hin : ∀ n e, st.defs n = some e → ∀ dv ∈ e.downvalues, P dv.rhs) (hds : ∀ p ∈ ds, P p.2 ∧ ∀ s, targetOf p.1 ≠ .downValues s)
    (ho : downValuesFn st.defs s = some out) (h : define strLen st (downValuesOf s) out = some st') :
    (defineAll strLen st' ds).map (fun q => visible q.defs) = (defineAll strLen st ds).map (fun q => visible q.defs) := by
  symm
  refine defineAll_same hP ds ?_ hds
  have hsame : SameState strLen P st st := ⟨rfl, fun _ => rfl, by
    intro n e e' he he'
    rw [he] at he'
    simp only [Option.some.injEq] at he'
    subst he'
    exact ⟨SameRules.refl _, rfl, rfl, rfl, hin n e he⟩⟩
  rw [C107_lists_partial _ _ _ hd ha, List.filter_eq_self.2 (by simpa using hown), Option.some.injEq] at ho
  subst ho
  unfold define at h
  split at h
  · simp only [Option.some.injEq] at h
    rw [← h]
    exact hsame
  · simp only [targetOf, downValuesOf, S, metaTarget, String.reduceAppend, String.reduceEq, if_false, if_true, defineDownValues, listOf, argsOf,
      beq_self_eq_true, rulesOf_listed, Option.map_some, Option.some.injEq, hd, Option.getD_some] at h
    subst h
    have hid : st = { st with defs := st.defs.set s d } := by
      have : st.defs.set s d = st.defs := by
        funext n
        simp only [Table.set]
        split
        · rename_i e
          rw [e, hd]
        · rfl
      rw [this]
    conv => lhs; rw [hid]
    refine hsame.set ⟨?_, rfl, rfl, rfl, hin s d hd⟩
    unfold SameRules
    rw [List.forall₂_map_right_iff]
    rw [List.forall₂_same]
    intro dv hdv
    refine ⟨rfl, rfl, ?_⟩
    simp only [specOf, if_true]
    split
    · rfl
    · rename_i h0
      rcases hsp dv hdv with h | h
      · exact absurd h h0
      · rw [h]

theorem overwrite_numbers {strLen name} {P : Ex → Prop} (hP : MasksAgree P) {hl rhs : Ex} (hr : P rhs) : ∀ {l q : List DV},
    overwrite hl rhs l = some (some q) → (∀ dv ∈ l, P dv.rhs ∧ SpecOk strLen name dv) → ∀ dv ∈ q, P dv.rhs ∧ SpecOk strLen name dv
  | [], q, h, _ => by simp [overwrite] at h
  | a :: l, q, h, hs => by
    rw [overwrite] at h
    have key : (overwrite hl rhs l).map (Option.map (a :: ·)) = some (some q) → ∀ dv ∈ q, P dv.rhs ∧ SpecOk strLen name dv := by
      intro hq
      simp only [Option.map_eq_some_iff] at hq
      obtain ⟨o, ho, o', ho', rfl⟩ := hq
      subst ho'
      intro dv hdv
      rcases List.mem_cons.1 hdv with rfl | hdv
      · exact hs _ (by simp)
      · exact overwrite_numbers hP hr ho (fun d hd => hs d (by simp [hd])) dv hdv
    split at h
    · split at h
      · rename_i m m' hm hm'
        split at h
        · rename_i hsm
          simp only [Option.some.injEq] at h
          subst h
          intro dv hdv
          rcases List.mem_cons.1 hdv with rfl | hdv
          · refine ⟨hr, ?_⟩
            have hc := hP _ _ _ _ (hs a (by simp)).1 hr hm hm' hsm
            rcases (hs a (by simp)).2 with h0 | h0
            · exact Or.inl h0
            · right
              rw [← h0]
              exact (ruleSpecificity_congr hc).symm
          · exact hs dv (by simp [hdv])
        · exact key h
      · simp at h
    · exact key h

theorem insertRule_numbers {strLen name} {P : Ex → Prop} {hl rhs : Ex} {new : Int} (hr : P rhs) (hn : ruleSpecificity strLen hl rhs name = some new) :
    ∀ {l q : List DV}, insertRule strLen name hl rhs new l = some q → (∀ dv ∈ l, P dv.rhs ∧ SpecOk strLen name dv) →
      ∀ dv ∈ q, P dv.rhs ∧ SpecOk strLen name dv
  | [], q, h, _ => by
    simp only [insertRule, Option.some.injEq] at h
    subst h
    intro dv hdv
    simp only [List.mem_singleton] at hdv
    subst hdv
    exact ⟨hr, Or.inl rfl⟩
  | a :: l, q, h, hs => by
    rw [insertRule] at h
    split at h
    · simp at h
    · split at h
      · simp only [Option.some.injEq] at h
        subst h
        intro dv hdv
        rcases List.mem_cons.1 hdv with rfl | hdv
        · exact ⟨hr, Or.inr hn⟩
        · exact hs dv hdv
      · simp only [Option.map_eq_some_iff] at h
        obtain ⟨q', hq', rfl⟩ := h
        intro dv hdv
        rcases List.mem_cons.1 hdv with rfl | hdv
        · exact hs _ (by simp)
        · exact insertRule_numbers hr hn hq' (fun d hd => hs d (by simp [hd])) dv hdv

/-- The conditions of `C107_roundtrip` and `C107_later` on the stored rules. -/
def RulesOk (strLen : Ex → Nat) (P : Ex → Prop) (st : DState) : Prop :=
  ∀ s d, st.defs s = some d → Assigned d.downvalues ∧ ∀ dv ∈ d.downvalues, P dv.rhs ∧ SpecOk strLen s dv

/-- C107. These conditions hold after every sequence of assignments (not to `DownValues[...]`) that starts where they hold, for instance with no
definitions. -/
theorem C107_reachable (strLen : Ex → Nat) (P : Ex → Prop) (hP : MasksAgree P) : ∀ (ds : List (Ex × Ex)) (st st' : DState), RulesOk strLen P st →
    (∀ p ∈ ds, P p.2 ∧ ∀ s, targetOf p.1 ≠ .downValues s) → defineAll strLen st ds = some st' → RulesOk strLen P st'
  | [], st, st', h, _, he => by
    simp only [defineAll, Option.some.injEq] at he
    subst he
    exact h
  | (l, r) :: ds, st, st', h, hd, he => by
    obtain ⟨hr, ht⟩ := hd (l, r) (by simp)
    simp only [defineAll, Option.bind_eq_some_iff] at he
    obtain ⟨st1, h1, h2⟩ := he
    refine C107_reachable strLen P hP ds st1 st' ?_ (fun p hp => hd p (by simp [hp])) h2
    have hA := define_assigned h1 ht (fun s d hd => (h s d hd).1)
    intro s d hsd
    refine ⟨hA s d hsd, ?_⟩
    obtain ⟨t, f⟩ := st
    unfold define at h1
    simp only at h1
    split at h1
    · simp only [Option.some.injEq] at h1
      subst h1
      exact (h s d hsd).2
    · split at h1
      · simp at h1
      · simp only [Option.some.injEq] at h1
        subst h1
        exact (h s d hsd).2
      · rename_i a _
        simp only [Option.some.injEq] at h1
        subst h1
        change defineAttrs t a r s = some d at hsd
        have hd' := hsd
        unfold defineAttrs at hd'
        cases hx : argsOf "System`List" r with
        | none => rw [hx] at hd'; exact (h s d hd').2
        | some as =>
          rw [hx] at hd'
          simp only at hd'
          cases hy : attrNamesOf as with
          | none => rw [hy] at hd'; exact (h s d hd').2
          | some ns =>
            rw [hy] at hd'
            simp only [Table.set] at hd'
            split at hd'
            · simp only [Option.some.injEq] at hd'
              subst hd'
              rename_i e
              subst e
              cases hq : t s with
              | none => simp
              | some q => simpa using (h s q hq).2
            · exact (h s d hd').2
      · rename_i s' hq
        exact absurd hq (ht s')
      · rename_i name hq
        cases hn : t name with
        | none =>
          simp only [hn, Option.some.injEq] at h1
          subst h1
          simp only [Table.set] at hsd
          split at hsd
          · simp only [Option.some.injEq] at hsd
            subst hsd
            intro dv hdv
            simp only [List.mem_singleton] at hdv
            subst hdv
            exact ⟨hr, Or.inl rfl⟩
          · exact (h s d hsd).2
        | some d0 =>
          simp only [hn, Option.map_eq_some_iff] at h1
          obtain ⟨dvs, hdvs, rfl⟩ := h1
          simp only [Table.set] at hsd
          split at hsd
          · rename_i e
            subst e
            simp only [Option.some.injEq] at hsd
            subst hsd
            intro dv hdv
            unfold defineRule at hdvs
            split at hdvs
            · simp at hdvs
            · rename_i q ho
              simp only [Option.some.injEq] at hdvs
              subst hdvs
              exact overwrite_numbers hP hr ho (h _ _ hn).2 dv hdv
            · split at hdvs
              · simp at hdvs
              · rename_i new hnew
                exact insertRule_numbers hr hnew hdvs (h _ _ hn).2 dv hdv
          · exact (h s d hsd).2

/-- `f[p]` as a left side. -/
def callOf (s : String) (p : Ex) : Ex := .expr [.sym s, p]

/-- The state after two definitions. -/
def rulesOfF : Option DState := defineAll (fun _ => 7) { defs := fun _ => none } [(callOf "f" (nm "x" bl), .int 1), (callOf "f" (.int 3), .int 2)]

/-- C107, a concrete case: two rules are listed in the order in which they are tried (the rule for an
integer goes first), and can be assigned back; the right sides are told apart. -/
example : rulesOfF.bind (fun st => downValuesFn st.defs "f") = some (listOf [
      .expr [S "RuleDelayed", held (callOf "f" (.int 3)), .int 2], .expr [S "RuleDelayed", held (callOf "f" (nm "x" bl)), .int 1]]) ∧
    (rulesOfF.bind (fun st => (downValuesFn st.defs "f").bind (fun out => define (fun _ => 7) st (downValuesOf "f") out))).isSome = true ∧
    MasksAgree (fun r => r = .int 1 ∨ r = .int 2) := by
  refine ⟨by decide +kernel, by decide +kernel, ?_⟩
  rintro r r' m m' (rfl | rfl) (rfl | rfl) _ _ _ <;> rfl

/-! ### C108: `Prime` -/

/-- C108. `Prime[n]` is the `n`th prime number, for positive `n` up to the limit in the code. The library lists the primes below its argument (it may
list more), and the bound computed with machine numbers is large enough; for `n < 6` it is not used. -/
theorem C108_prime_partial (bound : Nat → Nat) (sieve : Nat → List Nat) (n : Nat) (h0 : 0 < n) (hmax : n ≤ 211642827166041848)
    (hs : ∀ k, (sieve k).Pairwise (· < ·) ∧ (∀ p ∈ sieve k, p.Prime) ∧ ∀ p, p.Prime → p < k → p ∈ sieve k)
    (hb : 6 ≤ n → Nat.nth Nat.Prime (n - 1) ≤ bound n) : primeFn bound sieve n = some (some (Nat.nth Nat.Prime (n - 1))) := by
  have hw : wrap64 (n : Int) = n := by unfold wrap64; omega
  have key : ∀ (l : List Nat), l.Pairwise (· < ·) → (∀ p ∈ l, p.Prime) → ∀ k i, (∀ p, p.Prime → p < k → p ∈ l) → Nat.nth Nat.Prime i < k →
      l[i]? = some (Nat.nth Nat.Prime i) := by
    intro l hl hp k i hk hi
    have hmem : Nat.nth Nat.Prime i ∈ l := hk _ (Nat.nth_mem_of_infinite Nat.infinite_setOf_prime i) hi
    obtain ⟨j, hj, hje⟩ := List.getElem_of_mem hmem
    have hcount : j = i := by
      have hs1 : (l.take j).toFinset = (Finset.range (Nat.nth Nat.Prime i)).filter Nat.Prime := by
        ext p
        simp only [List.mem_toFinset, Finset.mem_filter, Finset.mem_range]
        constructor
        · intro hpj
          obtain ⟨a, ha, hae⟩ := List.getElem_of_mem hpj
          simp only [List.length_take, lt_min_iff] at ha
          rw [List.getElem_take] at hae
          refine ⟨?_, hp p (List.mem_of_mem_take hpj)⟩
          rw [← hae, ← hje]
          exact List.pairwise_iff_getElem.1 hl a j ha.2 hj ha.1
        · rintro ⟨hlt, hpr⟩
          have hpm := hk p hpr (lt_trans hlt hi)
          obtain ⟨a, ha, hae⟩ := List.getElem_of_mem hpm
          rw [List.mem_take_iff_getElem]
          refine ⟨a, ?_, hae⟩
          simp only [lt_min_iff]
          refine ⟨?_, ha⟩
          by_contra hc
          rcases Nat.lt_or_eq_of_le (Nat.le_of_not_lt hc) with h | h
          · have := List.pairwise_iff_getElem.1 hl j a hj ha h
            omega
          · subst h
            omega
      have hc1 : (l.take j).toFinset.card = j := by
        rw [List.toFinset_card_of_nodup]
        · simp [Nat.min_eq_left (Nat.le_of_lt hj)]
        · exact (hl.sublist (List.take_sublist j l)).imp (fun h => Nat.ne_of_lt h)
      rw [← hc1, hs1, ← Nat.count_eq_card_filter_range]
      exact Nat.count_nth_of_infinite Nat.infinite_setOf_prime i
    subst hcount
    rw [List.getElem?_eq_getElem hj, hje]
  unfold primeFn
  rw [hw]
  simp only [Int.toNat_natCast]
  rw [if_neg (by omega), if_neg (by omega)]
  have hlt : Nat.nth Nat.Prime (n - 1) < (if (n : Int) < 6 then 11 else bound n) + 1 := by
    split
    · rename_i h6
      have h5 : Nat.nth Nat.Prime 4 = 11 := by
        have : Nat.count Nat.Prime 11 = 4 := by decide
        rw [← this]
        exact Nat.nth_count (by decide)
      have : Nat.nth Nat.Prime (n - 1) ≤ Nat.nth Nat.Prime 4 := Nat.nth_monotone Nat.infinite_setOf_prime (by omega)
      omega
    · rename_i h6
      have := hb (by omega)
      omega
  rw [key _ (hs _).1 (hs _).2.1 _ _ (hs _).2.2 hlt]
  rfl

/-- C108. Nothing is answered for integers that are not positive. -/
theorem C108_not_positive (bound : Nat → Nat) (sieve : Nat → List Nat) (n : Int) (h0 : n ≤ 0) (hmin : -(2 ^ 63) ≤ n) : primeFn bound sieve n = some none := by
  have hw : wrap64 n = n := by unfold wrap64; omega
  unfold primeFn
  rw [hw]
  simp only
  rw [if_pos h0]

/-- The primes below a bound, as a list. -/
def primesBelow (k : Nat) : List Nat := (List.range k).filter (fun p => decide p.Prime)

theorem primesBelow_ok (k : Nat) : (primesBelow k).Pairwise (· < ·) ∧ (∀ p ∈ primesBelow k, p.Prime) ∧ ∀ p, p.Prime → p < k → p ∈ primesBelow k := by
  refine ⟨?_, ?_, ?_⟩
  · exact List.Pairwise.filter _ List.pairwise_lt_range
  · intro p hp
    simp [primesBelow] at hp
    exact hp.2
  · intro p hp hk
    simp [primesBelow, hp, hk]

/-- C108, the conditions on the library can be met. -/
example (bound : Nat → Nat) : primeFn bound primesBelow 3 = some (some (Nat.nth Nat.Prime 2)) :=
  C108_prime_partial bound primesBelow 3 (by omega) (by omega) primesBelow_ok (by omega)

/-- C108, a disagreement: the argument is cut to 64 bits, so that `Prime[2^64 + 3]` is `Prime[3]`. -/
theorem C108_wrapped (bound : Nat → Nat) (sieve : Nat → List Nat) (n : Int) : primeFn bound sieve (n + 2 ^ 64) = primeFn bound sieve n := by
  have : wrap64 (n + 2 ^ 64) = wrap64 n := by unfold wrap64; omega
  unfold primeFn
  rw [this]

/-- C108: this is wrong for all `n` in range: the prime number with the number `n + 2^64` is another one. -/
theorem C108_wrapped_wrong (bound : Nat → Nat) (sieve : Nat → List Nat) (n : Nat) (h0 : 0 < n) (hmax : n ≤ 211642827166041848)
    (hs : ∀ k, (sieve k).Pairwise (· < ·) ∧ (∀ p ∈ sieve k, p.Prime) ∧ ∀ p, p.Prime → p < k → p ∈ sieve k)
    (hb : 6 ≤ n → Nat.nth Nat.Prime (n - 1) ≤ bound n) :
    primeFn bound sieve ((n + 2 ^ 64 : Nat) : Int) ≠ some (some (Nat.nth Nat.Prime (n + 2 ^ 64 - 1))) := by
  have h1 : primeFn bound sieve ((n + 2 ^ 64 : Nat) : Int) = primeFn bound sieve n := by
    rw [← C108_wrapped bound sieve n]
    rfl
  rw [h1, C108_prime_partial bound sieve n h0 hmax hs hb]
  intro h
  simp only [Option.some.injEq] at h
  have := Nat.nth_injective Nat.infinite_setOf_prime h
  omega

/-- C57, a disagreement: `PrimePi` also cuts its argument to 64 bits; `PrimePi[2^64]` is 0. -/
theorem C57_wrapped (primes : Nat → List Nat) : primePiFn primes (2 ^ 64) = 0 := by
  have : wrap64 (2 ^ 64) = 0 := by unfold wrap64; omega
  unfold primePiFn
  rw [this]
  rfl

/-! ### C109: random numbers and pauses -/

theorem randomRun_append {G : Type} (lib : RandomLib G) : ∀ (g : G) (a b : List RandomCall),
    randomRun lib g (a ++ b) = ((randomRun lib (randomRun lib g a).1 b).1, (randomRun lib g a).2 ++ (randomRun lib (randomRun lib g a).1 b).2)
  | g, [], b => by simp [randomRun]
  | g, c :: a, b => by simp [randomRun, randomRun_append lib _ a b]

/-- C109. After `SeedRandom[n]` the numbers depend on `n` and on the calls that follow only, not on anything before. -/
theorem C109_seed_decides {G : Type} (lib : RandomLib G) (n : Int) (after : List RandomCall) : ∃ xs, ∀ g before,
    (randomRun lib g (before ++ .seed n :: after)).2 = (randomRun lib g before).2 ++ xs := by
  refine ⟨(randomRun lib (lib.seed (seedOf n)) after).2, ?_⟩
  intro g before
  rw [randomRun_append]
  simp [randomRun, randomStep]

/-- C109. Every `RandomReal[]` gives one number, one the generator has produced. -/
theorem C109_one_each {G : Type} (lib : RandomLib G) (ok : Rat → Prop) (hok : ∀ g, ok (lib.next g).1) : ∀ (cs : List RandomCall) (g : G),
    (randomRun lib g cs).2.length = (cs.filter (fun c => c matches .real)).length ∧ ∀ x ∈ (randomRun lib g cs).2, ok x
  | [], g => by simp [randomRun]
  | .seed n :: cs, g => by
    have := C109_one_each lib ok hok cs (lib.seed (seedOf n))
    simpa [randomRun, randomStep] using this
  | .real :: cs, g => by
    have := C109_one_each lib ok hok cs (lib.next g).2
    simp [randomRun, randomStep, this.1, hok]
    exact this.2

/-- C109. The numbers of consecutive calls are the consecutive numbers of the generator: the `k`th one is what it gives after `k` steps. -/
theorem C109_stream {G : Type} (lib : RandomLib G) : ∀ (k : Nat) (g : G),
    (randomRun lib g (List.replicate k .real)).2 = (List.range k).map (fun i => (lib.next ((fun g => (lib.next g).2)^[i] g)).1)
  | 0, g => by simp [randomRun]
  | k + 1, g => by
    simp only [List.replicate_succ, randomRun, randomStep, C109_stream lib k, List.range_succ_eq_map, List.map_cons, List.map_map]
    simp

/-- C109, a disagreement: seeds that differ by `2^64` give the same numbers. -/
theorem C109_seed_cut {G : Type} (lib : RandomLib G) (g : G) (n : Int) (cs : List RandomCall) :
    randomRun lib g (.seed (n + 2 ^ 64) :: cs) = randomRun lib g (.seed n :: cs) := by
  have : seedOf (n + 2 ^ 64) = seedOf n := by unfold seedOf wrap64; omega
  simp only [randomRun, randomStep, this]

/-- C109, a case: a generator that counts. -/
example : (randomRun (⟨id, fun g => (g, g + 1)⟩ : RandomLib Int) 7 [.real, .seed 3, .real, .real]).2 = [7, 3, 4] := by
  simp [randomRun, randomStep, seedOf, wrap64]

/-- C109. `Pause[n]` waits `n` seconds, if the number of nanoseconds fits into 64 bits. -/
theorem C109_pause_partial (n : Int) (h : |n| ≤ 9223372036) : pauseNanos n = n * 1000000000 := by
  obtain ⟨h1, h2⟩ := abs_le.1 h
  have hw : wrap64 n = n := by unfold wrap64; omega
  unfold pauseNanos
  rw [hw]
  unfold wrap64
  omega

/-- C109, a disagreement: `Pause[9223372037]` does not wait at all. -/
theorem C109_pause_skipped : pauseNanos 9223372037 < 0 := by
  unfold pauseNanos wrap64
  omega

end Expreduce
