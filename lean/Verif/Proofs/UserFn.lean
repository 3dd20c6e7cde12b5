import Verif.Spec.UserFn
import Verif.Proofs.ForLoop
import Verif.Proofs.Replace

/-! Calls of the user's functions. -/

namespace Expreduce
open Ex

theorem bindPats_get : ∀ (ps : List ArgPat) (as : List Ex) (pm : PM) (y : String), (ps.filterMap ArgPat.name?).Nodup →
    (bindPats pm ps as).get y = (paramOf ps as y).orElse (fun _ => pm.get y)
  | [], _, pm, y, _ => by simp [bindPats, paramOf]
  | .any x :: ps, [], pm, y, _ => by simp [bindPats, paramOf]
  | .lit c :: ps, [], pm, y, _ => by simp [bindPats, paramOf]
  | .any x :: ps, a :: as, pm, y, h => by
    have h' : (x :: ps.filterMap ArgPat.name?).Nodup := by simpa [ArgPat.name?] using h
    rw [bindPats, bindPats_get ps as _ y (List.nodup_cons.1 h').2, paramOf]
    by_cases hy : y = x
    · subst hy
      have hno : ∀ (ps : List ArgPat) (as : List Ex), y ∉ ps.filterMap ArgPat.name? → paramOf ps as y = none := by
        intro ps
        induction ps with
        | nil => intros; rfl
        | cons p ps ih =>
          intro as hn
          cases as with
          | nil => cases p <;> rfl
          | cons b bs =>
            cases p with
            | any z =>
              have hn : y ≠ z ∧ y ∉ ps.filterMap ArgPat.name? := by simpa [ArgPat.name?] using hn
              rw [paramOf, if_neg hn.1]; exact ih bs hn.2
            | lit c => exact ih bs hn
      rw [hno ps as (List.nodup_cons.1 h').1, if_pos rfl]
      simp [CallMatch.get_set_self]
    · rw [if_neg hy, CallMatch.get_set_ne hy]
  | .lit c :: ps, a :: as, pm, y, h => by
    rw [bindPats, bindPats_get ps as pm y h, paramOf]

theorem replacePD_instance (cl : Clause) (vs : List Ex) (hn : (cl.args.filterMap ArgPat.name?).Nodup) :
    replacePD cl.body (some (bindPats [] cl.args vs)) = cl.instance vs := by
  rw [replacePD_bindings]
  unfold Clause.instance
  congr 1
  funext y
  show (bindPats [] cl.args vs).get y = _
  rw [bindPats_get _ _ _ _ hn]
  simp [PM.get]

theorem rulesReplace_clauses (env : MEnv) (locals : Ex → Option Ex) (m n : Nat) {f : String} (hs : f ∉ CallMatch.specialHeads) (ho : env.orderless f = false)
    (hfl : env.flat f = false) (as : List Ex) (ha : ∀ a ∈ as, a ≠ .expr []) : ∀ cs : List Clause, (∀ cl ∈ cs, cl.args.length = as.length) →
    (∀ cl ∈ cs, (cl.args.filterMap ArgPat.name?).Nodup) →
    (∀ cl ∈ cs, cs.find? (fun cl => agree cl.args as) = some cl → condArgs locals (cl.instance as) = none) →
    rulesReplace env locals (m + 3) (n + 1) (.expr (.sym f :: as))
      (cs.map (fun cl => .expr [S "Rule", .expr [S "HoldPattern", .expr (.sym f :: cl.args.map ArgPat.toEx)], cl.body])) =
    some ((cs.find? (fun cl => agree cl.args as)).map (fun cl => cl.instance as))
  | [], _, _, _ => rfl
  | cl :: cs, hl, hn, hc => by
    simp only [List.map_cons, rulesReplace, ruleSides, replace,
      CallMatch.matchF_pats env m hs ho hfl cl.args as (hl cl (by simp)) (hn cl (by simp)) ha]
    cases hag : agree cl.args as with
    | true =>
      have := hc cl (by simp) (by simp [List.find?, hag])
      simp only [if_true, replaceLoop, replacePD_instance cl as (hn cl (by simp)), tryCond, this, List.find?, hag, Option.map]
    | false =>
      simp only [Bool.false_eq_true, if_false, replaceLoop, List.find?, hag]
      exact rulesReplace_clauses env locals m n hs ho hfl as ha cs (fun c h => hl c (by simp [h])) (fun c h => hn c (by simp [h]))
        (fun c h hf => hc c (by simp [h]) (by simpa [List.find?, hag] using hf))

namespace AssignProg

variable {A : AlgParams} {strLen : Ex → Nat} {fmt : Rat → String}

theorem _root_.Expreduce.HasClauses.rules {st : EState} {f : String} {cs : List Clause} (h : HasClauses st f cs) : HasRules st f cs := by
  obtain ⟨d, h1, h2, h3, h4⟩ := h.stored
  simp only [Attrs.noRearrange, Bool.and_eq_true, Bool.not_eq_true'] at h3
  exact ⟨⟨d, h1, h2, ⟨h3.1.1.1, h3.1.1.2⟩, h4⟩, h.named, h.distinct⟩

/-- The body of the first clause that agrees with the values. -/
theorem find_clause {st : EState} (hA : 3 ≤ A.bound) (hL : LocalsOk A.locals) {f : String} {cs : List Clause} (hf : HasRules st f cs) (as : List Ex)
    (ha : ∀ a ∈ as, a ≠ .expr []) (hl : ∀ cl ∈ cs, cl.args.length = as.length)
    (hc : ∀ cl ∈ cs, cs.find? (fun cl => agree cl.args as) = some cl → ∀ s ∈ ["System`Condition", "System`With", "System`Module"], hasHead s (cl.instance as) = false)
    (ev : Evaluator) :
    (ctx A strLen fmt).find ev st f (app f as) = .ok (st, (cs.find? (fun cl => agree cl.args as)).map (fun cl => cl.instance as)) := by
  obtain ⟨b, hb⟩ : ∃ b, A.bound = b + 3 := ⟨A.bound - 3, by omega⟩
  obtain ⟨d, hd, -, hna, hdv⟩ := hf.stored
  have := rulesReplace_clauses (envOf st A.truth) A.locals b (b + 2) hf.named (by simp [envOf, attrsOf, hd, hna]) (by simp [envOf, attrsOf, hd, hna]) as ha cs hl
    hf.distinct (by
      intro cl h1 h2
      have hh := hc cl h1 h2
      unfold condArgs
      rw [(argsOf_noneE _ _).2 (hh _ (by simp)), hL _ (hh _ (by simp)) (hh _ (by simp))]
      rfl)
  have e : d.downvalues.map (fun dv => Ex.expr [S "Rule", dv.lhs, dv.rhs]) =
      cs.map (fun cl => .expr [S "Rule", .expr [S "HoldPattern", .expr (.sym f :: cl.args.map ArgPat.toEx)], cl.body]) := by
    have h := congrArg (List.map (fun p : Ex × Ex => Ex.expr [S "Rule", p.1, p.2])) hdv
    simpa [List.map_map, Function.comp_def] using h
  simp only [ctx, algFind, getDef, hd, e, hb, app]
  rw [this]

theorem clauses_value {st : EState} {f : String} {cs : List Clause} (hf : HasRules st f cs) : getSymDef st.toDState f = none := by
  obtain ⟨d, hd, -, -, hdv⟩ := hf.stored
  have : d.downvalues.find? (fun dv => isSymbolRule dv.lhs) = none := by
    rw [List.find?_eq_none]
    intro dv hm
    have : (dv.lhs, dv.rhs) ∈ cs.map (fun cl => (Ex.expr [S "HoldPattern", .expr (.sym f :: cl.args.map ArgPat.toEx)], cl.body)) := by
      rw [← hdv]; exact List.mem_map.2 ⟨dv, hm, rfl⟩
    obtain ⟨cl, -, h⟩ := List.mem_map.1 this
    rw [← (Prod.mk.inj h).1]
    simp [isSymbolRule]
  simp [getSymDef, hd, this]

/-- The pass of a call. -/
theorem pass_rules {st st1 : EState} (hA : 3 ≤ A.bound) (hL : LocalsOk A.locals) {f : String} {cs : List Clause} (hf : HasRules st f cs) (hf1 : HasRules st1 f cs)
    (ht : st.thrown = none) {args vs : List Ex}
    (hcond : conditional (attrsOf st f) (.sym f :: args) = none) (hthr : (attrsOf st f).listable = true → threadExpr (.sym f :: vs) = none) (hseq : EvalSeq (ctx A strLen fmt) (holds (attrsOf st f)) 1 st args st1 vs)
    (hw : ∀ w ∈ vs, Whole w) (ha : ∀ w ∈ vs, w ≠ .expr []) (hl : ∀ cl ∈ cs, cl.args.length = vs.length)
    (hc : ∀ cl ∈ cs, cs.find? (fun cl => agree cl.args vs) = some cl → ∀ s ∈ ["System`Condition", "System`With", "System`Module"], hasHead s (cl.instance vs) = false) :
    ∃ N, ∀ n, N ≤ n → pass (ctx A strLen fmt) n (eval (ctx A strLen fmt) n) st (.sym f :: args) =
      .ok (st1, .next (((cs.find? (fun cl => agree cl.args vs)).map (fun cl => cl.instance vs)).getD (app f vs)) (cs.find? (fun cl => agree cl.args vs)).isSome) := by
  obtain ⟨M, hM⟩ := evalArgs_app mono (clauses_value hf) ht (attrsOf st f) hseq
  have hna : (attrsOf st f).flat = false ∧ (attrsOf st f).orderless = false := by
    obtain ⟨d, hd, -, hna, -⟩ := hf.stored
    simpa [attrsOf, hd] using hna
  have hnb : hasBuiltin st1 f = false := by
    obtain ⟨d, hd, hb, -, -⟩ := hf1.stored
    simp [hasBuiltin, hd, hb]
  refine ⟨M, fun n hn => ?_⟩
  have hspl : spliceParts (eval (ctx A strLen fmt) n) true (attrsOf st f) st1 (.sym f :: vs) = .ok (st1, .sym f :: vs) := by
    refine spliceParts_plain _ _ _ _ ?_
    intro p hp
    rcases List.mem_cons.1 hp with rfl | hp
    · exact plain_sym _ _
    · exact (hw p hp).plain _
  have hfind := find_clause (strLen := strLen) (fmt := fmt) hA hL hf1 vs ha hl hc (eval (ctx A strLen fmt) n)
  rw [app] at hfind
  cases hli : (attrsOf st f).listable with
  | false =>
    simp only [pass, headAttrs, hcond, hM n hn, Res.bind, callSym, afterArgs, Option.isSome, hspl, symbolCase, hna, hli, applyDefs, hnb, Bool.false_eq_true, if_false, hfind]
    cases cs.find? (fun cl => agree cl.args vs) <;> rfl
  | true =>
    simp only [pass, headAttrs, hcond, hM n hn, Res.bind, callSym, afterArgs, Option.isSome, hspl, symbolCase, hna, hli, hthr hli, applyDefs, hnb, Bool.false_eq_true, if_false, if_true, hfind]
    cases cs.find? (fun cl => agree cl.args vs) <;> rfl

/-- The pass of a call. -/
theorem pass_call {st st1 : EState} (hA : 3 ≤ A.bound) (hL : LocalsOk A.locals) {f : String} {cs : List Clause} (hf : HasClauses st f cs) (hf1 : HasClauses st1 f cs)
    (ht : st.thrown = none) {args vs : List Ex} (hseq : EvalSeq (ctx A strLen fmt) (holds (attrsOf st f)) 1 st args st1 vs)
    (hw : ∀ w ∈ vs, Whole w) (ha : ∀ w ∈ vs, w ≠ .expr []) (hl : ∀ cl ∈ cs, cl.args.length = vs.length)
    (hc : ∀ cl ∈ cs, cs.find? (fun cl => agree cl.args vs) = some cl → ∀ s ∈ ["System`Condition", "System`With", "System`Module"], hasHead s (cl.instance vs) = false) :
    ∃ N, ∀ n, N ≤ n → pass (ctx A strLen fmt) n (eval (ctx A strLen fmt) n) st (.sym f :: args) =
      .ok (st1, .next (((cs.find? (fun cl => agree cl.args vs)).map (fun cl => cl.instance vs)).getD (app f vs)) (cs.find? (fun cl => agree cl.args vs)).isSome) := by
  have hna : (attrsOf st f).noRearrange = true := by
    obtain ⟨d, hd, -, hna, -⟩ := hf.stored
    simpa [attrsOf, hd] using hna
  simp only [Attrs.noRearrange, Bool.and_eq_true, Bool.not_eq_true'] at hna
  exact pass_rules hA hL hf.rules hf1.rules ht (by simp [conditional, hna.2]) (by simp [hna]) hseq hw ha hl hc

theorem body_loop {c : Ctx} (hc : c.Mono) {st st' : EState} {e v : Ex} (h : EvalsBody c st e st' v) : ∃ N, ∀ n, N ≤ n → ∀ k, N ≤ k → ∀ last, unchanged c last e = false →
    evalLoop c n (eval c n) k st true last e = .ok (st', v) := by
  obtain ⟨N, hN⟩ := h
  refine ⟨N + 1, fun n hn k hk last hu => ?_⟩
  obtain ⟨k, rfl⟩ : ∃ j, k = j + 1 := ⟨k - 1, by omega⟩
  have := (evalLoop_mono hc (show N ≤ n by omega) (eval_mono hc (show N ≤ n by omega)) (N + 1) (k + 1) (by omega) st true none e).ok hN
  rw [← this]
  cases e with
  | expr ps =>
    rw [evalLoop, if_neg (by simp [hu])]
    symm
    rw [evalLoop, if_neg (by simp [unchanged])]
  | _ =>
    unfold evalLoop
    rw [if_neg (by simp [hu]), if_neg (by simp [unchanged])]

/-- A body whose first pass gives a finished value. -/
theorem body_of_pass {c : Ctx} (hc : c.Mono) (hs : ∀ e, c.same e e = true) {st st' : EState} {ps : List Ex} {v : Ex} {N : Nat} (hskip : c.skip st (.expr ps) = false)
    (ht : tryReturn st (.expr ps) = none) (h1 : ∀ n, N ≤ n → pass c n (eval c n) st ps = .ok (st', .next v false)) (hd : Final c st' v) :
    EvalsBody c st (.expr ps) st' v := by
  obtain ⟨K, hK⟩ := hd.loop hc hs
  refine ⟨max N K + 1, ?_⟩
  rw [evalLoop_next rfl (fun _ => ht) hskip (h1 _ (by omega))]
  exact hK _ (by omega) _ (by omega) _ _

/-- A body that is no compound expression. -/
theorem body_atom {c : Ctx} {st st' : EState} {e v : Ex} (ha : ∀ ps, e ≠ .expr ps) (h : Evals c st e st' v) : EvalsBody c st e st' v := by
  obtain ⟨n, hn⟩ := h
  refine ⟨n, ?_⟩
  cases e with
  | expr ps => exact absurd rfl (ha ps)
  | _ => unfold evalLoop; rw [if_neg (by simp [unchanged])]; exact hn

/-- The value of a call. -/
theorem evals_rules {st st1 st2 : EState} (hA : 3 ≤ A.bound) (hL : LocalsOk A.locals) {f : String} {cs : List Clause} (hf : HasRules st f cs) (hf1 : HasRules st1 f cs)
    (ht : st.thrown = none) {args vs : List Ex}
    (hcond : conditional (attrsOf st f) (.sym f :: args) = none) (hthr : (attrsOf st f).listable = true → threadExpr (.sym f :: vs) = none) (hseq : EvalSeq (ctx A strLen fmt) (holds (attrsOf st f)) 1 st args st1 vs)
    (hw : ∀ w ∈ vs, Whole w) (ha : ∀ w ∈ vs, w ≠ .expr []) (hl : ∀ cl ∈ cs, cl.args.length = vs.length) {cl : Clause}
    (hcl : cs.find? (fun cl => agree cl.args vs) = some cl)
    (hc : ∀ s ∈ ["System`Condition", "System`With", "System`Module"], hasHead s (cl.instance vs) = false) (hne : cl.instance vs ≠ app f args) {v : Ex}
    (hb : EvalsBody (ctx A strLen fmt) st1 (cl.instance vs) st2 v) : Evals (ctx A strLen fmt) st (app f args) st2 v := by
  obtain ⟨N, hN⟩ := pass_rules (strLen := strLen) (fmt := fmt) hA hL hf hf1 ht hcond hthr hseq hw ha hl (by
    intro cl' _ h
    rw [hcl] at h
    obtain rfl := Option.some.inj h
    exact hc)
  obtain ⟨M, hM⟩ := body_loop mono hb
  rw [hcl] at hN
  refine ⟨max N M + 1, ?_⟩
  rw [app, eval_expr, evalLoop_next rfl (by simp) rfl (hN _ (by omega))]
  exact hM _ (by omega) _ (by omega) _ (by
    simp only [unchanged, ctx, Option.map_some, Option.getD_some, decide_eq_false_iff_not]
    exact fun h => hne h.symm)

/-- The value of a call. -/
theorem evals_call {st st1 st2 : EState} (hA : 3 ≤ A.bound) (hL : LocalsOk A.locals) {f : String} {cs : List Clause} (hf : HasClauses st f cs) (hf1 : HasClauses st1 f cs)
    (ht : st.thrown = none) {args vs : List Ex} (hseq : EvalSeq (ctx A strLen fmt) (holds (attrsOf st f)) 1 st args st1 vs)
    (hw : ∀ w ∈ vs, Whole w) (ha : ∀ w ∈ vs, w ≠ .expr []) (hl : ∀ cl ∈ cs, cl.args.length = vs.length) {cl : Clause}
    (hcl : cs.find? (fun cl => agree cl.args vs) = some cl)
    (hc : ∀ s ∈ ["System`Condition", "System`With", "System`Module"], hasHead s (cl.instance vs) = false) (hne : cl.instance vs ≠ app f args) {v : Ex}
    (hb : EvalsBody (ctx A strLen fmt) st1 (cl.instance vs) st2 v) : Evals (ctx A strLen fmt) st (app f args) st2 v := by
  have hna : (attrsOf st f).noRearrange = true := by
    obtain ⟨d, hd, -, hna, -⟩ := hf.stored
    simpa [attrsOf, hd] using hna
  simp only [Attrs.noRearrange, Bool.and_eq_true, Bool.not_eq_true'] at hna
  exact evals_rules hA hL hf.rules hf1.rules ht (by simp [conditional, hna.2]) (by simp [hna]) hseq hw ha hl hcl hc hne hb

end AssignProg
end Expreduce
