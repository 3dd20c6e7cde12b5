import Verif.Props.Eval
import Verif.Props.Order

/-! Properties C24, C26 (continued), C70–C73: the evaluator, arguments that are rearranged. -/

namespace Expreduce
open Ex

/-- A call whose arguments are values reaches the rearrangement of the arguments. -/
theorem pass_ready {c : Ctx} (hc : c.Mono) {st : EState} {f : String} (args : List Ex)
    (hv : getSymDef st.toDState f = none) (ht : st.thrown = none) (hnf : (attrsOf st f).numericFunction = false)
    (hd : ∀ a ∈ args, Done c st a) (hpl : ∀ a ∈ args, plainPart (attrsOf st f) a) :
    ∃ N, ∀ n, N ≤ n → pass c n (eval c n) st (.sym f :: args) = symbolCase c n (eval c n) f (attrsOf st f) st (.sym f :: args) := by
  obtain ⟨N1, h1⟩ := evalArgs_app hc hv ht (attrsOf st f) (evalSeq_self (held := holds (attrsOf st f)) ht args 1
    (fun j hj _ => hd _ (List.getElem_mem hj)))
  refine ⟨N1, fun n hn => ?_⟩
  have hcond : conditional (attrsOf st f) (.sym f :: args) = none := by simp [conditional, hnf]
  simp only [pass, headAttrs, hcond, h1 n hn, Res.bind, callSym, afterArgs, Option.isSome]
  rw [spliceParts_plain _ _ _ _ (by
    intro p h
    rcases List.mem_cons.1 h with rfl | h
    · exact plain_sym _ _
    · exact hpl p h)]

theorem mergeSeq_app (h f : String) (args : List Ex) : mergeSeq h (.sym f :: args) = .sym f :: splice h args := by
  rw [mergeSeq_eq]; rfl

/-! ### C70: `Flat` -/

/-- C70. What a built-in function of a `Flat` symbol is called with: the nested calls of the same symbol among the arguments are spliced. Here for a
result that is a value different from the call. -/
theorem C70_builtin_flat_partial {c : Ctx} (hc : c.Mono) {st st' : EState} {f : String} {F} (args : List Ex) (v : Ex)
    (hskip : c.skip st (app f args) = false) (hb : Builtin c st f F) (ht : st.thrown = none)
    (ha : (attrsOf st f).flat = true ∧ (attrsOf st f).orderless = false ∧ (attrsOf st f).listable = false ∧ (attrsOf st f).numericFunction = false)
    (hd : ∀ a ∈ args, Done c st a) (hpl : ∀ a ∈ args, plainPart (attrsOf st f) a)
    (hF : ∃ N, ∀ n, N ≤ n → F n (eval c n) st (.sym f :: splice f args) = .ok (st', v)) (hne : isSameQ v (app f (splice f args)) = false)
    (hdv : Done c st' v) : Evals c st (app f args) st' v := by
  obtain ⟨N1, h1⟩ := pass_ready hc args hb.noValue ht ha.2.2.2 hd hpl
  obtain ⟨N2, h2⟩ := hF
  refine evals_of_pass_done hc (N := max N1 N2) hskip (fun n hn => ?_) hdv
  rw [h1 n (by omega)]
  rw [app] at hne
  simp [symbolCase, ha, mergeSeq_app, applyDefs, hb.builtin, hb.fn, h2 n (by omega), Res.bind, hne]

/-- C70. The same for rules: they are matched against the flattened call. Here for a right side that is not a compound expression. -/
theorem C70_rule_flat_partial {c : Ctx} (hc : c.Mono) {st st' : EState} {f : String} (args : List Ex) (r v : Ex)
    (hskip : c.skip st (app f args) = false) (hv : getSymDef st.toDState f = none) (hb : hasBuiltin st f = false) (ht : st.thrown = none)
    (ha : (attrsOf st f).flat = true ∧ (attrsOf st f).orderless = false ∧ (attrsOf st f).listable = false ∧ (attrsOf st f).numericFunction = false)
    (hd : ∀ a ∈ args, Done c st a) (hpl : ∀ a ∈ args, plainPart (attrsOf st f) a)
    (hr : ∀ ev, c.find ev st f (app f (splice f args)) = .ok (st, some r)) (hne : c.same (app f args) r = false) (hatom : ∀ ps, r ≠ .expr ps)
    (hrv : Evals c st r st' v) : Evals c st (app f args) st' v := by
  obtain ⟨N1, h1⟩ := pass_ready hc args hv ht ha.2.2.2 hd hpl
  obtain ⟨N2, h2⟩ := hrv.at hc
  have hp : ∀ n, N1 ≤ n → pass c n (eval c n) st (.sym f :: args) = .ok (st, .next r true) := by
    intro n hn
    rw [h1 n hn]
    rw [app] at hr
    simp [symbolCase, ha, mergeSeq_app, applyDefs, hb, Res.bind, hr]
  refine ⟨max N1 N2 + 2, ?_⟩
  rw [app, eval_expr, evalLoop_next rfl (by simp) hskip (hp _ (by omega))]
  have hu : unchanged c (some (.expr (.sym f :: args))) r = false := by rw [app] at hne; simpa [unchanged] using hne
  unfold evalLoop
  rw [if_neg (by simp [hu])]
  cases r with
  | expr ps => exact absurd rfl (hatom ps)
  | _ => exact h2 _ (by omega)

/-- C70 is false of the code for a symbol that has nothing but the attribute: nested calls stay nested, since the expression with the spliced
arguments is only given to the built-in function and to the rules, and then dropped. -/
theorem C70_not_flattened {c : Ctx} (hc : c.Mono) (hs : ∀ e, c.same e e = true) {st : EState} {f : String} (args : List Ex)
    (hskip : c.skip st (app f args) = false) (hi : FreeHead c st f) (ht : st.thrown = none)
    (ha : (attrsOf st f).orderless = false ∧ (attrsOf st f).listable = false ∧ (attrsOf st f).numericFunction = false)
    (hd : ∀ a ∈ args, Done c st a) (hpl : ∀ a ∈ args, plainPart (attrsOf st f) a) : Done c st (app f args) := by
  obtain ⟨N, h⟩ := pass_ready hc args hi.noValue ht ha.2.2 hd hpl
  have hp : ∀ n, N ≤ n → pass c n (eval c n) st (.sym f :: args) = .ok (st, .next (.expr (.sym f :: args)) false) := by
    intro n hn
    rw [h n hn]
    have hr := hi.noRule (eval c n)
    simp only [app] at hr
    by_cases hfl : (attrsOf st f).flat = true
    · cases hany : (Ex.sym f :: args).any (hasHead f) with
      | true =>
        simp only [symbolCase, ha, hfl, mergeSeq_app, applyDefs, hi.noBuiltin, Res.bind, hr, hany, Bool.false_eq_true, if_false, if_true, Bool.and_self]
      | false =>
        have : splice f args = args := by
          have h1 : mergeSeq f (.sym f :: args) = .sym f :: args := by rw [mergeSeq]; simp [hany]
          rw [mergeSeq_app] at h1
          exact (List.cons.inj h1).2
        simp only [symbolCase, ha, hfl, mergeSeq_app, this, applyDefs, hi.noBuiltin, Res.bind, hr, hany, Bool.false_eq_true, if_false, if_true, Bool.and_false]
    · simp only [Bool.not_eq_true] at hfl
      simp [symbolCase, ha, hfl, applyDefs, hi.noBuiltin, Res.bind, hr]
  exact evals_of_two hs hskip hp hp

/-! ### C71: `Orderless` -/

/-- C71. The value of `f[args]` for an `Orderless` symbol about which nothing else is known and arguments that are values: the same arguments, sorted.
The assumption on `c.sort` is the contract of the library, and that it leaves its own result alone. -/
theorem C71_sorted {c : Ctx} (hc : c.Mono) (hs : ∀ e, c.same e e = true) {st : EState} {f : String} (args : List Ex)
    (hskip : c.skip st (app f args) = false) (hi : FreeHead c st f) (ht : st.thrown = none)
    (ha : (attrsOf st f).orderless = true ∧ (attrsOf st f).flat = false ∧ (attrsOf st f).listable = false ∧ (attrsOf st f).numericFunction = false)
    (hperm : (c.sort args).Perm args) (hidem : c.sort (c.sort args) = c.sort args)
    (hd : ∀ a ∈ args, Done c st a) (hpl : ∀ a ∈ args, plainPart (attrsOf st f) a) :
    Evals c st (app f args) st (app f (c.sort args)) := by
  have hp : ∀ bs, (∀ a ∈ bs, Done c st a) → (∀ a ∈ bs, plainPart (attrsOf st f) a) →
      ∃ N, ∀ n, N ≤ n → pass c n (eval c n) st (.sym f :: bs) = .ok (st, .next (.expr (.sym f :: c.sort bs)) false) := by
    intro bs h1 h2
    obtain ⟨N, h⟩ := pass_ready hc bs hi.noValue ht ha.2.2.2 h1 h2
    refine ⟨N, fun n hn => ?_⟩
    rw [h n hn]
    have hr := hi.noRule (eval c n)
    simp only [app] at hr
    simp [symbolCase, ha, sortArgs, applyDefs, hi.noBuiltin, Res.bind, hr]
  obtain ⟨N1, h1⟩ := hp args hd hpl
  obtain ⟨N2, h2⟩ := hp (c.sort args) (fun a h => hd a (hperm.mem_iff.1 h)) (fun a h => hpl a (hperm.mem_iff.1 h))
  rw [hidem] at h2
  exact evals_of_two hs (N := max N1 N2) hskip (fun n hn => h1 n (by omega)) (fun n hn => h2 n (by omega))

/-- C71. Two calls of such a symbol whose arguments are the same up to order have values whose arguments agree pairwise in the canonical order. -/
theorem C71_order_irrelevant {c : Ctx} (hc : c.Mono) (hs : ∀ e, c.same e e = true) {st : EState} {f : String} (as bs : List Ex) (hab : as.Perm bs)
    (hskip : ∀ e, c.skip st e = false) (hi : FreeHead c st f) (ht : st.thrown = none)
    (ha : (attrsOf st f).orderless = true ∧ (attrsOf st f).flat = false ∧ (attrsOf st f).listable = false ∧ (attrsOf st f).numericFunction = false)
    (hsort : ∀ l, SortContract exLess l (c.sort l)) (hidem : ∀ l, c.sort (c.sort l) = c.sort l) (hord : ∀ a ∈ as, HeadOnly a)
    (hd : ∀ a ∈ as, Done c st a) (hpl : ∀ a ∈ as, plainPart (attrsOf st f) a) :
    ∃ as' bs', Evals c st (app f as) st (app f as') ∧ Evals c st (app f bs) st (app f bs') ∧ as'.Perm as ∧ bs'.Perm bs ∧
      as'.Pairwise (fun a b => 0 ≤ exOrder a b) ∧ List.Forall₂ (fun a b => exOrder a b = 0) as' bs' := by
  refine ⟨c.sort as, c.sort bs, ?_, ?_, (hsort as).1, (hsort bs).1, ?_, ?_⟩
  · exact C71_sorted hc hs as (hskip _) hi ht ha (hsort as).1 (hidem as) hd hpl
  · exact C71_sorted hc hs bs (hskip _) hi ht ha (hsort bs).1 (hidem bs) (fun a h => hd a (hab.mem_iff.2 h)) (fun a h => hpl a (hab.mem_iff.2 h))
  · obtain ⟨h1, xs, xs', e1, e1', -, s1⟩ := C04_sort_ordered_permutation (.expr (.sym f :: as)) (.expr (.sym f :: c.sort as))
      ⟨_, _, _, rfl, rfl, hsort as⟩ (by
        intro hd' as0 e x hx; simp only [Ex.expr.injEq, List.cons.injEq] at e; exact hord x (e.2 ▸ hx))
    simp only [Ex.expr.injEq, List.cons.injEq] at e1'
    rw [e1'.2]; exact s1
  · exact C05_canonical_form_partial (.sym f) as bs _ _ hab hord ⟨_, _, _, rfl, rfl, hsort as⟩ ⟨_, _, _, rfl, rfl, hsort bs⟩

/-! ### C72: `Unevaluated` -/

theorem spliceParts_unevaluated (ev : Evaluator) (a : Attrs) (st : EState) (f : String) (left right : List Ex) (e : Ex)
    (hl : ∀ p ∈ left ++ right, plainPart a p) :
    spliceParts ev true a st (.sym f :: (left ++ app "System`Unevaluated" [e] :: right)) = .ok (st, .sym f :: (left ++ e :: right)) := by
  have hp : ∀ p ∈ Ex.sym f :: (left ++ app "System`Unevaluated" [e] :: right), (a.sequenceHold = true ∨ a.holdAllComplete = true ∨ hasHead "System`Sequence" p = false) ∧
      (a.holdAllComplete = true ∨ hasHead "System`Evaluate" p = false) := by
    intro p h
    rcases List.mem_cons.1 h with rfl | h
    · exact ⟨.inr (.inr rfl), .inr rfl⟩
    · rcases List.mem_append.1 h with h | h
      · exact ⟨(hl p (by simp [h])).1, (hl p (by simp [h])).2.1⟩
      · rcases List.mem_cons.1 h with rfl | h
        · exact ⟨.inr (.inr (by simp [hasHead, app])), .inr (by simp [hasHead, app])⟩
        · exact ⟨(hl p (by simp [h])).1, (hl p (by simp [h])).2.1⟩
  generalize hps : Ex.sym f :: (left ++ app "System`Unevaluated" [e] :: right) = ps at hp ⊢
  have hs : (if (true && (a.sequenceHold || a.holdAllComplete)) = true then ps else mergeSeq "System`Sequence" ps) = ps := by
    split
    · rfl
    · rename_i hn
      simp only [Bool.true_and, Bool.or_eq_true, not_or, Bool.not_eq_true] at hn
      rw [mergeSeq_eq, splice_none _ _ (any_false_of _ _ (fun p h => ?_))]
      rcases (hp p h).1 with h1 | h1 | h1
      · simp [h1] at hn
      · simp [h1] at hn
      · exact h1
  have he : (if a.holdAllComplete = true then Res.ok (st, ps) else mergeEval ev "System`Evaluate" st ps) = .ok (st, ps) := by
    split
    · rfl
    · rename_i hn
      unfold mergeEval
      rw [if_neg]
      rw [any_false_of _ _ (fun p h => ?_)]
      · simp
      · rcases (hp p h).2 with h1 | h1
        · exact absurd h1 hn
        · exact h1
  simp only [spliceParts]
  rw [hs, he]
  simp only [Res.bind]
  rw [← hps, mergeSeq_app]
  have hnone : ∀ l : List Ex, (∀ p ∈ l, plainPart a p) → splice "System`Unevaluated" l = l := fun l h =>
    splice_none _ _ (any_false_of _ _ (fun p hp => (h p hp).2.2))
  have h1 := hnone left (fun p h => hl p (by simp [h]))
  have h2 := hnone right (fun p h => hl p (by simp [h]))
  simp only [splice, List.flatMap_append, List.flatMap_cons] at h1 h2 ⊢
  rw [h1, h2]
  simp [app, argsOf]

/-- C72. `Unevaluated` protects its argument for one pass only: for a symbol about which nothing is known but attributes, which do not hold
the argument, `f[Unevaluated[e]]` becomes `f[v]` with the value `v` of `e` if nothing else happens. -/
theorem C72_unevaluated_lost {c : Ctx} (hc : c.Mono) (hs : ∀ e, c.same e e = true) (hskip : ∀ st e, c.skip st e = false) {st st' : EState} {f : String} (e v : Ex)
    (hi : FreeHead c st f) (hi' : FreeHead c st' f) (ht : st.thrown = none) (ht' : st'.thrown = none)
    (ha : (attrsOf st f).noRearrange = true) (hat : attrsOf st' f = attrsOf st f) (hh : ¬ holds (attrsOf st f) 1)
    (hu : Done c st (app "System`Unevaluated" [e])) (hpe : plainPart (attrsOf st f) e) (he : Evals c st e st' v) (hpv : plainPart (attrsOf st f) v)
    (hdv : Done c st' v) (hne : c.same (app f [app "System`Unevaluated" [e]]) (app f [e]) = false) :
    Evals c st (app f [app "System`Unevaluated" [e]]) st' (app f [v]) := by
  obtain ⟨N1, h1⟩ := evalArgs_app hc hi.noValue ht (attrsOf st f) (evalSeq_self (held := holds (attrsOf st f)) ht [app "System`Unevaluated" [e]] 1
    (fun j hj _ => by simp only [List.length_singleton, Nat.lt_one_iff] at hj; subst hj; exact hu))
  have p1 : ∀ n, N1 ≤ n → pass c n (eval c n) st [.sym f, app "System`Unevaluated" [e]] = .ok (st, .next (app f [e]) false) := by
    intro n hn
    exact pass_inert ha (h1 n hn) (spliceParts_unevaluated _ _ _ f [] [] e (by simp)) hi
  obtain ⟨N2, h2⟩ := passes_inert hc hi.noValue ht ht' hi' hat ha (EvalSeq.step (ps := []) hh he ht' .nil) (ws := [v])
    ⟨0, fun n _ => spliceParts_plain _ _ _ _ (by
      intro p h
      simp only [List.mem_cons, List.not_mem_nil, or_false] at h
      rcases h with rfl | rfl
      · exact plain_sym _ _
      · exact hpv)⟩ (by simpa using hpv) (by intro j hj _; simp only [List.length_singleton, Nat.lt_one_iff] at hj; subst hj; exact hdv)
  refine ⟨max N1 N2 + 4, ?_⟩
  rw [show max N1 N2 + 4 = (max N1 N2 + 3) + 1 from rfl, app, eval_expr, evalLoop_next rfl (by simp) (hskip _ _) (p1 _ (by omega))]
  exact loop_of_two hs _ _ (by simpa [unchanged, app] using hne) (hskip _ _) (h2 _ (by omega)).1 (h2 _ (by omega)).2

/-- C72. `Unevaluated` is taken away even inside a function with `HoldAllComplete`. -/
theorem C72_hold_all_complete {c : Ctx} (hc : c.Mono) (hs : ∀ e, c.same e e = true) {st : EState} {f : String} (left right : List Ex) (e : Ex)
    (hskip : c.skip st (app f (left ++ app "System`Unevaluated" [e] :: right)) = false) (hi : FreeHead c st f) (ht : st.thrown = none)
    (ha : (attrsOf st f).noRearrange = true) (hh : (attrsOf st f).holdAllComplete = true)
    (hpl : ∀ p ∈ left ++ e :: right, hasHead "System`Unevaluated" p = false) :
    Evals c st (app f (left ++ app "System`Unevaluated" [e] :: right)) st (app f (left ++ e :: right)) := by
  have hp : ∀ p ∈ left ++ e :: right, plainPart (attrsOf st f) p := fun p h => ⟨.inr (.inl hh), .inl hh, hpl p h⟩
  refine evals_inert hc hs hskip hi.noValue ht ht hi rfl ha (evalSeq_held _ 1 (fun j _ => .inr (.inr (.inr hh))))
    ⟨0, fun n _ => spliceParts_unevaluated _ _ _ _ _ _ _ (fun p h => hp p (by
      rcases List.mem_append.1 h with h | h <;> simp [h]))⟩ hp ?_
  intro j _ hn
  exact absurd (.inr (.inr (.inr hh))) hn

/-! ### C26: `Evaluate` -/

/-- C26. `Evaluate` overrides `HoldAll` (and `HoldFirst`, `HoldRest` where they hold the argument). -/
theorem C26_evaluate {c : Ctx} (hc : c.Mono) (hs : ∀ e, c.same e e = true) {st st' : EState} {f : String} (left right : List Ex) (e v : Ex)
    (hskip : c.skip st (app f (left ++ app "System`Evaluate" [e] :: right)) = false) (hi : FreeHead c st f) (hi' : FreeHead c st' f)
    (hat : attrsOf st' f = attrsOf st f) (ht : st.thrown = none) (ht' : st'.thrown = none)
    (ha : (attrsOf st f).noRearrange = true) (hh : (attrsOf st f).holdAll = true) (hnc : (attrsOf st f).holdAllComplete = false)
    (hpl : ∀ p ∈ left ++ v :: right, plainPart (attrsOf st f) p) (he : Evals c st e st' v) :
    Evals c st (app f (left ++ app "System`Evaluate" [e] :: right)) st' (app f (left ++ v :: right)) := by
  refine evals_inert hc hs hskip hi.noValue ht ht' hi' hat ha (evalSeq_held _ 1 (fun j _ => .inr (.inr (.inl hh)))) ?_ hpl ?_
  · obtain ⟨N, hN⟩ := he.at hc
    refine ⟨N, fun n hn => ?_⟩
    have hplain : ∀ l : List Ex, (∀ p ∈ l, hasHead "System`Evaluate" p = false) → ∀ r st, mergeEvalLoop (eval c n) "System`Evaluate" st (l ++ r) =
        (mergeEvalLoop (eval c n) "System`Evaluate" st r).bind (fun q => .ok (q.1, l ++ q.2)) := by
      intro l
      induction l with
      | nil =>
        intro _ r s
        simp only [List.nil_append]
        cases mergeEvalLoop (eval c n) "System`Evaluate" s r <;> rfl
      | cons p l ih =>
        intro h r s
        have hn : argsOf "System`Evaluate" p = none := (argsOf_noneE _ _).2 (h p (by simp))
        rw [List.cons_append, mergeEvalLoop, hn]
        simp only
        rw [ih (fun q hq => h q (by simp [hq]))]
        cases mergeEvalLoop (eval c n) "System`Evaluate" s r <;> rfl
    have hle : ∀ p ∈ Ex.sym f :: left, hasHead "System`Evaluate" p = false := by
      intro p h
      rcases List.mem_cons.1 h with rfl | h
      · rfl
      · exact (hpl p (by simp [h])).2.1.resolve_left (by simp [hnc])
    have hri : ∀ p ∈ right, hasHead "System`Evaluate" p = false := fun p h => (hpl p (by simp [h])).2.1.resolve_left (by simp [hnc])
    have hm : mergeEval (eval c n) "System`Evaluate" st (.sym f :: (left ++ app "System`Evaluate" [e] :: right)) = .ok (st', .sym f :: (left ++ v :: right)) := by
      unfold mergeEval
      rw [if_pos (by simp [app, hasHead])]
      rw [← List.cons_append, hplain _ hle, mergeEvalLoop]
      have : argsOf "System`Evaluate" (app "System`Evaluate" [e]) = some [e] := by simp [argsOf, app]
      rw [this]
      simp only [evalAll, hN n hn, Res.bind]
      have h2 := hplain right hri [] st'
      rw [List.append_nil] at h2
      rw [h2]
      simp [mergeEvalLoop, Res.bind]
    have hq : ∀ p ∈ Ex.sym f :: (left ++ app "System`Evaluate" [e] :: right), (attrsOf st f).sequenceHold = true ∨ hasHead "System`Sequence" p = false := by
      intro p h
      have hr : ∀ p ∈ left ++ v :: right, (attrsOf st f).sequenceHold = true ∨ hasHead "System`Sequence" p = false := by
        intro p h
        rcases (hpl p h).1 with h1 | h1 | h1
        · exact .inl h1
        · simp [hnc] at h1
        · exact .inr h1
      rcases List.mem_cons.1 h with rfl | h
      · exact .inr rfl
      · rcases List.mem_append.1 h with h | h
        · exact hr p (by simp [h])
        · rcases List.mem_cons.1 h with rfl | h
          · exact .inr (by simp [hasHead, app])
          · exact hr p (by simp [h])
    have hseq : (if (true && ((attrsOf st f).sequenceHold || (attrsOf st f).holdAllComplete)) = true
        then Ex.sym f :: (left ++ app "System`Evaluate" [e] :: right)
        else mergeSeq "System`Sequence" (Ex.sym f :: (left ++ app "System`Evaluate" [e] :: right))) = Ex.sym f :: (left ++ app "System`Evaluate" [e] :: right) := by
      split
      · rfl
      · rename_i hno
        simp only [Bool.true_and, Bool.or_eq_true, not_or, Bool.not_eq_true] at hno
        rw [mergeSeq_eq, splice_none _ _ (any_false_of _ _ (fun p h => ?_))]
        exact (hq p h).resolve_left (by simp [hno.1])
    simp only [spliceParts]
    rw [hseq]
    simp only [hnc, Bool.false_eq_true, if_false, hm, Res.bind]
    rw [mergeSeq_eq, splice_none _ _ (any_false_of _ _ (fun p h => ?_))]
    rcases List.mem_cons.1 h with rfl | h
    · rfl
    · exact (hpl p h).2.2
  · intro j _ hn
    exact absurd (.inr (.inr (.inl hh))) hn

/-! ### C73: crashes -/

/-- C73 is false of the code: a call without arguments whose head is not a symbol and evaluates to `Sequence[]` is left without any part, and the
interpreter indexes the empty list of parts. -/
theorem C73_empty_head_panics {c : Ctx} (hc : c.Mono) {st st' : EState} (h : Ex) (hns : ∀ s, h ≠ .sym s)
    (hskip : c.skip st (.expr [h]) = false) (he : Evals c st h st' (app "System`Sequence" [])) (ht : st'.thrown = none) : Panics c st (.expr [h]) := by
  obtain ⟨N, hN⟩ := he.at hc
  refine ⟨N + 1, ?_⟩
  have hd : headAttrs st [h] = {} := by
    cases h with
    | sym s => exact absurd rfl (hns s)
    | _ => rfl
  have hs : callSym [h] = none := by
    cases h with
    | sym s => exact absurd rfl (hns s)
    | _ => rfl
  rw [eval_expr, evalLoop_pass rfl (by simp) hskip]
  have h1 : evalArgs (eval c N) (heldPart {}) 0 st [h] = .ok (st', .inl [app "System`Sequence" []]) := by
    rw [evalArgs, if_neg (by simp [heldPart]), hN N (by omega)]
    simp [Res.bind, ht, evalArgs]
  simp only [pass, hd, hs, conditional, Bool.false_eq_true, if_false, h1, Res.bind, afterArgs, Option.isSome]
  have h2 : spliceParts (eval c N) false {} st' [app "System`Sequence" []] = .ok (st', []) := by
    simp [spliceParts, mergeSeq, mergeEval, appendPart, argsOf, app, hasHead, Res.bind]
  rw [h2]

/-- C73: so does `;` without statements, `CompoundExpression[]`. -/
theorem C73_empty_compound_panics {c : Ctx} (hc : c.Mono) {st : EState} (h : HasThrow c st) (ht : st.thrown = none)
    (hskip : c.skip st (app "System`CompoundExpression" []) = false) : Panics c st (app "System`CompoundExpression" []) := by
  refine ⟨1, ?_⟩
  rw [app, eval_expr, evalLoop_pass rfl (by simp) hskip]
  have h1 : evalArgs (eval c 0) (heldPart (attrsOf st "System`CompoundExpression")) 0 st [.sym "System`CompoundExpression"] =
      .ok (st, .inl [.sym "System`CompoundExpression"]) := by
    simp [evalArgs, heldPart, h.compoundHold, Res.bind]
  rw [pass_builtin h.compoundCmd.plain h.compoundCmd.toBuiltin h1 (spliceParts_plain _ _ _ _ (by
    intro p hp
    simp only [List.mem_cons, List.not_mem_nil, or_false] at hp
    subst hp
    exact plain_sym _ _))]
  rfl

end Expreduce
