import Verif.Props.Eval2

/-! Concrete programs that meet the hypotheses of the theorems about the evaluator, and the refutation of C69 with `Return`. -/

namespace Expreduce
open Ex

/-- C69 is false of the code with `Return`: if a rule for `f[args]` has the right side `Return[x]`, then the value of the call is `x` itself, not
the value of `x`. -/
theorem C69_return_unevaluated {c : Ctx} (hc : c.Mono) {st : EState} {f : String} (args : List Ex) (x : Ex)
    (hskip : c.skip st (app f args) = false) (hv : getSymDef st.toDState f = none) (hb : hasBuiltin st f = false) (ht : st.thrown = none)
    (hi : st.interrupted = false) (ha : (attrsOf st f).noRearrange = true)
    (hd : ∀ a ∈ args, Done c st a) (hpl : ∀ a ∈ args, plainPart (attrsOf st f) a)
    (hr : ∀ ev, c.find ev st f (app f args) = .ok (st, some (app "System`Return" [x])))
    (hne : c.same (app f args) (app "System`Return" [x]) = false) : Evals c st (app f args) st x := by
  have hna := ha
  simp only [Attrs.noRearrange, Bool.and_eq_true, Bool.not_eq_true'] at hna
  obtain ⟨N1, h1⟩ := pass_ready hc args hv ht hna.2 hd hpl
  have hp : ∀ n, N1 ≤ n → pass c n (eval c n) st (.sym f :: args) = .ok (st, .next (app "System`Return" [x]) true) := by
    intro n hn
    rw [h1 n hn]
    rw [app] at hr
    simp [symbolCase, hna, applyDefs, hb, Res.bind, hr]
  refine ⟨N1 + 2, ?_⟩
  rw [app, eval_expr, evalLoop_next rfl (by simp) hskip (hp _ (by omega))]
  have hu : unchanged c (some (.expr (.sym f :: args))) (app "System`Return" [x]) = false := by
    simpa [unchanged, app] using hne
  unfold evalLoop
  rw [if_neg (by simp [hu])]
  simp only [app, Bool.false_or, if_true]
  simp [tryReturn, hi, argsOf]

namespace Demo

/-- No floats are printed here. -/
def fmt : Rat → String := fun _ => ""
/-- a symbol of the user -/
def g (s : String) : Ex := .sym ("Global`" ++ s)

/-- The state with the built-in symbols of `flowTable` and a few symbols with attributes. -/
def table : Table := fun s =>
  if s = "Global`lis" then some { attrs := { listable := true } }
  else if s = "Global`ord" then some { attrs := { orderless := true } }
  else if s = "Global`flat" then some { attrs := { flat := true } }
  else if s = "Global`rest" then some { attrs := { holdRest := true } }
  else if s = "Global`seq" then some { attrs := { sequenceHold := true } }
  else if s = "System`List" then some { attrs := { prot := true, locked := true } }
  else if s = "System`Unevaluated" then some { attrs := { holdAllComplete := true, prot := true } }
  else if s = "System`HoldComplete" then some { attrs := { holdAllComplete := true, prot := true } }
  else if s = "Global`x" then some { downvalues := [{ lhs := .expr [S "HoldPattern", .sym "Global`x"], rhs := .int 5 }] }
  else flowTable s

/-- The state. -/
def st : EState := { defs := table }

/-- Two rules: `flat[a, b, c] -> 1`, `ret[1] -> Return[k[1]]`, `k[1] -> 2`. -/
def rules (s : String) (e : Ex) : Option Ex :=
  if s = "Global`flat" then if e = app "Global`flat" [g "a", g "b", g "c"] then some (.int 1) else none
  else if s = "Global`ret" then if e = app "Global`ret" [.int 1] then some (app "System`Return" [app "Global`k" [.int 1]]) else none
  else if s = "Global`k" then if e = app "Global`k" [.int 1] then some (.int 2) else none
  else none

/-- The functions of `flowFn` and the rules above; expressions are compared exactly. -/
def ctx : Ctx := { fn := flowFn fmt, find := fun _ st s e => .ok (st, rules s e), same := fun a b => decide (a = b) }

theorem mono : ctx.Mono := ⟨fun s _ _ _ _ st ps hn h => flowFn_mono fmt s hn h st ps, fun _ _ _ _ _ _ => .refl _⟩
theorem same (e : Ex) : ctx.same e e = true := by simp [ctx]

theorem done_atom {s : String} (h : getSymDef st.toDState s = none) : Done ctx st (.sym s) := ⟨2, by
  show evalSymbol _ _ _ = _
  simp [evalSymbol, h]⟩
theorem done_int (n : Int) : Done ctx st (.int n) := ⟨1, rfl⟩

theorem inert {f : String} (h1 : getSymDef st.toDState f = none) (h2 : hasBuiltin st f = false) (h3 : ∀ e, rules f e = none) : FreeHead ctx st f :=
  ⟨h1, h2, fun _ _ => by simp [ctx, h3]⟩

theorem plain_atom (a : Attrs) (s : String) : plainPart a (.sym s) := plain_sym a s
theorem plain_int (a : Attrs) (n : Int) : plainPart a (.int n) := ⟨.inr (.inr rfl), .inr rfl, rfl⟩

/-- `f[a, Sequence[1, 2], b]` is `f[a, 1, 2, b]`. -/
example : Evals ctx st (app "Global`f" [g "a", app "System`Sequence" [.int 1, .int 2], g "b"]) st (app "Global`f" [g "a", .int 1, .int 2, g "b"]) := by
  refine C24_call mono same _ rfl (inert rfl rfl (by intro e; rfl)) rfl rfl rfl rfl ?_ ?_ ?_
  · intro a ha
    simp only [List.mem_cons, List.not_mem_nil, or_false] at ha
    rcases ha with rfl | rfl | rfl
    · exact done_atom rfl
    · refine ⟨10, ?_⟩; set_option maxRecDepth 10000 in rfl
    · exact done_atom rfl
  · intro a ha
    simp only [splice, argsOf, app, g, List.flatMap_cons, Option.getD, if_true, List.flatMap_nil, List.append_nil, List.cons_append, List.nil_append, List.mem_cons, List.not_mem_nil, or_false] at ha
    rcases ha with rfl | rfl | rfl | rfl
    · exact done_atom rfl
    · exact done_int 1
    · exact done_int 2
    · exact done_atom rfl
  · intro a ha
    simp only [splice, argsOf, app, g, List.flatMap_cons, Option.getD, if_true, List.flatMap_nil, List.append_nil, List.cons_append, List.nil_append, List.mem_cons, List.not_mem_nil, or_false] at ha
    rcases ha with rfl | rfl | rfl | rfl
    · exact plain_atom _ _
    · exact plain_int _ _
    · exact plain_int _ _
    · exact plain_atom _ _

/-- `seq[Sequence[1, 2]]` stays. -/
example : Evals ctx st (app "Global`seq" [app "System`Sequence" [.int 1, .int 2]]) st (app "Global`seq" [app "System`Sequence" [.int 1, .int 2]]) := by
  refine C24_sequence_hold mono same _ rfl (inert rfl rfl (by intro e; rfl)) rfl rfl rfl ?_ ?_
  · intro a ha
    simp only [List.mem_cons, List.not_mem_nil, or_false] at ha
    subst ha
    refine ⟨10, ?_⟩; set_option maxRecDepth 10000 in rfl
  · intro a ha
    simp only [List.mem_cons, List.not_mem_nil, or_false] at ha
    subst ha
    exact ⟨rfl, rfl⟩

/-- `lis[{1, 2}, a]` is `{lis[1, a], lis[2, a]}`. -/
example : Evals ctx st (app "Global`lis" [app "System`List" [.int 1, .int 2], g "a"]) st
    (app "System`List" [app "Global`lis" [.int 1, g "a"], app "Global`lis" [.int 2, g "a"]]) := by
  have d1 : Done ctx st (app "Global`lis" [.int 1, g "a"]) := by refine ⟨10, ?_⟩; set_option maxRecDepth 10000 in rfl
  have d2 : Done ctx st (app "Global`lis" [.int 2, g "a"]) := by refine ⟨10, ?_⟩; set_option maxRecDepth 10000 in rfl
  refine C25_call mono same _ [app "Global`lis" [.int 1, g "a"], app "Global`lis" [.int 2, g "a"]] _ (fun _ => rfl) (inert rfl rfl (by intro e; rfl)) rfl rfl
    (inert rfl rfl (by intro e; rfl)) rfl ?_ ?_ (by decide +kernel) (by decide +kernel) (.cons d1 (.cons d2 .nil)) ?_ ?_
  · intro a ha
    simp only [List.mem_cons, List.not_mem_nil, or_false] at ha
    rcases ha with rfl | rfl
    · refine ⟨10, ?_⟩; set_option maxRecDepth 10000 in rfl
    · exact done_atom rfl
  · intro a ha
    simp only [List.mem_cons, List.not_mem_nil, or_false] at ha
    rcases ha with rfl | rfl
    · exact ⟨.inr (.inr rfl), .inr rfl, rfl⟩
    · exact plain_atom _ _
  · intro a ha
    simp only [List.mem_cons, List.not_mem_nil, or_false] at ha
    rcases ha with rfl | rfl
    · exact d1
    · exact d2
  · intro a ha
    simp only [List.mem_cons, List.not_mem_nil, or_false] at ha
    rcases ha with rfl | rfl
    · exact ⟨.inr (.inr rfl), .inr rfl, rfl⟩
    · exact ⟨.inr (.inr rfl), .inr rfl, rfl⟩

/-- `rest[x, Throw[1]]` is `rest[5, Throw[1]]`: only the first argument is evaluated. -/
example : Evals ctx st (app "Global`rest" [g "x", app "System`Throw" [.int 1]]) st (app "Global`rest" [.int 5, app "System`Throw" [.int 1]]) := by
  refine C26_arguments mono same _ _ rfl (inert rfl rfl (by intro e; rfl)) (inert rfl rfl (by intro e; rfl)) rfl rfl rfl rfl
    (.step ?_ ⟨5, by set_option maxRecDepth 10000 in rfl⟩ rfl (.hold (.inr (.inl ⟨rfl, by omega⟩)) .nil)) ?_ ?_
  · rintro (⟨h, -⟩ | ⟨-, h⟩ | h | h)
    · exact absurd h (by decide +kernel)
    · omega
    · exact absurd h (by decide +kernel)
    · exact absurd h (by decide +kernel)
  · intro a ha
    simp only [List.mem_cons, List.not_mem_nil, or_false] at ha
    rcases ha with rfl | rfl
    · exact plain_int _ _
    · exact ⟨.inr (.inr rfl), .inr rfl, rfl⟩
  · intro j hj hn
    match j, hj with
    | 0, _ => exact done_int 5
    | 1, _ => exact absurd (.inr (.inl ⟨rfl, by omega⟩)) hn

/-- `Hold[Throw[1], x]` stays. -/
example : Evals ctx st (app "System`Hold" [app "System`Throw" [.int 1], g "x"]) st (app "System`Hold" [app "System`Throw" [.int 1], g "x"]) := by
  refine C26_hold_all mono same _ rfl (inert rfl rfl (by intro e; rfl)) rfl rfl (.inl rfl) ?_
  intro a ha
  simp only [List.mem_cons, List.not_mem_nil, or_false] at ha
  rcases ha with rfl | rfl
  · exact ⟨.inr (.inr rfl), .inr rfl, rfl⟩
  · exact plain_atom _ _

/-- `Hold[a, Evaluate[x], Throw[1]]` is `Hold[a, 5, Throw[1]]`. -/
example : Evals ctx st (app "System`Hold" [g "a", app "System`Evaluate" [g "x"], app "System`Throw" [.int 1]]) st
    (app "System`Hold" [g "a", .int 5, app "System`Throw" [.int 1]]) := by
  refine C26_evaluate mono same [g "a"] [app "System`Throw" [.int 1]] (g "x") (.int 5) rfl (inert rfl rfl (by intro e; rfl)) (inert rfl rfl (by intro e; rfl))
    rfl rfl rfl rfl rfl rfl ?_ ⟨5, by set_option maxRecDepth 10000 in rfl⟩
  intro a ha
  simp only [List.mem_cons, List.cons_append, List.nil_append, List.not_mem_nil, or_false] at ha
  rcases ha with rfl | rfl | rfl
  · exact plain_atom _ _
  · exact plain_int _ _
  · exact ⟨.inr (.inr rfl), .inr rfl, rfl⟩

theorem command (f : String) (F) (h1 : getSymDef st.toDState f = none) (h2 : hasBuiltin st f = true) (h3 : flowFn fmt f = F)
    (h4 : (attrsOf st f).noRearrange = true) (h5 : ∀ e, rules f e = none) : Command ctx f F st :=
  ⟨⟨h1, h2, h3⟩, h4, fun _ _ _ => by simp [ctx, h5]⟩

theorem hasThrow : HasThrow ctx st :=
  ⟨command _ _ rfl rfl (by funext n ev st ps; rfl) rfl (by intro e; rfl), ⟨rfl, rfl, rfl⟩, command _ _ rfl rfl (by funext n ev st ps; rfl) rfl (by intro e; rfl), rfl,
    command _ _ rfl rfl (by funext n ev st ps; rfl) rfl (by intro e; rfl), rfl⟩

/-- `Catch[(x; f[a, Throw[x], While[True, 0]]; g[1])]` is 5. -/
example : Evals ctx st (app "System`Catch" [app "System`CompoundExpression" [g "x",
    app "Global`f" [g "a", app "System`Throw" [g "x"], app "System`While" [S "True", .int 0]], app "Global`g" [.int 1]]]) st (.int 5) := by
  have hx : Evals ctx st (g "x") st (.int 5) := ⟨5, by set_option maxRecDepth 10000 in rfl⟩
  have hp : ∀ (e : Ex) (a : Attrs), hasHead "System`Sequence" e = false → hasHead "System`Evaluate" e = false → hasHead "System`Unevaluated" e = false →
      plainPart a e := fun e a h1 h2 h3 => ⟨.inr (.inr h1), .inr h2, h3⟩
  have nh : ¬ holds (attrsOf st "Global`f") 1 ∧ ¬ holds (attrsOf st "Global`f") 2 := by
    constructor <;> rintro (⟨h, -⟩ | ⟨h, -⟩ | h | h) <;> exact absurd h (by decide +kernel)
  have path : ThrowPath ctx st (app "System`CompoundExpression" ([g "x"] ++
      app "Global`f" ([g "a"] ++ app "System`Throw" [g "x"] :: [app "System`While" [S "True", .int 0]]) :: [app "Global`g" [.int 1]]))
      { st with thrown := some (app "System`Throw" [.int 5]) } (app "System`Throw" [.int 5]) := by
    refine .stmt hasThrow (hasThrow.withThrown _) rfl (.step (by simp) hx rfl .nil) (by simp [hasHead]) ?_ ?_
    · intro q hq
      simp only [List.mem_cons, List.cons_append, List.nil_append, List.not_mem_nil, or_false] at hq
      rcases hq with rfl | rfl | rfl
      · exact plain_atom _ _
      · exact hp _ _ rfl rfl rfl
      · exact hp _ _ rfl rfl rfl
    · refine .arg rfl rfl rfl (.step nh.1 (done_atom rfl) rfl .nil) nh.2 ?_
      exact .here hasThrow hasThrow rfl hx rfl (plain_int _ _)
  exact C53_catch_partial mono (fun _ _ => rfl) path hasThrow (hasThrow.withThrown _) rfl (hp _ _ rfl rfl rfl) (done_int 5)

/-- `Catch[x]` is 5. -/
example : Evals ctx st (app "System`Catch" [g "x"]) st (.int 5) :=
  C53_no_throw mono (fun _ _ => rfl) ⟨5, by set_option maxRecDepth 10000 in rfl⟩ rfl hasThrow hasThrow rfl (plain_atom _ _) (done_int 5)

/-- While `Throw[1]` is pending, `Throw[2]` is not performed. -/
example : Evals ctx { st with thrown := some (app "System`Throw" [.int 1]) } (app "System`Throw" [.int 2]) { st with thrown := some (app "System`Throw" [.int 1]) }
    (app "System`Throw" [.int 1]) := C53_pending mono rfl rfl rfl rfl rfl rfl

/-- `While[True, Throw[1]]` never ends. -/
example : Diverges ctx st (app "System`While" [S "True", app "System`Throw" [.int 1]]) := by
  have hp : ∀ (e : Ex) (a : Attrs), hasHead "System`Sequence" e = false → hasHead "System`Evaluate" e = false → hasHead "System`Unevaluated" e = false →
      plainPart a e := fun e a h1 h2 h3 => ⟨.inr (.inr h1), .inr h2, h3⟩
  exact C53_while_not_stopped mono (fun _ _ => rfl) (st1 := { st with thrown := some (app "System`Throw" [.int 1]) }) (w := app "System`Throw" [.int 1])
    (w' := app "System`Throw" [.int 1])
    (command _ _ rfl rfl (by funext n ev st ps; rfl) rfl (by intro e; rfl)) rfl rfl ⟨plain_atom _ _, hp _ _ rfl rfl rfl⟩
    (done_atom rfl) ⟨10, by set_option maxRecDepth 10000 in rfl⟩ ⟨rfl, rfl⟩ ⟨2, by set_option maxRecDepth 10000 in rfl⟩
    (C53_pending mono rfl rfl rfl rfl rfl rfl) ⟨rfl, rfl⟩

/-- `flat[a, flat[b, c]]` is 1 by the rule for `flat[a, b, c]`. -/
example : Evals ctx st (app "Global`flat" [g "a", app "Global`flat" [g "b", g "c"]]) st (.int 1) := by
  refine C70_rule_flat_partial mono _ (.int 1) (.int 1) rfl rfl rfl rfl ⟨rfl, rfl, rfl, rfl⟩ ?_ ?_ (fun _ => ?_) rfl (by simp) (done_int 1)
  · intro a ha
    simp only [List.mem_cons, List.not_mem_nil, or_false] at ha
    rcases ha with rfl | rfl
    · exact done_atom rfl
    · refine ⟨10, ?_⟩; set_option maxRecDepth 10000 in rfl
  · intro a ha
    simp only [List.mem_cons, List.not_mem_nil, or_false] at ha
    rcases ha with rfl | rfl
    · exact plain_atom _ _
    · exact ⟨.inr (.inr rfl), .inr rfl, rfl⟩
  · set_option maxRecDepth 10000 in rfl

/-- The state without the rule for `flat`. -/
def ctx0 : Ctx := { ctx with find := fun _ st _ _ => .ok (st, none) }

/-- Without that rule, `flat[a, flat[b, c]]` stays as it is. -/
example : Evals ctx0 st (app "Global`flat" [g "a", app "Global`flat" [g "b", g "c"]]) st (app "Global`flat" [g "a", app "Global`flat" [g "b", g "c"]]) := by
  refine C70_not_flattened (c := ctx0) ⟨fun s _ _ _ _ st ps hn h => flowFn_mono fmt s hn h st ps, fun _ _ _ _ _ _ => .refl _⟩ (fun e => by simp [ctx0, ctx])
    _ rfl ⟨rfl, rfl, fun _ _ => rfl⟩ rfl ⟨rfl, rfl, rfl⟩ ?_ ?_
  · intro a ha
    simp only [List.mem_cons, List.not_mem_nil, or_false] at ha
    rcases ha with rfl | rfl
    · exact ⟨2, rfl⟩
    · refine ⟨10, ?_⟩; set_option maxRecDepth 10000 in rfl
  · intro a ha
    simp only [List.mem_cons, List.not_mem_nil, or_false] at ha
    rcases ha with rfl | rfl
    · exact plain_atom _ _
    · exact ⟨.inr (.inr rfl), .inr rfl, rfl⟩

/-- `ord[b, 1, a]` is `ord[1, a, b]`. -/
example : Evals ctx st (app "Global`ord" [g "b", .int 1, g "a"]) st (app "Global`ord" [.int 1, g "a", g "b"]) := by
  have hs : ctx.sort [g "b", .int 1, g "a"] = [.int 1, g "a", g "b"] := by decide +kernel
  have := C71_sorted mono same (c := ctx) (st := st) (f := "Global`ord") [g "b", .int 1, g "a"] rfl (inert rfl rfl (by intro e; rfl)) rfl ⟨rfl, rfl, rfl, rfl⟩
    (insertionSort_contract exLess _).1 (by decide +kernel) ?_ ?_
  · rwa [hs] at this
  · intro a ha
    simp only [List.mem_cons, List.not_mem_nil, or_false] at ha
    rcases ha with rfl | rfl | rfl
    · exact done_atom rfl
    · exact done_int 1
    · exact done_atom rfl
  · intro a ha
    simp only [List.mem_cons, List.not_mem_nil, or_false] at ha
    rcases ha with rfl | rfl | rfl
    · exact plain_atom _ _
    · exact plain_int _ _
    · exact plain_atom _ _

/-- `f[Unevaluated[x]]` is `f[5]`. -/
example : Evals ctx st (app "Global`f" [app "System`Unevaluated" [g "x"]]) st (app "Global`f" [.int 5]) := by
  refine C72_unevaluated_lost mono same (fun _ _ => rfl) (g "x") (.int 5) (inert rfl rfl (by intro e; rfl)) (inert rfl rfl (by intro e; rfl)) rfl rfl rfl rfl ?_
    ?_ (plain_atom _ _) ⟨5, by set_option maxRecDepth 10000 in rfl⟩ (plain_int _ _) (done_int 5) (by decide +kernel)
  · rintro (⟨h, -⟩ | ⟨h, -⟩ | h | h) <;> exact absurd h (by decide +kernel)
  · refine ⟨10, ?_⟩; set_option maxRecDepth 10000 in rfl

/-- `HoldComplete[Unevaluated[x]]` is `HoldComplete[x]`. -/
example : Evals ctx st (app "System`HoldComplete" [app "System`Unevaluated" [g "x"]]) st (app "System`HoldComplete" [g "x"]) :=
  C72_hold_all_complete mono same [] [] (g "x") rfl (inert rfl rfl (by intro e; rfl)) rfl rfl rfl (by
    intro p hp
    simp only [List.nil_append, List.mem_cons, List.not_mem_nil, or_false] at hp
    subst hp; rfl)

/-- `Sequence[][]` crashes the interpreter. -/
example : Panics ctx st (.expr [app "System`Sequence" []]) :=
  C73_empty_head_panics mono (st' := st) _ (by simp [app]) rfl ⟨10, by set_option maxRecDepth 10000 in rfl⟩ rfl

/-- `CompoundExpression[]` crashes the interpreter. -/
example : Panics ctx st (app "System`CompoundExpression" []) := C73_empty_compound_panics mono hasThrow rfl rfl

/-- `ret[1]` is `k[1]`, which is not its own value: `k[1]` is 2. -/
theorem return_example : Evals ctx st (app "Global`ret" [.int 1]) st (app "Global`k" [.int 1]) ∧ Evals ctx st (app "Global`k" [.int 1]) st (.int 2) := by
  constructor
  · refine C69_return_unevaluated mono [.int 1] _ rfl rfl rfl rfl rfl rfl ?_ ?_ (fun _ => ?_) (by decide +kernel)
    · intro a ha
      simp only [List.mem_cons, List.not_mem_nil, or_false] at ha
      subst ha; exact done_int 1
    · intro a ha
      simp only [List.mem_cons, List.not_mem_nil, or_false] at ha
      subst ha; exact plain_int _ _
    · set_option maxRecDepth 10000 in rfl
  · exact ⟨10, by set_option maxRecDepth 10000 in rfl⟩

/-- An interpreter to which C69 applies: a built-in function `neg` on integers and the rule `k[1] -> neg[2]`. -/
def tame : Ctx :=
  { fn := fun s _ _ st ps => if s = "Global`neg" then .ok (st, match ps with | [_, .int n] => .int (-n) | _ => .expr ps) else .ok (st, .expr ps)
    find := fun _ st _ e => .ok (st, if e = app "Global`k" [.int 1] then some (app "Global`neg" [.int 2]) else none)
    same := fun a b => decide (a = b) }

/-- The symbol `neg` has a built-in function. -/
def tameState : EState := { defs := fun s => if s = "Global`neg" then some { builtin := true } else none }

theorem tame_ok : tame.Tame tameState where
  fnPure := by
    intro s n ev ps st' v _ h
    simp only [tame] at h
    split at h <;> (simp only [Res.ok.injEq, Prod.mk.injEq] at h; exact h.1.symm)
  findPure := by
    intro s ev e st' v _ h
    simp only [tame, Res.ok.injEq, Prod.mk.injEq] at h
    exact h.1.symm
  fnNoReturn := by
    intro s n ev ps st' v _ hps h
    simp only [tame] at h
    split at h
    · simp only [Res.ok.injEq, Prod.mk.injEq] at h
      obtain ⟨-, rfl⟩ := h
      split
      · rfl
      · exact hps
    · simp only [Res.ok.injEq, Prod.mk.injEq] at h
      obtain ⟨-, rfl⟩ := h
      exact hps
  findNoReturn := by
    intro s ev e st' v _ _ h
    simp only [tame, Res.ok.injEq, Prod.mk.injEq] at h
    obtain ⟨-, h⟩ := h
    split at h
    · simp only [Option.some.injEq] at h; subst h; unfold NoReturn; decide +kernel
    · cases h
  applyNoReturn := by
    intro fargs args v h _ hv
    simp only [tame, Res.ok.injEq] at hv
    subst hv
    simp only [NoReturn, mentions, mentionsL, Bool.or_eq_false_iff] at h ⊢
    exact ⟨by decide +kernel, h⟩
  sortMem := fun l a h => (insertionSort_contract exLess l).1.mem_iff.1 h
  values := by
    intro s d h
    unfold getSymDef at h
    simp only [tameState] at h
    by_cases hs : s = "Global`neg" <;> simp [hs] at h
  indeterminate := rfl
  complexInfinity := rfl
  notThrown := rfl
  notInterrupted := rfl

/-- `f[k[1], k[2]]` has the value `f[-2, k[2]]`, which is its own value by C69. -/
example : Evals tame tameState (app "Global`f" [.int (-2), app "Global`k" [.int 2]]) tameState (app "Global`f" [.int (-2), app "Global`k" [.int 2]]) :=
  (C69_idempotent_partial tame_ok ⟨fun s _ _ _ _ st ps _ _ => by simp only [tame]; split <;> exact .refl _, fun _ _ _ _ _ _ => .refl _⟩ (by simp [tame])
    (e := app "Global`f" [app "Global`k" [.int 1], app "Global`k" [.int 2]]) (by unfold NoReturn; decide +kernel)
    (st' := tameState) ⟨20, by set_option maxRecDepth 10000 in rfl⟩).2

end Demo
end Expreduce
