import Verif.Proofs.TraceGrow

/-!
# `Trace` (C110)
-/

namespace Expreduce
open Ex

/-- What an evaluation is about: the state and the value. -/
def outcome {α : Type} (x : Res (EState × Trace × α)) : Res (EState × α) := x.bind (fun r => .ok (r.1, r.2.2))

/-- C110. Tracing does not change an evaluation: whatever the trace, and whatever is evaluated (also `Trace` itself), the state afterwards and the
value are the same, and so is whether the evaluation ends or crashes. -/
theorem C110_trace_irrelevant (c : TCtx) (n : Nat) (st : EState) (tr tr' : Trace) (e : Ex) :
    outcome (evalT c n st tr e) = outcome (evalT c n st tr' e) := by
  have key : ∀ t, outcome (evalT c n st t e) = outcome (evalT c n st none e) := by
    intro t
    have h := evalT_same c n st t e
    cases hx : evalT c n st none e with
    | stuck => rw [hx] at h; have h : evalT c n st t e = .stuck := h; rw [h]
    | panic => rw [hx] at h; have h : evalT c n st t e = .panic := h; rw [h]
    | ok q =>
      rw [hx] at h
      obtain ⟨_, u, h, _⟩ := h
      rw [h]
      rfl
  rw [key tr, key tr']

/-- C110. Without the function `Trace`, evaluation in trace mode is the evaluation the other claims are about. -/
theorem C110_evaluator (c : TCtx) (hc : c.traceFn = false) (n : Nat) (st : EState) (tr : Trace) (e : Ex) :
    outcome (evalT c n st tr e) = eval c.plain n st e := evalT_eq c hc n st tr e

/-- C110. Outside a trace no trace appears. -/
theorem C110_stays_off (c : TCtx) (n : Nat) (st st' : EState) (tr' : Trace) (e v : Ex) (h : evalT c n st none e = .ok (st', tr', v)) : tr' = none := by
  have h1 := evalT_same c n st none e
  rw [h] at h1
  exact h1.1

/-- C110. `Trace[e]` evaluates `e`: it leaves the state that `e` leaves, ends or crashes as `e` does, and tracing is off afterwards. -/
theorem C110_trace_runs (c : TCtx) (n : Nat) (st : EState) (tr : Trace) (e : Ex) :
    (∀ st' v, outcome (evalT c n st none e) = .ok (st', v) → ∃ l, traceFn (evalT c n) st tr [S "Trace", e] = .ok (st', none, .expr (S "List" :: l))) ∧
      (outcome (evalT c n st none e) = .panic → traceFn (evalT c n) st tr [S "Trace", e] = .panic) ∧
      (outcome (evalT c n st none e) = .stuck → traceFn (evalT c n) st tr [S "Trace", e] = .stuck) := by
  rw [C110_trace_irrelevant c n st none (some []) e]
  unfold traceFn outcome
  simp only
  cases hx : evalT c n st (some []) e with
  | stuck => simp [Res.bind]
  | panic => simp [Res.bind]
  | ok q =>
    obtain ⟨st1, tr1, v1⟩ := q
    simp only [Res.bind, Res.ok.injEq, Prod.mk.injEq, reduceCtorEq, false_implies, and_true]
    rintro st' v ⟨rfl, rfl⟩
    cases tr1 with
    | none => exact ⟨[], rfl⟩
    | some l =>
      simp only
      split
      · exact ⟨_, rfl⟩
      · exact ⟨_, rfl⟩

/-- C110. If nothing is thrown, a trace only grows: what has been recorded stays, and what is added are steps `HoldForm[...]` and, for arguments, lists of at
least two entries. -/
theorem C110_grows_partial (c : TCtx) (hc : c.Calm) (n : Nat) (st st' : EState) (l : List Ex) (tr' : Trace) (e v : Ex) (hs : Calm st)
    (h : evalT c n st (some l) e = .ok (st', tr', v)) : ∃ l', tr' = some (l ++ l') ∧ ∀ x ∈ l', Entry x :=
  (evalT_grows hc n st l e hs st' tr' v h).2

/-- C110. The trace of a call shows the call with its evaluated arguments (up to coincidences of fingerprints). -/
theorem C110_call_noted_partial (c : TCtx) (hc : c.Calm) (n : Nat) (st st1 st' : EState) (ps qs l' : List Ex) (v : Ex) (hs : Calm st)
    (hskip : c.skip st (.expr ps) = false) (hcond : conditional (headAttrs st ps) ps = none)
    (hargs : evalArgs (eval c.plain n) (heldPart (headAttrs st ps)) 0 st ps = .ok (st1, .inl qs))
    (hlist : hash (holdForm (.expr qs)) ≠ hash (S "List"))
    (h : evalT c (n + 1) st (some []) (.expr ps) = .ok (st', some l', v)) :
    ∃ x ∈ l', isSameQ x (holdForm (.expr qs)) = true := by
  have hev := evalT_grows hc n
  have hA : ∃ m, evalArgsT (evalT c n) (heldPart (headAttrs st ps)) 0 st (some []) ps = .ok (st1, some m, .inl qs) ∧ Calm st1 := by
    have h1 := evalArgsT_same (evalT_same c n) (heldPart (headAttrs st ps)) ps 0 st (some [])
    rw [evalArgsT_off (evalT_off c hc.trace n), hargs] at h1
    obtain ⟨_, tr, h2, _⟩ := h1
    obtain ⟨h3, m, h4, _⟩ := evalArgsT_grows hev (heldPart (headAttrs st ps)) ps 0 st [] hs _ _ _ h2
    simp only at h2 h3 h4
    refine ⟨m, ?_, h3⟩
    rw [h2, h4]
    rfl
  obtain ⟨m, hA, hs1⟩ := hA
  have hN : ∃ m', noteCall st1 (some m) (.expr qs) = some m' ∧ ∃ x ∈ m', isSameQ x (holdForm (.expr qs)) = true := by
    unfold noteCall
    rw [hs1.2]
    simp only [Bool.false_eq_true, if_false, Option.map_some]
    split
    · rename_i h1
      refine ⟨m, rfl, ?_⟩
      cases m with
      | nil => exact absurd (by simpa [isSameQ, S] using h1) (Ne.symm hlist)
      | cons a m =>
        refine ⟨_, ?_, h1⟩
        rw [List.getLastD_eq_getLast?, List.getLast?_eq_some_getLast (by simp)]
        exact List.getLast_mem _
    · exact ⟨_, rfl, holdForm (.expr qs), by simp, by simp [isSameQ, holdForm]⟩
  obtain ⟨m', hm', x, hx, hxs⟩ := hN
  have hP : Grows m' (passT c n (evalT c n) st (some []) ps) := by
    unfold passT
    simp only [hcond, hA, Res.bind, hm']
    exact afterArgsT_grows hc n hev _ _ st1 m' qs hs1
  have hL : Grows m' (evalT c (n + 1) st (some []) (.expr ps)) := by
    simp only [evalT]
    unfold evalLoopT
    simp only [unchanged, Option.map_none, Option.getD_none, Bool.false_eq_true, if_false, hskip]
    refine hP.bind ?_
    intro st2 l2 o hs2 _
    cases o with
    | ret e => exact Grows.ok hs2 _
    | next e ins => exact evalLoopT_grows hc n hev n st2 _ _ _ e hs2
  obtain ⟨_, l2, h2, _⟩ := hL _ _ _ h
  simp only [Option.some.injEq] at h2
  exact ⟨x, by rw [h2]; simp [hx], hxs⟩

/-! ### The trace of a chain of rewrites -/

/-- An expression that evaluates to itself in one step. -/
def Literal (st : EState) : Ex → Prop
  | .int _ => True
  | .str _ => True
  | .sym s => getSymDef st.toDState s = none
  | _ => False

/-- `e` is a call `f[a, ...]` of a symbol without attributes and builtin function, with literal arguments, and the rules turn it into `e'`. -/
def Step (c : TCtx) (st : EState) (e e' : Ex) : Prop :=
  ∃ f args, e = .expr (.sym f :: args) ∧ f ≠ "System`Return" ∧ Literal st (.sym f) ∧ (∀ a ∈ args, Literal st a) ∧ attrsOf st f = {} ∧ hasBuiltin st f = false ∧
    c.find st f e = .done (.ok (st, some e')) ∧ c.skip st e = false ∧ c.same e e' = false ∧ isSameQ (holdForm e) (holdForm e') = false

/-- Rules turn `e` into the value `v`; `l` are the expressions on the way. -/
inductive Rewrites (c : TCtx) (st : EState) : Ex → List Ex → Ex → Prop where
  | last {e v : Ex} : Step c st e v → Literal st v → Rewrites c st e [e, v] v
  | step {e e' v : Ex} {l : List Ex} : Step c st e e' → Rewrites c st e' l v → Rewrites c st e (e :: l) v

theorem literal_eval {c : TCtx} {st : EState} {a : Ex} (h : Literal st a) (n : Nat) (tr : Trace) : evalT c (n + 1) st tr a = .ok (st, tr, a) := by
  cases a with
  | int i => rfl
  | str s => rfl
  | sym s =>
    have h : getSymDef st.toDState s = none := h
    simp [evalT, evalSymbolT, h]
  | _ => exact absurd h (by simp [Literal])

theorem literal_args {c : TCtx} {st : EState} (hs : Calm st) (n : Nat) : ∀ (ps : List Ex) (i : Nat) (l : List Ex), (∀ a ∈ ps, Literal st a) →
    evalArgsT (evalT c (n + 1)) (heldPart {}) i st (some l) ps = .ok (st, some l, .inl ps)
  | [], _, _, _ => rfl
  | p :: ps, i, l, h => by
    rw [evalArgsT]
    have e0 : heldPart {} i = false := by simp [heldPart]
    have e1 : (if tracing st (some l) then (some [] : Trace) else some l) = some [] := by simp [tracing, hs.2]
    simp only [e0, Bool.false_eq_true, if_false, e1, literal_eval (h p (by simp)), Res.bind, hs.1]
    have e2 : closeArg st (some l) (some []) = some (some l) := by simp [closeArg, hs.2]
    simp only [e2, literal_args hs n ps (i + 1) l (fun a ha => h a (by simp [ha]))]
    rfl

theorem literal_plain {st : EState} {ps : List Ex} (h : ∀ a ∈ ps, Literal st a) (s : String) : ps.any (hasHead s) = false := by
  rw [List.any_eq_false]
  intro a ha
  have := h a ha
  cases a with
  | expr q => simp [Literal] at this
  | _ => simp [hasHead]

theorem step_pass {c : TCtx} {st : EState} {e e' : Ex} {ps : List Ex} (h : Step c st e e') (hp : e = .expr ps) (hs : Calm st) (n : Nat) (l : List Ex)
    (hl : isSameQ (l.getLastD (S "List")) (holdForm e) = false) :
    passT c (n + 1) (evalT c (n + 1)) st (some l) ps = .ok (st, some (l ++ [holdForm e]), .next e' true) := by
  obtain ⟨f, args, rfl, hr, hf, ha, hattr, hb, hfind, _, _, _⟩ := h
  cases hp
  have hall : ∀ a ∈ (Ex.sym f :: args), Literal st a := by
    intro a h
    rcases List.mem_cons.1 h with rfl | h
    · exact hf
    · exact ha a h
  have hplain := literal_plain hall
  unfold passT
  have e1 : headAttrs st (.sym f :: args) = {} := hattr
  simp only [e1, conditional, Bool.false_eq_true, if_false, literal_args hs n _ 0 l hall, Res.bind]
  have e2 : noteCall st (some l) (.expr (.sym f :: args)) = some (l ++ [holdForm (.expr (.sym f :: args))]) := by
    unfold noteCall
    simp only [hs.2, Bool.false_eq_true, if_false, Option.map_some, hl]
  rw [e2]
  unfold afterArgsT splicePartsT mergeEvalT mergeSeq
  simp only [callSym, Option.isSome_some, Bool.true_and, Bool.or_false, Bool.false_eq_true, if_false, hplain, Res.bind]
  unfold symbolCaseT applyDefsT
  simp only [Bool.false_eq_true, if_false, hb, Res.bind, if_true, hfind, BProg.runT]

theorem chain_loop {c : TCtx} {st : EState} {e v : Ex} {es : List Ex} (h : Rewrites c st e es v) (hs : Calm st) (hi : st.interrupted = false) (n : Nat) :
    ∀ (k : Nat) (l : List Ex) (inside : Bool) (last : Option Ex), es.length ≤ k → isSameQ (l.getLastD (S "List")) (holdForm e) = false →
      unchanged c.plain last e = false →
      evalLoopT c (n + 1) (evalT c (n + 1)) k st (some l) inside last e = .ok (st, some (l ++ es.map holdForm), v) := by
  have one : ∀ {e e' : Ex} (k : Nat) (l : List Ex) (inside : Bool) (last : Option Ex), Step c st e e' →
      isSameQ (l.getLastD (S "List")) (holdForm e) = false → unchanged c.plain last e = false →
      evalLoopT c (n + 1) (evalT c (n + 1)) (k + 1) st (some l) inside last e =
        evalLoopT c (n + 1) (evalT c (n + 1)) k st (some (l ++ [holdForm e])) true (some e) e' := by
    intro e e' k l inside last hst hl hu
    obtain ⟨f, args, rfl, hr, _, _, _, _, _, hskip, _, _⟩ := id hst
    conv_lhs => unfold evalLoopT
    rw [hu]
    have e1 : (if inside then tryReturn st (.expr (.sym f :: args)) else none) = none := by
      split
      · simp [tryReturn, hi, argsOf, hr]
      · rfl
    simp only [Bool.false_eq_true, if_false, e1, hskip]
    rw [step_pass hst rfl hs n l hl]
    simp only [Res.bind, afterPassT, Bool.or_true]
  induction h with
  | last hst hv =>
    rename_i e v
    intro k l inside last hk hl hu
    obtain ⟨k, rfl⟩ : ∃ j, k = j + 2 := ⟨k - 2, by simp at hk; omega⟩
    rw [one (k + 1) l inside last hst hl hu]
    obtain ⟨f, args, he, _, _, _, _, _, _, _, hne, _⟩ := id hst
    have hu' : unchanged c.plain (some e) v = false := hne
    have hfin : (evalT c (n + 1) st (some (l ++ [holdForm e])) v).bind (fun r => .ok (r.1, noteValue r.1 r.2.1 r.2.2, r.2.2)) =
        .ok (st, some (l ++ [e, v].map holdForm), v) := by
      rw [literal_eval hv]
      simp [Res.bind, noteValue, hs.2, addEntry]
    unfold evalLoopT
    rw [hu']
    cases v with
    | expr q => simp [Literal] at hv
    | _ => exact hfin
  | step hst hr ih =>
    rename_i e e' v es
    intro k l inside last hk hl hu
    obtain ⟨k, rfl⟩ : ∃ j, k = j + 1 := ⟨k - 1, by simp at hk; omega⟩
    obtain ⟨_, _, _, _, _, _, _, _, _, _, hne, hdiff⟩ := id hst
    rw [one k l inside last hst hl hu, ih k (l ++ [holdForm e]) true (some e) (by simpa using hk) (by simpa using hdiff) hne]
    simp

/-- C110. The trace of a chain of rewrites is this chain: `Trace[e]` gives every expression on the way, in order, and the value. -/
theorem C110_chain_partial (c : TCtx) (st : EState) (e v : Ex) (es : List Ex) (h : Rewrites c st e es v) (hs : Calm st) (hi : st.interrupted = false)
    (hl : isSameQ (S "List") (holdForm e) = false) (n : Nat) (hn : es.length ≤ n + 2) (tr : Trace) :
    traceFn (evalT c (n + 2)) st tr [S "Trace", e] = .ok (st, none, .expr (S "List" :: es.map holdForm)) := by
  have he : ∃ ps, e = .expr ps := by
    cases h with
    | last hst _ => exact ⟨_, hst.choose_spec.choose_spec.1⟩
    | step hst _ => exact ⟨_, hst.choose_spec.choose_spec.1⟩
  obtain ⟨ps, rfl⟩ := he
  have h1 : evalT c (n + 2) st (some []) (.expr ps) = .ok (st, some (es.map holdForm), v) := by
    have := chain_loop h hs hi n (n + 2) [] false none hn hl rfl
    simpa [evalT] using this
  have h2 : 1 < es.length := by
    cases h with
    | last _ _ => simp
    | step _ hr => cases hr <;> simp
  unfold traceFn
  simp only [h1, Res.bind, List.length_map, h2, if_true]

/-! ### Cases -/

/-- The functions of flow control and two rules: `f[1]` is `f[2]`, and `f[2]` is 7. -/
def chainCtx : TCtx where
  fn := flowProg (fun _ => "")
  find := fun st s e => .done (.ok (st, if s = "f" then (if e = .expr [.sym "f", .int 1] then some (.expr [.sym "f", .int 2]) else
    if e = .expr [.sym "f", .int 2] then some (.int 7) else none) else none))
  same := fun a b => a == b

/-- The state: the symbols of flow control, `Trace` (holds its argument), and `a` with the value 3. -/
def chainState : EState where
  defs := fun s => if s = "System`Trace" then some { attrs := { holdAll := true }, builtin := true } else if s = "System`HoldForm" then
    some { attrs := { holdAll := true } } else if s = "a" then
    some { downvalues := [{ lhs := held (.sym "a"), rhs := .int 3 }] } else flowTable s

def f1 : Ex := .expr [.sym "f", .int 1]
def f2 : Ex := .expr [.sym "f", .int 2]

/-- C110, the conditions of `C110_chain_partial` can be met. -/
example : Rewrites chainCtx chainState f1 [f1, f2, .int 7] (.int 7) ∧ Calm chainState ∧ isSameQ (S "List") (holdForm f1) = false := by
  refine ⟨.step (e' := f2) ?_ (.last ?_ trivial), ⟨rfl, rfl⟩, by decide +kernel⟩
  · refine ⟨"f", [.int 1], rfl, by decide, (by decide +kernel : getSymDef chainState.toDState "f" = none), by simp [Literal], rfl, rfl, rfl, rfl, by decide +kernel, by decide +kernel⟩
  · refine ⟨"f", [.int 2], rfl, by decide, (by decide +kernel : getSymDef chainState.toDState "f" = none), by simp [Literal], rfl, rfl, rfl, rfl, by decide +kernel, by decide +kernel⟩

/-- The value of an evaluation. -/
def valueOf (x : Res (EState × Trace × Ex)) : Option Ex :=
  match x with
  | .ok (_, _, v) => some v
  | _ => none

/-- `Trace[e]` evaluated in this interpreter. -/
def traceOf (e : Ex) : Option Ex := valueOf (evalT chainCtx 12 chainState none (.expr [S "Trace", e]))

/-- C110, cases: the chain is traced through evaluation of `Trace[f[1]]`, and an argument with steps of its own is a list. -/
example : traceOf f1 = some (.expr [S "List", holdForm f1, holdForm f2, holdForm (.int 7)]) := by decide +kernel

example : traceOf (.expr [.sym "g", f2]) =
    some (.expr [S "List", .expr [S "List", holdForm f2, holdForm (.int 7)], holdForm (.expr [.sym "g", .int 7])]) := by decide +kernel

/-- `CompoundExpression[f[1], Catch[g[Throw[5]]]]` -/
def throwing : Ex := .expr [S "CompoundExpression", f1, .expr [S "Catch", .expr [.sym "g", .expr [S "Throw", .int 5]]]]

/-- C110, a disagreement: a throw that is caught makes the trace forget everything recorded before it, here the steps of `f[1]`. -/
theorem C110_throw_forgets : traceOf throwing =
    some (.expr [S "List", holdForm (.expr [S "Throw", .int 5]), holdForm (.int 5), holdForm (.int 5)]) := by decide +kernel

/-- C110, a disagreement: `Trace` inside `Trace` turns tracing off; nothing is left of the steps before it and nothing after it is recorded. -/
theorem C110_nested_off : traceOf (.expr [.sym "g", f1, .expr [S "Trace", f1], f2]) = some (.expr [S "List"]) := by decide +kernel

/-- C110, a disagreement: `Trace[a]` is empty although `a` evaluates to 3. -/
theorem C110_symbol_untraced : traceOf (.sym "a") = some (.expr [S "List"]) ∧
    valueOf (evalT chainCtx 12 chainState none (.sym "a")) = some (.int 3) := by decide +kernel

/-! ### The flow control functions are programs -/

theorem catchProg_run (ev : Evaluator) (st : EState) (ps : List Ex) : (catchProg st ps).run ev = catchFn ev st ps := by
  match ps with
  | [_, e] =>
    simp only [catchProg, catchFn, BProg.run]
    congr 1
    funext r
    obtain ⟨st', v⟩ := r
    cases h : st'.thrown with
    | none => rfl
    | some t =>
      cases t with
      | expr q =>
        match q with
        | [] => rfl
        | [_] => rfl
        | _ :: _ :: _ => rfl
      | _ => rfl
  | [] => rfl
  | [_] => rfl
  | _ :: _ :: _ :: _ => rfl

theorem compoundProg_run (ev : Evaluator) : ∀ (ps : List Ex) (st : EState) (v : Ex), (compoundProg st ps v).run ev = compoundLoop ev st ps v
  | [], _, _ => rfl
  | p :: ps, st, v => by
    rw [compoundProg, compoundLoop, BProg.run]
    congr 1
    funext r
    cases h : r.1.thrown with
    | none =>
      simp only
      split
      · rfl
      · exact compoundProg_run ev ps _ _
    | some t => rfl

theorem whileProg_run (ev : Evaluator) (cond body : Ex) : ∀ (n : Nat) (st : EState), (whileProg cond body n st).run ev = whileLoop ev cond body n st
  | 0, _ => rfl
  | n + 1, st => by
    rw [whileProg, whileLoop, BProg.run]
    congr 1
    funext r
    split
    · rw [BProg.run]
      congr 1
      funext q
      cases tryReturn q.1 q.2 with
      | some u => rfl
      | none =>
        simp only
        split
        · rfl
        · exact whileProg_run ev cond body n _
    · rfl

theorem whichProg_run (ev : Evaluator) : ∀ (ps : List Ex) (st : EState), (whichProg st ps).run ev = whichLoop ev st ps
  | [], _ => rfl
  | [_], _ => rfl
  | cond :: val :: rest, st => by
    rw [whichProg, whichLoop, BProg.run]
    congr 1
    funext r
    split
    · rfl
    · exact whichProg_run ev rest _

/-- C110. The functions of flow control are such programs: this is what makes `C110_evaluator` speak about the evaluator of the other claims. -/
theorem C110_flow (fmt : Rat → String) (s : String) (n : Nat) (ev : Evaluator) (st : EState) (ps : List Ex) :
    (flowProg fmt s n st ps).run ev = flowFn fmt s n ev st ps := by
  unfold flowProg flowFn
  split
  · rfl
  · split
    · exact catchProg_run ev st ps
    · split
      · unfold compoundFn
        match ps with
        | [] => rfl
        | [_] => rfl
        | _ :: p :: rest => exact compoundProg_run ev _ _ _
      · split
        · unfold whileFn
          match ps with
          | [_, cond, body] => exact whileProg_run ev _ _ _ _
          | [] => rfl
          | [_] => rfl
          | [_, _] => rfl
          | _ :: _ :: _ :: _ :: _ => rfl
        · split
          · unfold whichFn
            split
            · rfl
            · exact whichProg_run ev _ _
          · split
            · rfl
            · rfl

theorem compoundProg_calm : ∀ (ps : List Ex) (st : EState) (v : Ex), Calm st → (compoundProg st ps v).Calm
  | [], _, v, h => .ok v h
  | p :: ps, st, v, h => by
    rw [compoundProg]
    refine .call p h ?_
    intro st' w h'
    simp only [h'.1]
    split
    · exact .ok _ h'
    · exact compoundProg_calm ps st' w h'

theorem whileProg_calm (cond body : Ex) : ∀ (n : Nat) (st : EState), Calm st → (whileProg cond body n st).Calm
  | 0, _, _ => .stuck
  | n + 1, st, h => by
    rw [whileProg]
    refine .call cond h ?_
    intro st' w h'
    split
    · refine .call body h' ?_
      intro st'' u h''
      split
      · exact .ok _ h''
      · split
        · exact .ok _ h''
        · exact whileProg_calm cond body n st'' h''
    · exact .ok _ h'

theorem whichProg_calm : ∀ (ps : List Ex) (st : EState), Calm st → (whichProg st ps).Calm
  | [], _, h => .ok _ h
  | [_], _, h => .ok _ h
  | cond :: val :: rest, st, h => by
    rw [whichProg]
    refine .call cond h ?_
    intro st' w h'
    split
    · exact .ok _ h'
    · exact whichProg_calm rest st' h'

/-- C110, the condition of `C110_grows_partial` and `C110_call_noted_partial` holds for the functions of flow control other than `Throw`, with the two rules. -/
example : TCtx.Calm { chainCtx with fn := fun s n st ps => if s = "System`Throw" then .done (.ok (st, .expr ps)) else flowProg (fun _ => "") s n st ps
                                    traceFn := false } where
  trace := rfl
  find := fun st s e h => .ok _ h
  fn := by
    intro s n st ps h
    simp only
    split
    · exact .ok _ h
    · rename_i hs
      unfold flowProg
      rw [if_neg hs]
      split
      · unfold catchProg
        split
        · refine .call _ h ?_
          intro st' v h'
          simp only [h'.1]
          exact .ok _ h'
        · exact .ok _ h
      · split
        · split
          · exact compoundProg_calm _ _ _ h
          · exact .panic
        · split
          · split
            · exact whileProg_calm _ _ _ _ h
            · exact .ok _ h
          · split
            · split
              · exact .ok _ h
              · exact whichProg_calm _ _ h
            · split
              · unfold ifFn
                split <;> exact .ok _ h
              · exact .ok _ h

end Expreduce
