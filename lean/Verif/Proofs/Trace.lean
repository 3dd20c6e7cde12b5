import Verif.Model.Trace

/-!
# Evaluation in trace mode and without
-/

namespace Expreduce
open Ex

/-- `y` is a run without trace and `x` the run with the trace `tr`: the same state and value, and no trace appears from nowhere. -/
def SameRun {α : Type} (tr : Trace) (x y : Res (EState × Trace × α)) : Prop :=
  match y with
  | .stuck => x = .stuck
  | .panic => x = .panic
  | .ok q => q.2.1 = none ∧ ∃ tr', x = .ok (q.1, tr', q.2.2) ∧ (tr = none → tr' = none)

theorem SameRun.ok {α : Type} {tr tr' : Trace} (st : EState) (v : α) (h : tr = none → tr' = none) :
    SameRun tr (.ok (st, tr', v)) (.ok (st, none, v)) := ⟨rfl, tr', rfl, h⟩

theorem SameRun.bind {α β : Type} {tr : Trace} {x y : Res (EState × Trace × α)} {f g : EState × Trace × α → Res (EState × Trace × β)}
    (h : SameRun tr x y) (hf : ∀ st tr' v, (tr = none → tr' = none) → SameRun tr (f (st, tr', v)) (g (st, none, v))) :
    SameRun tr (x.bind f) (y.bind g) := by
  match y, h with
  | .stuck, h =>
    have h' : x = .stuck := h
    subst h'
    rfl
  | .panic, h =>
    have h' : x = .panic := h
    subst h'
    rfl
  | .ok (st, t, v), h =>
    obtain ⟨h1, tr', h2, h3⟩ := h
    simp only at h1 h2
    subst h1
    subst h2
    exact hf st tr' v h3

theorem SameRun.weaken {α : Type} {tr tr' : Trace} {x y : Res (EState × Trace × α)} (h : SameRun tr x y) (ht : tr' = none → tr = none) :
    SameRun tr' x y := by
  match y, h with
  | .stuck, h => exact h
  | .panic, h => exact h
  | .ok (st, t, v), ⟨h1, u, h2, h3⟩ => exact ⟨h1, u, h2, fun h => h3 (ht h)⟩

/-- The evaluator behaves so. -/
def SameEv (ev : TEvaluator) : Prop := ∀ st tr e, SameRun tr (ev st tr e) (ev st none e)

theorem closeArg_none (st : EState) : closeArg st none none = some none := rfl

theorem evalArgsT_same {ev : TEvaluator} (h : SameEv ev) (held : Nat → Bool) : ∀ (ps : List Ex) (i : Nat) (st : EState) (tr : Trace),
    SameRun tr (evalArgsT ev held i st tr ps) (evalArgsT ev held i st none ps)
  | [], i, st, tr => SameRun.ok st _ id
  | p :: ps, i, st, tr => by
    rw [evalArgsT, evalArgsT]
    split
    · exact (evalArgsT_same h held ps (i + 1) st tr).bind (fun st' tr' v ht => SameRun.ok _ _ ht)
    · have e1 : (if tracing st none then (some [] : Trace) else none) = none := by simp [tracing]
      rw [e1]
      have h0 : SameRun tr (ev st (if tracing st tr then some [] else tr) p) (ev st none p) := by
        refine (h st _ p).weaken ?_
        intro ht
        subst ht
        simp [tracing]
      refine h0.bind ?_
      intro st' tr' v ht
      simp only
      split
      · exact SameRun.ok _ _ ht
      · rw [closeArg_none]
        have h1 : ∃ t, closeArg st' tr tr' = some t ∧ (tr = none → t = none) := by
          cases tr' with
          | none => exact ⟨none, rfl, fun _ => rfl⟩
          | some l =>
            cases tr with
            | none => simp at ht
            | some b =>
              simp only [closeArg]
              split
              · exact ⟨_, rfl, by simp⟩
              · split
                · exact ⟨_, rfl, by simp⟩
                · exact ⟨_, rfl, by simp⟩
        obtain ⟨t, ht1, ht2⟩ := h1
        rw [ht1]
        exact ((evalArgsT_same h held ps (i + 1) st' t).weaken ht2).bind (fun st' tr' v ht => SameRun.ok _ _ ht)

theorem evalAllT_same {ev : TEvaluator} (h : SameEv ev) : ∀ (ps : List Ex) (st : EState) (tr : Trace),
    SameRun tr (evalAllT ev st tr ps) (evalAllT ev st none ps)
  | [], st, tr => SameRun.ok st _ id
  | p :: ps, st, tr => by
    rw [evalAllT, evalAllT]
    refine (h st tr p).bind ?_
    intro st' tr' v ht
    exact ((evalAllT_same h ps st' tr').weaken ht).bind (fun st' tr' v ht => SameRun.ok _ _ ht)

theorem mergeEvalLoopT_same {ev : TEvaluator} (h : SameEv ev) (s : String) : ∀ (ps : List Ex) (st : EState) (tr : Trace),
    SameRun tr (mergeEvalLoopT ev s st tr ps) (mergeEvalLoopT ev s st none ps)
  | [], st, tr => SameRun.ok st _ id
  | p :: ps, st, tr => by
    rw [mergeEvalLoopT, mergeEvalLoopT]
    split
    · refine (evalAllT_same h _ st tr).bind ?_
      intro st' tr' v ht
      exact ((mergeEvalLoopT_same h s ps st' tr').weaken ht).bind (fun st' tr' v ht => SameRun.ok _ _ ht)
    · exact (mergeEvalLoopT_same h s ps st tr).bind (fun st' tr' v ht => SameRun.ok _ _ ht)

theorem splicePartsT_same {ev : TEvaluator} (h : SameEv ev) (isSym : Bool) (a : Attrs) (st : EState) (tr : Trace) (ps : List Ex) :
    SameRun tr (splicePartsT ev isSym a st tr ps) (splicePartsT ev isSym a st none ps) := by
  unfold splicePartsT
  refine SameRun.bind ?_ (fun st' tr' v ht => SameRun.ok _ _ ht)
  generalize (if isSym && (a.sequenceHold || a.holdAllComplete) then ps else mergeSeq "System`Sequence" ps) = qs
  split
  · exact SameRun.ok _ _ id
  · unfold mergeEvalT
    split
    · exact mergeEvalLoopT_same h _ _ _ _
    · exact SameRun.ok _ _ id

theorem runT_same {α : Type} {ev : TEvaluator} (h : SameEv ev) : ∀ (p : BProg α) (tr : Trace), SameRun tr (p.runT ev tr) (p.runT ev none)
  | .done r, tr => by
    cases r with
    | stuck => rfl
    | panic => rfl
    | ok q => exact SameRun.ok _ _ id
  | .call st e k, tr => by
    rw [BProg.runT, BProg.runT]
    refine (h st tr e).bind ?_
    intro st' tr' v ht
    exact (runT_same h (k st' v) tr').weaken ht

/-- The result of `Trace` does not depend on the trace so far: not even on whether there is one. -/
theorem traceFn_same {ev : TEvaluator} (h : SameEv ev) (st : EState) (tr : Trace) (ps : List Ex) :
    SameRun tr (traceFn ev st tr ps) (traceFn ev st none ps) := by
  unfold traceFn
  split
  · rename_i e
    cases hx : ev st (some []) e with
    | stuck => rfl
    | panic => rfl
    | ok q =>
      obtain ⟨st', t, v⟩ := q
      simp only [Res.bind]
      cases t with
      | none => exact SameRun.ok _ _ (fun _ => rfl)
      | some l =>
        simp only
        split
        · exact SameRun.ok _ _ (fun _ => rfl)
        · exact SameRun.ok _ _ (fun _ => rfl)
  · exact SameRun.ok _ _ id

theorem fnT_same (c : TCtx) {ev : TEvaluator} (h : SameEv ev) (s : String) (n : Nat) (st : EState) (tr : Trace) (ps : List Ex) :
    SameRun tr (c.fnT s n ev st tr ps) (c.fnT s n ev st none ps) := by
  unfold TCtx.fnT
  split
  · exact traceFn_same h st tr ps
  · exact runT_same h _ tr

theorem applyDefsT_same (c : TCtx) (n : Nat) {ev : TEvaluator} (h : SameEv ev) (s : String) (st : EState) (tr : Trace) (cur : List Ex) (curEx : Ex) :
    SameRun tr (applyDefsT c n ev s st tr cur curEx) (applyDefsT c n ev s st none cur curEx) := by
  unfold applyDefsT
  refine SameRun.bind ?_ ?_
  · split
    · exact (fnT_same c h s n st tr cur).bind (fun st' tr' v ht => SameRun.ok _ _ ht)
    · exact SameRun.ok _ _ id
  · intro st' tr' v ht
    simp only
    split
    · refine ((runT_same h _ tr').weaken ht).bind ?_
      intro st' tr' v ht
      simp only
      split
      · exact SameRun.ok _ _ ht
      · exact SameRun.ok _ _ ht
    · exact SameRun.ok _ _ ht

theorem symbolCaseT_same (c : TCtx) (n : Nat) {ev : TEvaluator} (h : SameEv ev) (s : String) (a : Attrs) (st : EState) (tr : Trace) (ps : List Ex) :
    SameRun tr (symbolCaseT c n ev s a st tr ps) (symbolCaseT c n ev s a st none ps) := by
  unfold symbolCaseT
  simp only
  generalize (if a.orderless then sortArgs c.plain (if a.flat then mergeSeq s ps else ps) else if a.flat then mergeSeq s ps else ps) = sorted
  split
  · split
    · exact SameRun.ok _ _ id
    · exact applyDefsT_same c n h s st tr _ _
  · exact applyDefsT_same c n h s st tr _ _

theorem afterArgsT_same (c : TCtx) (n : Nat) {ev : TEvaluator} (h : SameEv ev) (head : Option String) (a : Attrs) (st : EState) (tr : Trace)
    (ps : List Ex) : SameRun tr (afterArgsT c n ev head a st tr ps) (afterArgsT c n ev head a st none ps) := by
  unfold afterArgsT
  refine (splicePartsT_same h _ a st tr ps).bind ?_
  intro st' tr' v ht
  simp only
  split
  · rfl
  · split
    · exact (symbolCaseT_same c n h _ a st' tr' _).weaken ht
    · cases functionCase c.plain st' _ with
      | stuck => rfl
      | panic => rfl
      | ok q => exact SameRun.ok _ _ ht

theorem noteCall_none (st : EState) (e : Ex) : noteCall st none e = none := by
  unfold noteCall
  split <;> rfl

theorem passT_same (c : TCtx) (n : Nat) {ev : TEvaluator} (h : SameEv ev) (st : EState) (tr : Trace) (ps : List Ex) :
    SameRun tr (passT c n ev st tr ps) (passT c n ev st none ps) := by
  unfold passT
  simp only
  split
  · exact (h st tr _).bind (fun st' tr' v ht => SameRun.ok _ _ ht)
  · refine (evalArgsT_same h _ ps 0 st tr).bind ?_
    intro st' tr' v ht
    simp only
    split
    · exact SameRun.ok _ _ ht
    · rw [noteCall_none]
      refine (afterArgsT_same c n h _ _ st' (noteCall st' tr' _) _).weaken ?_
      intro h0
      rw [ht h0]
      exact noteCall_none _ _

theorem evalLoopT_same (c : TCtx) (n : Nat) {ev : TEvaluator} (h : SameEv ev) : ∀ (k : Nat) (st : EState) (tr : Trace) (inside : Bool)
    (last : Option Ex) (cur : Ex), SameRun tr (evalLoopT c n ev k st tr inside last cur) (evalLoopT c n ev k st none inside last cur)
  | 0, _, _, _, _, _ => rfl
  | k + 1, st, tr, inside, last, cur => by
    have hv : SameRun tr ((ev st tr cur).bind (fun r => .ok (r.1, noteValue r.1 r.2.1 r.2.2, r.2.2)))
        ((ev st none cur).bind (fun r => .ok (r.1, noteValue r.1 r.2.1 r.2.2, r.2.2))) := by
      refine (h st tr cur).bind ?_
      intro st' tr' v ht
      have h1 : noteValue st' none v = none := by unfold noteValue; split <;> rfl
      simp only [h1]
      refine SameRun.ok _ _ ?_
      intro h0
      rw [ht h0, h1]
    unfold evalLoopT
    by_cases hu : unchanged c.plain last cur = true
    · rw [if_pos hu, if_pos hu]
      exact SameRun.ok _ _ id
    · rw [if_neg hu, if_neg hu]
      cases cur with
      | expr ps =>
        simp only
        split
        · exact SameRun.ok _ _ id
        · split
          · exact SameRun.ok _ _ id
          · refine (passT_same c n h st tr _).bind ?_
            intro st' tr' v ht
            cases v with
            | ret e => exact SameRun.ok _ _ ht
            | next e ins => exact (evalLoopT_same c n h k st' tr' _ _ e).weaken ht
      | _ => exact hv

theorem evalT_same (c : TCtx) : ∀ n : Nat, SameEv (evalT c n)
  | 0, _, _, _ => rfl
  | n + 1, st, tr, e => by
    have h := evalT_same c n
    cases e with
    | expr ps => exact evalLoopT_same c n h _ st tr _ _ _
    | cplx re im =>
      simp only [evalT, evalCplxT]
      refine (h st tr re).bind ?_
      intro st' tr' v ht
      exact ((h st' tr' im).weaken ht).bind (fun st' tr' v ht => SameRun.ok _ _ ht)
    | sym s =>
      simp only [evalT, evalSymbolT]
      split
      · exact SameRun.ok _ _ id
      · unfold evalDefT
        split
        · exact SameRun.ok _ _ id
        · exact (h st tr _).bind (fun st' tr' v ht => SameRun.ok _ _ ht)
    | _ => exact SameRun.ok _ _ id

/-! ### The run without trace is that of the evaluator without trace mode -/

/-- A result without trace, as a result of the evaluator with trace mode. -/
def offTrace {α : Type} (x : Res (EState × α)) : Res (EState × Trace × α) := x.bind (fun r => .ok (r.1, none, r.2))

theorem offTrace_bind {α β : Type} (x : Res (EState × α)) (f : EState × Trace × α → Res (EState × Trace × β)) (g : EState × α → Res (EState × β))
    (h : ∀ st v, f (st, none, v) = offTrace (g (st, v))) : (offTrace x).bind f = offTrace (x.bind g) := by
  cases x with
  | stuck => rfl
  | panic => rfl
  | ok q => exact h q.1 q.2

/-- The two evaluators agree. -/
def OffEv (evT : TEvaluator) (ev : Evaluator) : Prop := ∀ st e, evT st none e = offTrace (ev st e)

section
variable {evT : TEvaluator} {ev : Evaluator}

theorem evalArgsT_off (h : OffEv evT ev) (held : Nat → Bool) : ∀ (ps : List Ex) (i : Nat) (st : EState),
    evalArgsT evT held i st none ps = offTrace (evalArgs ev held i st ps)
  | [], i, st => rfl
  | p :: ps, i, st => by
    rw [evalArgsT, evalArgs]
    split
    · rw [evalArgsT_off h held ps]
      exact offTrace_bind _ _ _ (fun st v => rfl)
    · have e1 : (if tracing st none then (some [] : Trace) else none) = none := by simp [tracing]
      rw [e1, h]
      refine offTrace_bind _ _ _ ?_
      intro st' v
      simp only [closeArg_none]
      cases st'.thrown with
      | some t => rfl
      | none =>
        simp only
        rw [evalArgsT_off h held ps]
        exact offTrace_bind _ _ _ (fun st v => rfl)

theorem evalAllT_off (h : OffEv evT ev) : ∀ (ps : List Ex) (st : EState), evalAllT evT st none ps = offTrace (evalAll ev st ps)
  | [], st => rfl
  | p :: ps, st => by
    rw [evalAllT, evalAll, h]
    refine offTrace_bind _ _ _ ?_
    intro st' v
    simp only [evalAllT_off h ps]
    exact offTrace_bind _ _ _ (fun st v => rfl)

theorem mergeEvalLoopT_off (h : OffEv evT ev) (s : String) : ∀ (ps : List Ex) (st : EState),
    mergeEvalLoopT evT s st none ps = offTrace (mergeEvalLoop ev s st ps)
  | [], st => rfl
  | p :: ps, st => by
    rw [mergeEvalLoopT, mergeEvalLoop]
    cases argsOf s p with
    | some args =>
      simp only
      rw [evalAllT_off h]
      refine offTrace_bind _ _ _ ?_
      intro st' v
      simp only [mergeEvalLoopT_off h s ps]
      exact offTrace_bind _ _ _ (fun st v => rfl)
    | none =>
      simp only
      rw [mergeEvalLoopT_off h s ps]
      exact offTrace_bind _ _ _ (fun st v => rfl)

theorem splicePartsT_off (h : OffEv evT ev) (isSym : Bool) (a : Attrs) (st : EState) (ps : List Ex) :
    splicePartsT evT isSym a st none ps = offTrace (spliceParts ev isSym a st ps) := by
  unfold splicePartsT spliceParts
  have e1 : ∀ qs, (if a.holdAllComplete then Res.ok (st, (none : Trace), qs) else mergeEvalT evT "System`Evaluate" st none qs) =
      offTrace (if a.holdAllComplete then Res.ok (st, qs) else mergeEval ev "System`Evaluate" st qs) := by
    intro qs
    split
    · rfl
    · unfold mergeEvalT mergeEval
      split
      · exact mergeEvalLoopT_off h _ _ _
      · rfl
  simp only [e1]
  exact offTrace_bind _ _ _ (fun st v => rfl)

theorem runT_off {α : Type} (h : OffEv evT ev) : ∀ p : BProg α, p.runT evT none = offTrace (p.run ev)
  | .done r => by cases r <;> rfl
  | .call st e k => by
    rw [BProg.runT, BProg.run, h]
    exact offTrace_bind _ _ _ (fun st' v => runT_off h (k st' v))

theorem applyDefsT_off (c : TCtx) (hc : c.traceFn = false) (n : Nat) (h : OffEv evT ev) (s : String) (st : EState) (cur : List Ex) (curEx : Ex) :
    applyDefsT c n evT s st none cur curEx = offTrace (applyDefs c.plain n ev s st cur curEx) := by
  unfold applyDefsT applyDefs
  have e1 : (if hasBuiltin st s then (c.fnT s n evT st none cur).bind (fun r => .ok (r.1, r.2.1, r.2.2, isSameQ r.2.2 (.expr cur)))
      else .ok (st, none, curEx, true)) =
      offTrace (if hasBuiltin st s then (c.plain.fn s n ev st cur).bind (fun r => .ok (r.1, r.2, isSameQ r.2 (.expr cur)))
        else .ok (st, curEx, true)) := by
    split
    · unfold TCtx.fnT
      rw [hc]
      simp only [Bool.false_and, Bool.false_eq_true, if_false]
      rw [runT_off h]
      exact offTrace_bind _ _ _ (fun st v => rfl)
    · rfl
  rw [e1]
  refine offTrace_bind _ _ _ ?_
  intro st' v
  simp only
  split
  · rw [runT_off h]
    refine offTrace_bind _ _ _ ?_
    intro st'' w
    cases w <;> rfl
  · rfl

theorem symbolCaseT_off (c : TCtx) (hc : c.traceFn = false) (n : Nat) (h : OffEv evT ev) (s : String) (a : Attrs) (st : EState) (ps : List Ex) :
    symbolCaseT c n evT s a st none ps = offTrace (symbolCase c.plain n ev s a st ps) := by
  unfold symbolCaseT symbolCase
  simp only [applyDefsT_off c hc n h]
  generalize (if a.orderless then sortArgs c.plain (if a.flat then mergeSeq s ps else ps) else if a.flat then mergeSeq s ps else ps) = sorted
  split
  · cases threadExpr sorted <;> rfl
  · rfl

theorem afterArgsT_off (c : TCtx) (hc : c.traceFn = false) (n : Nat) (h : OffEv evT ev) (head : Option String) (a : Attrs) (st : EState) (ps : List Ex) :
    afterArgsT c n evT head a st none ps = offTrace (afterArgs c.plain n ev head a st ps) := by
  unfold afterArgsT afterArgs
  rw [splicePartsT_off h]
  refine offTrace_bind _ _ _ ?_
  intro st' v
  cases v with
  | nil => rfl
  | cons v vs =>
    cases head with
    | some s => exact symbolCaseT_off c hc n h _ _ _ _
    | none => rfl

theorem passT_off (c : TCtx) (hc : c.traceFn = false) (n : Nat) (h : OffEv evT ev) (st : EState) (ps : List Ex) :
    passT c n evT st none ps = offTrace (pass c.plain n ev st ps) := by
  unfold passT pass
  simp only
  cases conditional (headAttrs st ps) ps with
  | some e =>
    simp only
    rw [h]
    exact offTrace_bind _ _ _ (fun st v => rfl)
  | none =>
    simp only
    rw [evalArgsT_off h]
    refine offTrace_bind _ _ _ ?_
    intro st' v
    cases v with
    | inr t => rfl
    | inl qs =>
      simp only
      rw [noteCall_none]
      exact afterArgsT_off c hc n h _ _ _ _

theorem evalLoopT_off (c : TCtx) (hc : c.traceFn = false) (n : Nat) (h : OffEv evT ev) : ∀ (k : Nat) (st : EState) (inside : Bool) (last : Option Ex)
    (cur : Ex), evalLoopT c n evT k st none inside last cur = offTrace (evalLoop c.plain n ev k st inside last cur)
  | 0, _, _, _, _ => rfl
  | k + 1, st, inside, last, cur => by
    unfold evalLoopT evalLoop
    by_cases hu : unchanged c.plain last cur = true
    · rw [if_pos hu, if_pos hu]
      rfl
    · rw [if_neg hu, if_neg hu]
      have hv : (evT st none cur).bind (fun r => .ok (r.1, noteValue r.1 r.2.1 r.2.2, r.2.2)) = offTrace (ev st cur) := by
        rw [h]
        cases ev st cur with
        | stuck => rfl
        | panic => rfl
        | ok q =>
          have h1 : noteValue q.1 none q.2 = none := by unfold noteValue; split <;> rfl
          simp only [offTrace, Res.bind, h1]
      cases cur with
      | expr ps =>
        simp only
        cases (if inside then tryReturn st (.expr ps) else none) with
        | some v => rfl
        | none =>
          simp only
          by_cases hs : c.skip st (.expr ps) = true
          · have hs' : c.plain.skip st (.expr ps) = true := hs
            rw [if_pos hs, if_pos hs']
            rfl
          · have hs' : ¬ c.plain.skip st (.expr ps) = true := hs
            rw [if_neg hs, if_neg hs', passT_off c hc n h]
            refine offTrace_bind _ _ _ ?_
            intro st' v
            cases v with
            | ret e => rfl
            | next e ins => exact evalLoopT_off c hc n h k st' _ _ e
      | _ => exact hv

theorem evalT_off (c : TCtx) (hc : c.traceFn = false) : ∀ n : Nat, OffEv (evalT c n) (eval c.plain n)
  | 0, _, _ => rfl
  | n + 1, st, e => by
    have h := evalT_off c hc n
    cases e with
    | expr ps => exact evalLoopT_off c hc n h _ st _ _ _
    | cplx re im =>
      simp only [evalT, eval, evalCplxT, evalCplx]
      rw [h]
      refine offTrace_bind _ _ _ ?_
      intro st' v
      have h1 := h st' im
      simp only [h1]
      cases eval c.plain n st' im with
      | stuck => rfl
      | panic => rfl
      | ok q => rfl
    | sym s =>
      simp only [evalT, eval, evalSymbolT, evalSymbol]
      cases getSymDef st.toDState s with
      | none => rfl
      | some d =>
        simp only
        unfold evalDefT evalDef
        split
        · rfl
        · rw [h]
          exact offTrace_bind _ _ _ (fun st v => rfl)
    | _ => rfl

end

/-- Without `Trace`, evaluation in trace mode gives what evaluation gives. -/
theorem evalT_eq (c : TCtx) (hc : c.traceFn = false) (n : Nat) (st : EState) (tr : Trace) (e : Ex) :
    (evalT c n st tr e).bind (fun r => .ok (r.1, r.2.2)) = eval c.plain n st e := by
  have h1 := evalT_same c n st tr e
  rw [evalT_off c hc n] at h1
  cases hx : eval c.plain n st e with
  | stuck =>
    rw [hx] at h1
    have h1 : evalT c n st tr e = .stuck := h1
    rw [h1]
    rfl
  | panic =>
    rw [hx] at h1
    have h1 : evalT c n st tr e = .panic := h1
    rw [h1]
    rfl
  | ok q =>
    rw [hx] at h1
    obtain ⟨_, tr', h2, _⟩ := h1
    rw [h2]
    rfl

end Expreduce
