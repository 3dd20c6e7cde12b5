import Verif.Proofs.Eval
import Mathlib.Data.List.Forall2

/-! One pass over a function that nothing is known about; evaluation of its arguments. -/

namespace Expreduce
open Ex

theorem heldPart_iff (a : Attrs) (i : Nat) : heldPart a i = true ↔ holds a i := by
  unfold heldPart holds
  simp only [Bool.or_eq_true, Bool.and_eq_true, beq_iff_eq, decide_eq_true_eq]
  constructor
  · rintro ((⟨h1, h2⟩ | ⟨h1, h2⟩) | (h | h))
    · exact .inl ⟨h2, h1⟩
    · exact .inr (.inl ⟨h2, h1⟩)
    · exact .inr (.inr (.inl h))
    · exact .inr (.inr (.inr h))
  · rintro (⟨h1, h2⟩ | ⟨h1, h2⟩ | h | h)
    · exact .inl (.inl ⟨h2, h1⟩)
    · exact .inl (.inr ⟨h2, h1⟩)
    · exact .inr (.inl h)
    · exact .inr (.inr h)

theorem evalArgs_of_evalSeq {c : Ctx} (hc : c.Mono) {held : Nat → Prop} {hb : Nat → Bool} (hh : ∀ i, hb i = true ↔ held i)
    {i st ps st' vs} (h : EvalSeq c held i st ps st' vs) : ∃ N, ∀ n, N ≤ n → evalArgs (eval c n) hb i st ps = .ok (st', .inl vs) := by
  induction h with
  | nil => exact ⟨0, fun n _ => rfl⟩
  | hold h1 _ ih =>
    obtain ⟨N, ih⟩ := ih
    refine ⟨N, fun n hn => ?_⟩
    unfold evalArgs
    rw [if_pos ((hh _).2 h1), ih n hn]
    rfl
  | step h1 h2 h3 _ ih =>
    obtain ⟨N, ih⟩ := ih
    obtain ⟨M, h2⟩ := h2.at hc
    refine ⟨max N M, fun n hn => ?_⟩
    unfold evalArgs
    rw [if_neg (fun hp => h1 ((hh _).1 hp)), h2 n (by omega)]
    simp only [Res.bind, h3]
    rw [ih n (by omega)]
    rfl

theorem evalSymbol_none {c : Ctx} {st : EState} {f : String} (h : getSymDef st.toDState f = none) (n : Nat) :
    eval c (n + 1) st (.sym f) = .ok (st, .sym f) := by
  simp [eval, evalSymbol, h]

/-- The head and the arguments. -/
theorem evalArgs_app {c : Ctx} (hc : c.Mono) {st : EState} {f : String} (hv : getSymDef st.toDState f = none) (ht : st.thrown = none)
    (a : Attrs) {args st' vs} (h : EvalSeq c (holds a) 1 st args st' vs) :
    ∃ N, ∀ n, N ≤ n → evalArgs (eval c n) (heldPart a) 0 st (.sym f :: args) = .ok (st', .inl (.sym f :: vs)) := by
  obtain ⟨N, hN⟩ := evalArgs_of_evalSeq hc (heldPart_iff a) h
  refine ⟨N + 1, fun n hn => ?_⟩
  obtain ⟨n, rfl⟩ : ∃ m, n = m + 1 := ⟨n - 1, by omega⟩
  unfold evalArgs
  split
  · rw [hN _ (by omega)]; rfl
  · rw [evalSymbol_none hv]
    simp only [Res.bind, ht]
    rw [hN _ (by omega)]
    rfl

theorem hasHead_sym (h f : String) : hasHead h (.sym f) = false := rfl

theorem any_false_of (h : String) (ps : List Ex) (hp : ∀ p ∈ ps, hasHead h p = false) : ps.any (hasHead h) = false := by
  rw [List.any_eq_false]
  intro p h'
  simp [hp p h']

theorem spliceParts_plain (ev : Evaluator) (a : Attrs) (st : EState) (ps : List Ex) (hp : ∀ p ∈ ps, plainPart a p) :
    spliceParts ev true a st ps = .ok (st, ps) := by
  have hu : mergeSeq "System`Unevaluated" ps = ps := by
    rw [mergeSeq_eq, splice_none _ _ (any_false_of _ _ (fun p h => (hp p h).2.2))]
  have hs : (if (true && (a.sequenceHold || a.holdAllComplete)) = true then ps else mergeSeq "System`Sequence" ps) = ps := by
    split
    · rfl
    · rename_i hn
      simp only [Bool.true_and, Bool.or_eq_true, not_or, Bool.not_eq_true] at hn
      rw [mergeSeq_eq, splice_none _ _ (any_false_of _ _ (fun p h => ?_))]
      rcases (hp p h).1 with h1 | h1 | h1
      · simp [h1] at hn
      · simp [h1] at hn
      · exact h1
  have he : (if a.holdAllComplete = true then Res.ok (st, ps) else mergeEval ev "System`Evaluate" st ps) = .ok (st, ps) := by
    split
    · rfl
    · rename_i hn
      unfold mergeEval
      rw [if_neg]
      rw [any_false_of _ _ (fun p h => ?_)]
      · simp
      · rcases (hp p h).2.1 with h1 | h1
        · exact absurd h1 hn
        · exact h1
  simp only [spliceParts]
  rw [hs, he]
  simp only [Res.bind, hu]

theorem plain_sym (a : Attrs) (f : String) : plainPart a (.sym f) := ⟨.inr (.inr rfl), .inr rfl, rfl⟩

theorem symbolCase_inert {c : Ctx} {st : EState} {f : String} (hi : FreeHead c st f) {a : Attrs} (ha : a.noRearrange = true) (n : Nat) (ev : Evaluator)
    (ws : List Ex) : symbolCase c n ev f a st (.sym f :: ws) = .ok (st, .next (app f ws) false) := by
  simp only [Attrs.noRearrange, Bool.and_eq_true, Bool.not_eq_true'] at ha
  obtain ⟨⟨⟨h1, h2⟩, h3⟩, h4⟩ := ha
  have := hi.noRule ev ws
  simp only [app] at this
  simp [symbolCase, h1, h2, h3, applyDefs, hi.noBuiltin, Res.bind, this, app]

theorem pass_inert {c : Ctx} {n : Nat} {ev : Evaluator} {st st1 st2 : EState} {f : String} {args vs ws : List Ex}
    (ha : (attrsOf st f).noRearrange = true)
    (hargs : evalArgs ev (heldPart (attrsOf st f)) 0 st (.sym f :: args) = .ok (st1, .inl (.sym f :: vs)))
    (hspl : spliceParts ev true (attrsOf st f) st1 (.sym f :: vs) = .ok (st2, .sym f :: ws)) (hi : FreeHead c st2 f) :
    pass c n ev st (.sym f :: args) = .ok (st2, .next (app f ws) false) := by
  have hnf : conditional (attrsOf st f) (.sym f :: args) = none := by
    simp only [Attrs.noRearrange, Bool.and_eq_true, Bool.not_eq_true'] at ha
    simp [conditional, ha.2]
  simp only [pass, headAttrs, hnf, hargs, Res.bind, callSym, afterArgs, Option.isSome, hspl]
  exact symbolCase_inert hi ha n ev ws

theorem evalLoop_same {c : Ctx} {n : Nat} {ev : Evaluator} {k : Nat} {st b last cur} (h : unchanged c last cur = true) :
    evalLoop c n ev (k + 1) st b last cur = .ok (st, cur) := by
  unfold evalLoop
  rw [if_pos h]

theorem evalLoop_pass {c : Ctx} {n : Nat} {ev : Evaluator} {k : Nat} {st b last ps} (h : unchanged c last (.expr ps) = false)
    (hr : b = true → tryReturn st (.expr ps) = none) (hk : c.skip st (.expr ps) = false) :
    evalLoop c n ev (k + 1) st b last (.expr ps) =
      (pass c n ev st ps).bind (afterPass (fun st' e ins => evalLoop c n ev k st' (b || ins) (some (.expr ps)) e)) := by
  rw [evalLoop, if_neg (by simp [h])]
  have : (if b = true then tryReturn st (.expr ps) else none) = none := by
    split
    · exact hr ‹_›
    · rfl
  simp only [this, hk, Bool.false_eq_true, if_false]

theorem evalLoop_next {c : Ctx} {n : Nat} {ev : Evaluator} {k : Nat} {st b last ps st' e ins} (h : unchanged c last (.expr ps) = false)
    (hr : b = true → tryReturn st (.expr ps) = none) (hk : c.skip st (.expr ps) = false) (hp : pass c n ev st ps = .ok (st', .next e ins)) :
    evalLoop c n ev (k + 1) st b last (.expr ps) = evalLoop c n ev k st' (b || ins) (some (.expr ps)) e := by
  rw [evalLoop_pass h hr hk, hp]; rfl

theorem evalLoop_ret {c : Ctx} {n : Nat} {ev : Evaluator} {k : Nat} {st b last ps st' e} (h : unchanged c last (.expr ps) = false)
    (hr : b = true → tryReturn st (.expr ps) = none) (hk : c.skip st (.expr ps) = false) (hp : pass c n ev st ps = .ok (st', .ret e)) :
    evalLoop c n ev (k + 1) st b last (.expr ps) = .ok (st', e) := by
  rw [evalLoop_pass h hr hk, hp]; rfl

theorem evalLoop_skip {c : Ctx} {n : Nat} {ev : Evaluator} {k : Nat} {st b last ps} (hr : b = true → tryReturn st (.expr ps) = none)
    (hk : c.skip st (.expr ps) = true) : evalLoop c n ev (k + 1) st b last (.expr ps) = .ok (st, .expr ps) := by
  rw [evalLoop]
  split
  · rfl
  · have : (if b = true then tryReturn st (.expr ps) else none) = none := by
      split
      · exact hr ‹_›
      · rfl
    simp only [this, hk, if_true]

theorem eval_expr {c : Ctx} {n : Nat} {st : EState} {ps : List Ex} :
    eval c (n + 1) st (.expr ps) = evalLoop c n (eval c n) (n + 1) st false none (.expr ps) := rfl

/-- The loop when the first pass gives something that the second pass gives back. -/
theorem loop_of_two {c : Ctx} (hs : ∀ e, c.same e e = true) {st st2 : EState} {ps qs : List Ex} {n : Nat} (k : Nat) (last : Option Ex)
    (hl : unchanged c last (.expr ps) = false) (hskip : c.skip st (.expr ps) = false)
    (h1 : pass c n (eval c n) st ps = .ok (st2, .next (.expr qs) false))
    (h2 : pass c n (eval c n) st2 qs = .ok (st2, .next (.expr qs) false)) :
    evalLoop c n (eval c n) (k + 3) st false last (.expr ps) = .ok (st2, .expr qs) := by
  rw [evalLoop_next hl (by simp) hskip h1]
  cases hu : unchanged c (some (.expr ps)) (Ex.expr qs) with
  | true => exact evalLoop_same hu
  | false =>
    cases hk : c.skip st2 (.expr qs) with
    | true => exact evalLoop_skip (by simp) hk
    | false =>
      rw [evalLoop_next hu (by simp) hk h2]
      exact evalLoop_same (by simp [unchanged, hs])

theorem evals_of_two {c : Ctx} (hs : ∀ e, c.same e e = true) {st st2 : EState} {ps qs : List Ex} {N : Nat}
    (hskip : c.skip st (.expr ps) = false)
    (h1 : ∀ n, N ≤ n → pass c n (eval c n) st ps = .ok (st2, .next (.expr qs) false))
    (h2 : ∀ n, N ≤ n → pass c n (eval c n) st2 qs = .ok (st2, .next (.expr qs) false)) :
    Evals c st (.expr ps) st2 (.expr qs) :=
  ⟨N + 3, loop_of_two hs N none rfl hskip (h1 (N + 2) (by omega)) (h2 (N + 2) (by omega))⟩

theorem evalSeq_self {c : Ctx} {held : Nat → Prop} {st : EState} (ht : st.thrown = none) (vs : List Ex) :
    ∀ i, (∀ j (h : j < vs.length), ¬ held (i + j) → Done c st vs[j]) → EvalSeq c held i st vs st vs := by
  induction vs with
  | nil => intro i _; exact .nil
  | cons v vs ih =>
    intro i h
    have hr : EvalSeq c held (i + 1) st vs st vs := ih (i + 1) (fun j hj hn => by
      have := h (j + 1) (by simpa using hj) (by rwa [show i + (j + 1) = i + 1 + j by omega])
      simpa using this)
    by_cases hi : held i
    · exact .hold hi hr
    · exact .step hi (h 0 (by simp) (by simpa using hi) : Done c st v) ht hr

/-- The two passes over `f[args]` when nothing is known about `f` but its attributes. -/
theorem passes_inert {c : Ctx} (hc : c.Mono) {st st1 st2 : EState} {f : String} {args vs ws : List Ex}
    (hv : getSymDef st.toDState f = none) (ht : st.thrown = none) (ht2 : st2.thrown = none) (hi : FreeHead c st2 f)
    (hat : attrsOf st2 f = attrsOf st f) (ha : (attrsOf st f).noRearrange = true)
    (hseq : EvalSeq c (holds (attrsOf st f)) 1 st args st1 vs)
    (hspl : ∃ N, ∀ n, N ≤ n → spliceParts (eval c n) true (attrsOf st f) st1 (.sym f :: vs) = .ok (st2, .sym f :: ws))
    (hpl : ∀ w ∈ ws, plainPart (attrsOf st f) w)
    (hd : ∀ j (h : j < ws.length), ¬ holds (attrsOf st f) (j + 1) → Done c st2 ws[j]) :
    ∃ N, ∀ n, N ≤ n → pass c n (eval c n) st (.sym f :: args) = .ok (st2, .next (app f ws) false) ∧
      pass c n (eval c n) st2 (.sym f :: ws) = .ok (st2, .next (app f ws) false) := by
  obtain ⟨N1, h1⟩ := evalArgs_app hc hv ht (attrsOf st f) hseq
  obtain ⟨N2, h2⟩ := hspl
  have hseq' : EvalSeq c (holds (attrsOf st f)) 1 st2 ws st2 ws := evalSeq_self ht2 ws 1 (fun j hj hn => hd j hj (by rwa [Nat.add_comm] at hn))
  obtain ⟨N3, h3⟩ := evalArgs_app hc hi.noValue ht2 (attrsOf st f) hseq'
  refine ⟨max N1 (max N2 N3), fun n hn => ⟨?_, ?_⟩⟩
  · exact pass_inert ha (h1 n (by omega)) (h2 n (by omega)) hi
  · refine pass_inert (by rwa [hat]) (by rw [hat]; exact h3 n (by omega)) (ws := ws) (vs := ws) ?_ hi
    rw [hat]
    refine spliceParts_plain _ _ _ _ ?_
    intro p hp
    rcases List.mem_cons.1 hp with rfl | hp
    · exact plain_sym _ _
    · exact hpl p hp

/-- Evaluation of `f[args]` when nothing is known about `f` but its attributes. -/
theorem evals_inert {c : Ctx} (hc : c.Mono) (hs : ∀ e, c.same e e = true) {st st1 st2 : EState} {f : String} {args vs ws : List Ex}
    (hskip : c.skip st (app f args) = false)
    (hv : getSymDef st.toDState f = none) (ht : st.thrown = none) (ht2 : st2.thrown = none) (hi : FreeHead c st2 f)
    (hat : attrsOf st2 f = attrsOf st f) (ha : (attrsOf st f).noRearrange = true)
    (hseq : EvalSeq c (holds (attrsOf st f)) 1 st args st1 vs)
    (hspl : ∃ N, ∀ n, N ≤ n → spliceParts (eval c n) true (attrsOf st f) st1 (.sym f :: vs) = .ok (st2, .sym f :: ws))
    (hpl : ∀ w ∈ ws, plainPart (attrsOf st f) w)
    (hd : ∀ j (h : j < ws.length), ¬ holds (attrsOf st f) (j + 1) → Done c st2 ws[j]) :
    Evals c st (app f args) st2 (app f ws) := by
  obtain ⟨N, h⟩ := passes_inert hc hv ht ht2 hi hat ha hseq hspl hpl hd
  exact evals_of_two hs hskip (fun n hn => (h n hn).1) (fun n hn => (h n hn).2)

/-! ### Splicing inside evaluation -/

theorem spliceParts_seq (ev : Evaluator) (a : Attrs) (st : EState) (f : String) (ps : List Ex) (h1 : a.sequenceHold = false)
    (h2 : a.holdAllComplete = false) (hp : ∀ p ∈ splice "System`Sequence" ps, plainPart a p) :
    spliceParts ev true a st (.sym f :: ps) = .ok (st, .sym f :: splice "System`Sequence" ps) := by
  have hs : mergeSeq "System`Sequence" (.sym f :: ps) = .sym f :: splice "System`Sequence" ps := by
    rw [mergeSeq_eq]; rfl
  have hq : ∀ p ∈ Ex.sym f :: splice "System`Sequence" ps, plainPart a p := by
    intro p hp'
    rcases List.mem_cons.1 hp' with rfl | hp'
    · exact plain_sym _ _
    · exact hp p hp'
  simp only [spliceParts, h1, h2, Bool.or_self, Bool.and_false, Bool.false_eq_true, if_false, hs]
  have he : mergeEval ev "System`Evaluate" st (.sym f :: splice "System`Sequence" ps) = .ok (st, .sym f :: splice "System`Sequence" ps) := by
    unfold mergeEval
    rw [if_neg]
    rw [any_false_of _ _ (fun p h => ?_)]
    · simp
    · exact ((hq p h).2.1).resolve_left (by simp [h2])
  have hu : mergeSeq "System`Unevaluated" (.sym f :: splice "System`Sequence" ps) = .sym f :: splice "System`Sequence" ps := by
    rw [mergeSeq_eq, splice_none _ _ (any_false_of _ _ (fun p h => (hq p h).2.2))]
  rw [he]
  simp only [Res.bind, hu]

/-! ### Threading -/

theorem mem_listLengths {args : List Ex} {l : Nat} : l ∈ listLengths args ↔ ∃ xs, app "System`List" xs ∈ args ∧ xs.length = l := by
  unfold listLengths
  simp only [List.mem_filterMap, Option.map_eq_some_iff]
  constructor
  · rintro ⟨a, ha, xs, hx, rfl⟩
    refine ⟨xs, ?_, rfl⟩
    have : a = app "System`List" xs := by
      unfold argsOf at hx
      split at hx
      · split at hx
        · rename_i h; simp at hx; subst h; subst hx; rfl
        · cases hx
      · cases hx
    rwa [← this]
  · rintro ⟨xs, hx, rfl⟩
    exact ⟨_, hx, xs, by simp [argsOf, app], rfl⟩

theorem elemAt_spec {args : List Ex} {l i : Nat} (hl : ∀ xs, app "System`List" xs ∈ args → xs.length = l) (hi : i < l) :
    List.Forall₂ (IsEntry i) args (args.map (elemAt i)) := by
  rw [List.forall₂_map_right_iff, List.forall₂_same]
  intro a ha
  unfold elemAt IsEntry
  cases hx : argsOf "System`List" a with
  | none => right; exact ⟨(argsOf_noneE _ _).1 hx, rfl⟩
  | some xs =>
    left
    have hax : a = app "System`List" xs := by
      unfold argsOf at hx
      split at hx
      · split at hx
        · rename_i h; simp at hx; subst h; subst hx; rfl
        · cases hx
      · cases hx
    have := hl xs (hax ▸ ha)
    refine ⟨xs, hax, ?_⟩
    simp [List.getElem?_eq_getElem (show i < xs.length by omega)]

end Expreduce
