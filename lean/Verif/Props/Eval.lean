import Verif.Proofs.EvalFlow

/-! Properties C24, C25, C26, C53, C69, C70: the evaluator. -/

namespace Expreduce
open Ex

/-! ### C24 -/

/-- C24. Splicing is one-level flattening, for every head and every list of parts. -/
theorem C24_splice (h : String) (ps : List Ex) : mergeSeq h ps = splice h ps := mergeSeq_eq h ps

/-- C24. The value of `f[args]`, where nothing but the attributes of `f` is known and the arguments and the elements of the sequences among them
are values: the sequences are spliced in place, the rest is kept in order. -/
theorem C24_call {c : Ctx} (hc : c.Mono) (hs : ∀ e, c.same e e = true) {st : EState} {f : String} (args : List Ex)
    (hskip : c.skip st (app f args) = false) (hi : FreeHead c st f) (ht : st.thrown = none) (ha : (attrsOf st f).noRearrange = true)
    (hnh : (attrsOf st f).sequenceHold = false) (hnc : (attrsOf st f).holdAllComplete = false)
    (hd : ∀ a ∈ args, Done c st a) (hd' : ∀ a ∈ splice "System`Sequence" args, Done c st a)
    (hpl : ∀ a ∈ splice "System`Sequence" args, plainPart (attrsOf st f) a) :
    Evals c st (app f args) st (app f (splice "System`Sequence" args)) := by
  refine evals_inert hc hs hskip hi.noValue ht ht hi rfl ha (st1 := st) (vs := args) ?_ ?_ hpl (fun j hj _ => hd' _ (List.getElem_mem hj))
  · exact evalSeq_self ht args 1 (fun j hj _ => hd _ (List.getElem_mem hj))
  · exact ⟨0, fun n _ => spliceParts_seq _ _ _ _ _ hnh hnc hpl⟩

/-- C24. A head with the attribute `SequenceHold` keeps its sequences. -/
theorem C24_sequence_hold {c : Ctx} (hc : c.Mono) (hs : ∀ e, c.same e e = true) {st : EState} {f : String} (args : List Ex)
    (hskip : c.skip st (app f args) = false) (hi : FreeHead c st f) (ht : st.thrown = none) (ha : (attrsOf st f).noRearrange = true)
    (hsh : (attrsOf st f).sequenceHold = true) (hd : ∀ a ∈ args, Done c st a)
    (hpl : ∀ a ∈ args, hasHead "System`Evaluate" a = false ∧ hasHead "System`Unevaluated" a = false) :
    Evals c st (app f args) st (app f args) := by
  have hp : ∀ a ∈ args, plainPart (attrsOf st f) a := fun a h => ⟨Or.inl hsh, Or.inr (hpl a h).1, (hpl a h).2⟩
  refine evals_inert hc hs hskip hi.noValue ht ht hi rfl ha (st1 := st) (vs := args) ?_ ?_ hp (fun j hj _ => hd _ (List.getElem_mem hj))
  · exact evalSeq_self ht args 1 (fun j hj _ => hd _ (List.getElem_mem hj))
  · refine ⟨0, fun n _ => spliceParts_plain _ _ _ _ ?_⟩
    intro p h
    rcases List.mem_cons.1 h with rfl | h
    · exact plain_sym _ _
    · exact hp p h

/-! ### C25 -/

/-- C25. Threading: it happens exactly if some argument is a list and all lists among the arguments have the same length; then the result is a
list of that length, whose entry `i` applies the same head to the `i`-th elements of the lists and to the other arguments as they are. -/
theorem C25_thread (h : Ex) (args : List Ex) (e : Ex) :
    threadExpr (h :: args) = some e ↔
    ∃ (l : Nat) (rows : List (List Ex)), (∃ xs, app "System`List" xs ∈ args) ∧ (∀ xs, app "System`List" xs ∈ args → xs.length = l) ∧
      rows.length = l ∧ e = app "System`List" (rows.map (fun r => .expr (h :: r))) ∧ ∀ i (hi : i < rows.length), List.Forall₂ (IsEntry i) args rows[i] := by
  have entry_unique : ∀ i a b b', IsEntry i a b → IsEntry i a b' → b = b' := by
    rintro i a b b' (⟨xs, rfl, h1⟩ | ⟨h1, rfl⟩) (⟨ys, h2, h3⟩ | ⟨h2, rfl⟩)
    · simp only [app, Ex.expr.injEq, List.cons.injEq, true_and] at h2
      subst h2
      rw [h1] at h3
      exact Option.some.inj h3
    · simp [app, hasHead] at h2
    · subst h2; simp [app, hasHead] at h1
    · rfl
  have forall_unique : ∀ i (as bs bs' : List Ex), List.Forall₂ (IsEntry i) as bs → List.Forall₂ (IsEntry i) as bs' → bs = bs' := by
    intro i as bs bs' h1
    induction h1 generalizing bs' with
    | nil => intro h2; cases h2; rfl
    | cons hab _ ih =>
      intro h2
      cases h2 with
      | cons hab' h2 => rw [entry_unique i _ _ _ hab hab', ih _ h2]
  rw [threadExpr]
  constructor
  · intro hh
    cases hl : listLengths args with
    | nil => rw [hl] at hh; cases hh
    | cons l ls =>
      rw [hl] at hh
      simp only at hh
      split at hh
      · rename_i hall
        have hmem : l ∈ listLengths args := by rw [hl]; simp
        obtain ⟨xs, hxs, rfl⟩ := mem_listLengths.1 hmem
        have hlen : ∀ ys, app "System`List" ys ∈ args → ys.length = xs.length := by
          intro ys hys
          have : ys.length ∈ listLengths args := mem_listLengths.2 ⟨ys, hys, rfl⟩
          rw [hl] at this
          rcases List.mem_cons.1 this with h | h
          · exact h
          · simpa using List.all_eq_true.1 hall _ h
        refine ⟨xs.length, (List.range xs.length).map (fun i => args.map (elemAt i)), ⟨xs, hxs⟩, hlen, by simp, ?_, ?_⟩
        · simp only [Option.some.injEq] at hh
          rw [← hh, List.map_map]
          rfl
        · intro i hi
          simp only [List.length_map, List.length_range] at hi
          simpa using elemAt_spec hlen hi
      · cases hh
  · rintro ⟨l, rows, ⟨xs, hxs⟩, hlen, hrl, rfl, hrows⟩
    have hmem := mem_listLengths.2 ⟨xs, hxs, rfl⟩
    cases hl : listLengths args with
    | nil => rw [hl] at hmem; cases hmem
    | cons l' ls =>
      have hall : ∀ m ∈ l' :: ls, m = l := by
        intro m hm
        rw [← hl] at hm
        obtain ⟨ys, hys, rfl⟩ := mem_listLengths.1 hm
        exact hlen ys hys
      obtain rfl := hall l' (by simp)
      simp only
      rw [if_pos (by rw [List.all_eq_true]; intro m hm; simp [hall m (by simp [hm])])]
      simp only [app, Option.some.injEq, Ex.expr.injEq, S]
      congr 1
      apply List.ext_getElem
      · simp [hrl]
      · intro i h1 h2
        simp only [List.getElem_map, List.getElem_range]
        congr 2
        exact forall_unique i _ _ _ (elemAt_spec hlen (by simpa using h1)) (hrows i (by simpa using h2))

/-- C25. The value of `f[args]` for a Listable `f` about which nothing else is known and arguments that are values: if threading applies, it is the
list of the values of the entries. -/
theorem C25_call {c : Ctx} (hc : c.Mono) (hs : ∀ e, c.same e e = true) {st : EState} {f : String} (args : List Ex) (rows vals : List Ex)
    (hskip : ∀ e, c.skip st e = false) (hi : FreeHead c st f) (ht : st.thrown = none) (ha : attrsOf st f = { listable := true })
    (hil : FreeHead c st "System`List") (hal : attrsOf st "System`List" = { prot := true, locked := true })
    (hd : ∀ a ∈ args, Done c st a) (hpl : ∀ a ∈ args, plainPart (attrsOf st f) a)
    (hth : threadExpr (.sym f :: args) = some (app "System`List" rows)) (hne : c.same (app f args) (app "System`List" rows) = false)
    (hv : List.Forall₂ (fun r v => Evals c st r st v) rows vals) (hdv : ∀ v ∈ vals, Done c st v)
    (hpv : ∀ v ∈ vals, plainPart (attrsOf st "System`List") v) :
    Evals c st (app f args) st (app "System`List" vals) := by
  obtain ⟨N1, h1⟩ := evalArgs_app hc hi.noValue ht (attrsOf st f) (evalSeq_self (held := holds (attrsOf st f)) ht args 1
    (fun j hj _ => hd _ (List.getElem_mem hj)))
  have hseq : ∀ i, EvalSeq c (holds (attrsOf st "System`List")) i st rows st vals := by
    have hn : ∀ i, ¬ holds (attrsOf st "System`List") i := by intro i; simp [holds, hal]
    clear hth hne hdv hpv
    induction hv with
    | nil => intro i; exact .nil
    | cons h _ ih => intro i; exact .step (hn i) h ht (ih _)
  obtain ⟨N2, h2⟩ := passes_inert hc hil.noValue ht ht hil rfl (by rw [hal]; rfl) (hseq 1) (ws := vals)
    ⟨0, fun n _ => spliceParts_plain _ _ _ _ (by
      intro p h
      rcases List.mem_cons.1 h with rfl | h
      · exact plain_sym _ _
      · exact hpv p h)⟩ hpv (fun j hj _ => hdv _ (List.getElem_mem hj))
  have hp : ∀ n, N1 ≤ n → pass c n (eval c n) st (.sym f :: args) = .ok (st, .next (app "System`List" rows) false) := by
    intro n hn
    have hcond : conditional (attrsOf st f) (.sym f :: args) = none := by simp [conditional, ha]
    simp only [pass, headAttrs, hcond, h1 n hn, Res.bind, callSym, afterArgs, Option.isSome]
    rw [spliceParts_plain _ _ _ _ (by
      intro p h
      rcases List.mem_cons.1 h with rfl | h
      · exact plain_sym _ _
      · exact hpl p h)]
    simp only [symbolCase, ha, Bool.false_eq_true, if_false, if_true, hth]
  refine ⟨max N1 N2 + 4, ?_⟩
  rw [show max N1 N2 + 4 = (max N1 N2 + 3) + 1 from rfl, app, eval_expr, evalLoop_next rfl (by simp) (hskip _) (hp _ (by omega))]
  exact loop_of_two hs _ _ (by simpa [unchanged, app] using hne) (hskip _) (h2 _ (by omega)).1 (h2 _ (by omega)).2

/-! ### C26 -/

/-- C26. The value of `f[args]`, where nothing but the attributes of `f` is known: the arguments that the attributes do not hold are evaluated once
each from left to right, the held ones stay as they are (even though they might have effects or not terminate). -/
theorem C26_arguments {c : Ctx} (hc : c.Mono) (hs : ∀ e, c.same e e = true) {st st' : EState} {f : String} (args vals : List Ex)
    (hskip : c.skip st (app f args) = false) (hi : FreeHead c st f) (hi' : FreeHead c st' f) (hat : attrsOf st' f = attrsOf st f)
    (ht : st.thrown = none) (ht' : st'.thrown = none) (ha : (attrsOf st f).noRearrange = true)
    (hseq : EvalSeq c (holds (attrsOf st f)) 1 st args st' vals) (hpl : ∀ a ∈ vals, plainPart (attrsOf st f) a)
    (hd : ∀ j (h : j < vals.length), ¬ holds (attrsOf st f) (j + 1) → Done c st' vals[j]) :
    Evals c st (app f args) st' (app f vals) := by
  refine evals_inert hc hs hskip hi.noValue ht ht' hi' hat ha hseq ⟨0, fun n _ => spliceParts_plain _ _ _ _ ?_⟩ hpl hd
  intro p h
  rcases List.mem_cons.1 h with rfl | h
  · exact plain_sym _ _
  · exact hpl p h

theorem evalSeq_held {c : Ctx} {held : Nat → Prop} {st : EState} (args : List Ex) : ∀ i, (∀ j, i ≤ j → held j) → EvalSeq c held i st args st args := by
  induction args with
  | nil => intro i _; exact .nil
  | cons p ps ih => intro i h; exact .hold (h i (by omega)) (ih _ (fun j hj => h j (by omega)))

/-- C26. With `HoldAll` or `HoldAllComplete` nothing is evaluated: the call is its own value and has no effect, whatever the arguments are (except the
heads `Sequence`, `Evaluate`, `Unevaluated` where they are not held themselves). -/
theorem C26_hold_all {c : Ctx} (hc : c.Mono) (hs : ∀ e, c.same e e = true) {st : EState} {f : String} (args : List Ex)
    (hskip : c.skip st (app f args) = false) (hi : FreeHead c st f) (ht : st.thrown = none) (ha : (attrsOf st f).noRearrange = true)
    (hh : (attrsOf st f).holdAll = true ∨ (attrsOf st f).holdAllComplete = true) (hpl : ∀ a ∈ args, plainPart (attrsOf st f) a) :
    Evals c st (app f args) st (app f args) := by
  refine C26_arguments hc hs args args hskip hi hi rfl ht ht ha (evalSeq_held args 1 (fun j _ => Or.inr (Or.inr hh))) hpl ?_
  intro j _ hn
  exact absurd (Or.inr (Or.inr hh)) hn

/-- C26. Two calls that differ only in arguments that are held have the same effects and values of the other arguments: no held argument is looked at. -/
theorem C26_held_irrelevant (ev : Evaluator) (a : Attrs) (left right : List Ex) (p q : Ex) (h : holds a (1 + left.length)) :
    ∀ st r, evalArgs ev (heldPart a) 1 st (left ++ p :: right) = .ok r →
      ∃ r', evalArgs ev (heldPart a) 1 st (left ++ q :: right) = .ok r' ∧ r'.1 = r.1 ∧
        (∀ vs, r.2 = .inl vs → ∃ l l', vs = l ++ p :: l' ∧ r'.2 = .inl (l ++ q :: l') ∧ l.length = left.length) ∧ (∀ t, r.2 = .inr t → r'.2 = .inr t) := by
  have gen : ∀ (left : List Ex) i, holds a (i + left.length) → ∀ st r, evalArgs ev (heldPart a) i st (left ++ p :: right) = .ok r →
      ∃ r', evalArgs ev (heldPart a) i st (left ++ q :: right) = .ok r' ∧ r'.1 = r.1 ∧
        (∀ vs, r.2 = .inl vs → ∃ l l', vs = l ++ p :: l' ∧ r'.2 = .inl (l ++ q :: l') ∧ l.length = left.length) ∧ (∀ t, r.2 = .inr t → r'.2 = .inr t) := by
    intro left
    induction left with
    | nil =>
      intro i hi st r hr
      have hb := (heldPart_iff a i).2 (by simpa using hi)
      rw [List.nil_append, evalArgs, if_pos hb] at hr ⊢
      obtain ⟨⟨s, x⟩, hx, hr⟩ := Res.bind_ok hr
      simp only [Res.ok.injEq] at hr
      subst hr
      rw [hx]
      refine ⟨_, rfl, rfl, ?_, ?_⟩
      · intro vs hvs
        cases x with
        | inl l => simp only [Sum.map_inl, Sum.inl.injEq] at hvs; exact ⟨[], l, by simp [← hvs], rfl, rfl⟩
        | inr t => simp at hvs
      · intro t hvs
        cases x with
        | inl l => simp at hvs
        | inr t' => exact hvs
    | cons y left ih =>
      intro i hi st r hr
      have hi' : holds a (i + 1 + left.length) := by
        rw [show i + 1 + left.length = i + (y :: left).length by simp; omega]; exact hi
      rw [List.cons_append, evalArgs] at hr ⊢
      split at hr
      · rename_i hb
        rw [if_pos hb]
        obtain ⟨⟨s, x⟩, hx, hr⟩ := Res.bind_ok hr
        simp only [Res.ok.injEq] at hr
        subst hr
        obtain ⟨r', hr', e1, e2, e3⟩ := ih _ hi' st _ hx
        rw [hr']
        refine ⟨_, rfl, e1, ?_, ?_⟩
        · intro vs hvs
          cases x with
          | inl l =>
            obtain ⟨l1, l2, h1, h2, h3⟩ := e2 l rfl
            simp only [Sum.map_inl, Sum.inl.injEq] at hvs
            exact ⟨y :: l1, l2, by simp [← hvs, h1], by simp [h2], by simp [h3]⟩
          | inr t => simp at hvs
        · intro t hvs
          cases x with
          | inl l => simp at hvs
          | inr t' => simp [e3 t' rfl] at hvs ⊢; exact hvs
      · rename_i hb
        rw [if_neg hb]
        obtain ⟨⟨s1, v⟩, hv, hr⟩ := Res.bind_ok hr
        rw [hv]
        simp only [Res.bind]
        dsimp only at hr
        cases hth : s1.thrown with
        | some t =>
          rw [hth] at hr
          simp only [Res.ok.injEq] at hr
          subst hr
          exact ⟨_, rfl, rfl, by simp, by simp⟩
        | none =>
          rw [hth] at hr
          dsimp only at hr ⊢
          obtain ⟨⟨s, x⟩, hx, hr⟩ := Res.bind_ok hr
          simp only [Res.ok.injEq] at hr
          subst hr
          obtain ⟨r', hr', e1, e2, e3⟩ := ih _ hi' s1 _ hx
          rw [hr']
          refine ⟨_, rfl, e1, ?_, ?_⟩
          · intro vs hvs
            cases x with
            | inl l =>
              obtain ⟨l1, l2, h1, h2, h3⟩ := e2 l rfl
              simp only [Sum.map_inl, Sum.inl.injEq] at hvs
              exact ⟨v :: l1, l2, by simp [← hvs, h1], by simp [h2], by simp [h3]⟩
            | inr t => simp at hvs
          · intro t hvs
            cases x with
            | inl l => simp at hvs
            | inr t' => simp [e3 t' rfl] at hvs ⊢; exact hvs
  exact gen left 1 h

/-! ### C53 -/

/-- C53. A throw, however deep inside calls and statement sequences, is delivered to the enclosing `Catch`: `Catch[e]` has the thrown value, in a state
without pending throw. The program to the right of the path to the `Throw` (`right` in `ThrowPath`) is arbitrary: it is not evaluated. -/
theorem C53_catch_partial {c : Ctx} (hc : c.Mono) (hsk : ∀ st e, c.skip st e = false) {st st' : EState} {e v : Ex}
    (hpath : ThrowPath c st e st' (app "System`Throw" [v])) (h : HasThrow c st) (h' : HasThrow c st') (ht : st.thrown = none)
    (hpl : plainPart (attrsOf st "System`Catch") e) (hd : Done c { st' with thrown := none } v) :
    Evals c st (app "System`Catch" [e]) { st' with thrown := none } v := by
  refine evals_builtin hc (hsk _ _) ht h.catchCmd.noValue h.catchCmd.plain h.catchCmd.toBuiltin ?_
    (evalSeq_held_one h) (by simpa using hpl) (F := fun _ ev st ps => catchFn ev st ps) ?_ hd
  · intro ev x
    exact h'.catchCmd.noRules ev x none
  · obtain ⟨N, hN⟩ := (throwPath_evals hc hsk hpath).at hc
    refine ⟨N, fun n hn => ?_⟩
    have hth := (throwPath_thrown hpath).1
    simp only [catchFn, hN n hn, Res.bind, hth, app]
where
  evalSeq_held_one {c : Ctx} {st : EState} {e : Ex} (h : HasThrow c st) : EvalSeq c (holds (attrsOf st "System`Catch")) 1 st [e] st [e] :=
    .hold (Or.inl ⟨h.catchHold, rfl⟩) .nil

/-- C53. Without a throw `Catch[e]` is `e`. -/
theorem C53_no_throw {c : Ctx} (hc : c.Mono) (hsk : ∀ st e, c.skip st e = false) {st st' : EState} {e v : Ex}
    (he : Evals c st e st' v) (ht' : st'.thrown = none) (h : HasThrow c st) (h' : HasThrow c st') (ht : st.thrown = none)
    (hpl : plainPart (attrsOf st "System`Catch") e) (hd : Done c st' v) : Evals c st (app "System`Catch" [e]) st' v := by
  refine evals_builtin hc (hsk _ _) ht h.catchCmd.noValue h.catchCmd.plain h.catchCmd.toBuiltin ?_
    (.hold (Or.inl ⟨h.catchHold, rfl⟩) .nil) (by simpa using hpl) (F := fun _ ev st ps => catchFn ev st ps) ?_ hd
  · intro ev x
    exact h'.catchCmd.noRules ev x st'.thrown
  · obtain ⟨N, hN⟩ := he.at hc
    refine ⟨N, fun n hn => ?_⟩
    simp only [catchFn, hN n hn, Res.bind, ht']

/-- C53. While a throw is pending, every call of a function that evaluates its head (no `HoldAll`, `HoldAllComplete`) does nothing but pass the throw on:
in particular a second `Throw` does not replace the first, and `Catch` does not start. -/
theorem C53_pending {c : Ctx} (hc : c.Mono) {st : EState} {f : String} {args : List Ex} {t : Ex} (ht : st.thrown = some t)
    (hv : getSymDef st.toDState f = none) (hcond : conditional (attrsOf st f) (.sym f :: args) = none)
    (hh : (attrsOf st f).holdAll = false) (hhc : (attrsOf st f).holdAllComplete = false)
    (hskip : c.skip st (app f args) = false) : Evals c st (app f args) st t := pending_call hc ht hv hcond hh hhc hskip

/-- C53. A throw that nobody catches ends at the top level: it is shown in `Hold` and no throw is pending afterwards. -/
theorem C53_top_level (st : EState) (out t : Ex) (h : st.thrown = some t) :
    (topLevel st out).1.thrown = none ∧ (topLevel st out).1.defs = st.defs ∧ (topLevel st out).2 = .expr [S "Hold", t] := by
  simp [topLevel, h]

/-- C53 is false of the code for loops: `While` does not notice a throw in its body; if the condition still is `True` while the throw is pending, the
loop never ends. -/
theorem C53_while_not_stopped {c : Ctx} (hc : c.Mono) (hsk : ∀ st e, c.skip st e = false) {st st1 : EState} {cond body w w' : Ex}
    (hcmd : Command c "System`While" (fun n ev st ps => whileFn n ev st ps) st)
    (hold : (attrsOf st "System`While").holdAll = true) (ht : st.thrown = none)
    (hpl : plainPart (attrsOf st "System`While") cond ∧ plainPart (attrsOf st "System`While") body)
    (h1 : Evals c st cond st (S "True")) (h2 : Evals c st body st1 w) (hw : tryReturn st1 w = none ∧ isBreak w = false)
    (h3 : Evals c st1 cond st1 (S "True")) (h4 : Evals c st1 body st1 w') (hw' : tryReturn st1 w' = none ∧ isBreak w' = false) :
    Diverges c st (app "System`While" [cond, body]) := by
  have dich : ∀ {s e s' v}, Evals c s e s' v → ∀ n, eval c n s e = .stuck ∨ eval c n s e = .ok (s', v) := by
    intro s e s' v h n
    obtain ⟨m, hm⟩ := h
    rcases eval_mono hc (Nat.le_max_left n m) s e with h | h
    · exact Or.inl h
    · right
      rw [h]
      exact (eval_mono hc (Nat.le_max_right n m) s e).ok hm
  have hT : isSameQ (S "True") (S "True") = true := by decide +kernel
  have l1 : ∀ n k, whileLoop (eval c n) cond body k st1 = .stuck := by
    intro n k
    induction k with
    | zero => rfl
    | succ k ih =>
      unfold whileLoop
      rcases dich h3 n with h | h
      · rw [h]; rfl
      · rw [h]
        simp only [Res.bind, hT, if_true]
        rcases dich h4 n with h | h
        · rw [h]
        · rw [h]; simp only [hw'.1, hw'.2, Bool.false_eq_true, if_false, ih]
  have l0 : ∀ n k, whileLoop (eval c n) cond body k st = .stuck := by
    intro n k
    cases k with
    | zero => rfl
    | succ k =>
      unfold whileLoop
      rcases dich h1 n with h | h
      · rw [h]; rfl
      · rw [h]
        simp only [Res.bind, hT, if_true]
        rcases dich h2 n with h | h
        · rw [h]
        · rw [h]; simp only [hw.1, hw.2, Bool.false_eq_true, if_false, l1]
  have hseq : EvalSeq c (holds (attrsOf st "System`While")) 1 st [cond, body] st [cond, body] :=
    evalSeq_held _ 1 (fun j _ => Or.inr (Or.inr (Or.inl hold)))
  intro n
  cases n with
  | zero => rfl
  | succ n =>
    show evalLoop c n (eval c n) (n + 1) st false none (.expr _) = _
    rw [evalLoop_pass rfl (by simp) (hsk _ _)]
    have hargs : evalArgs (eval c n) (heldPart (attrsOf st "System`While")) 0 st [.sym "System`While", cond, body] =
        .ok (st, .inl [.sym "System`While", cond, body]) := by
      have : ∀ i, heldPart (attrsOf st "System`While") i = true := fun i => (heldPart_iff _ _).2 (Or.inr (Or.inr (Or.inl hold)))
      simp [evalArgs, this, Res.bind]
    have hspl : spliceParts (eval c n) true (attrsOf st "System`While") st [.sym "System`While", cond, body] =
        .ok (st, [.sym "System`While", cond, body]) := by
      refine spliceParts_plain _ _ _ _ ?_
      intro p hp
      simp only [List.mem_cons, List.not_mem_nil, or_false] at hp
      rcases hp with rfl | rfl | rfl
      · exact plain_sym _ _
      · exact hpl.1
      · exact hpl.2
    rw [pass_builtin hcmd.plain hcmd.toBuiltin hargs hspl]
    simp only [whileFn, l0]
    rfl

/-! ### C69 -/

/-- C69. Evaluating a result again gives the same result, in an environment whose functions and rules have no effects and in a program that does not use
`Return`: `same` is the comparison of fingerprints, assumed exact. -/
theorem C69_idempotent_partial {c : Ctx} {st : EState} (hc : c.Tame st) (hm : c.Mono) (hex : ∀ a b, c.same a b = true ↔ a = b) {e v : Ex} {st' : EState}
    (hn : NoReturn e) (h : Evals c st e st' v) : st' = st ∧ Evals c st v st v := by
  obtain ⟨n, h⟩ := h
  obtain ⟨rfl, -⟩ := (eval_good hc n).2 _ _ _ hn h
  exact ⟨rfl, eval_idem hc hm hex n e v hn h⟩

end Expreduce
