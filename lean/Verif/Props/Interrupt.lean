import Verif.Proofs.Interrupt

/-! # C96: interrupting an evaluation -/

namespace Expreduce
open Ex

/-- **C96, the flag stays.** During an evaluation nothing takes back the interrupt, if none of the called functions does. -/
theorem C96_flag_stays {c : Ctx} (hc : c.Keeps FlagStays) {st st' : EState} {e v : Ex} (h : Evals c st e st' v) :
    FlagStays st st' := by
  obtain ⟨n, hn⟩ := h
  exact eval_keeps (R := FlagStays) (fun _ h => h) (fun _ _ _ h1 h2 h => h2 (h1 h)) hc n _ _ _ _ hn

/-- The control structures of the language (`Throw`, `Catch`, `CompoundExpression`, `While`, `Which`, `If`) do not take the
interrupt back, so `C96_flag_stays` applies to them. -/
theorem C96_flow_keeps_flag (fmt : Rat → String) : (flowCtx fmt).Keeps FlagStays where
  find := by
    intro s ev st e st' v _ h
    cases h; exact fun h => h
  fn := by
    intro s n ev st ps st' v hk h
    have trans : ∀ {a b d : EState}, FlagStays a b → FlagStays b d → FlagStays a d := fun h1 h2 h => h2 (h1 h)
    have here : ∀ a : EState, FlagStays a a := fun _ h => h
    have hcomp : ∀ (ps : List Ex) (st : EState) (v0 : Ex) (st' : EState) (v : Ex), compoundLoop ev st ps v0 = .ok (st', v) → FlagStays st st' := by
      intro ps
      induction ps with
      | nil => intro st v0 st' v h; cases h; exact here _
      | cons p ps ih =>
        intro st v0 st' v h
        unfold compoundLoop at h
        obtain ⟨q, h1, h2⟩ := Res.bind_ok h
        have hq := hk _ _ _ _ h1
        split at h2
        · cases h2; exact hq
        · split at h2
          · cases h2; exact hq
          · exact trans hq (ih _ _ _ _ h2)
    have hwhile : ∀ (cond body : Ex) (n : Nat) (st st' : EState) (v : Ex), whileLoop ev cond body n st = .ok (st', v) → FlagStays st st' := by
      intro cond body n
      induction n with
      | zero => intro st st' v h; cases h
      | succ n ih =>
        intro st st' v h
        unfold whileLoop at h
        obtain ⟨q, h1, h2⟩ := Res.bind_ok h
        have hq := hk _ _ _ _ h1
        split at h2
        · obtain ⟨q', h3, h4⟩ := Res.bind_ok h2
          have hq' := trans hq (hk _ _ _ _ h3)
          split at h4
          · cases h4; exact hq'
          · split at h4
            · cases h4; exact hq'
            · exact trans hq' (ih _ _ _ h4)
        · cases h2; exact hq
    have hwhich : ∀ (k : Nat) (ps : List Ex), ps.length ≤ k → ∀ (st st' : EState) (v : Ex), whichLoop ev st ps = .ok (st', v) → FlagStays st st' := by
      intro k
      induction k with
      | zero =>
        intro ps hl st st' v h
        cases ps with
        | nil => cases h; exact here _
        | cons _ _ => simp at hl
      | succ k ih =>
        intro ps hl st st' v h
        match ps with
        | [] => cases h; exact here _
        | [_] => cases h; exact here _
        | a :: b :: rest =>
          simp only [whichLoop] at h
          obtain ⟨q, h1, h2⟩ := Res.bind_ok h
          have hq := hk _ _ _ _ h1
          split at h2
          · cases h2; exact hq
          · exact trans hq (ih rest (by simp at hl; omega) _ _ _ h2)
    simp only [flowCtx, flowFn] at h
    split at h
    · unfold throwFn at h
      split at h <;> (cases h; exact fun h => h)
    · split at h
      · unfold catchFn at h
        split at h
        · obtain ⟨q, h1, h2⟩ := Res.bind_ok h
          have hq := hk _ _ _ _ h1
          split at h2
          · cases h2; exact hq
          · cases h2; exact hq
          · cases h2
        · cases h; exact here _
      · split at h
        · unfold compoundFn at h
          split at h
          · exact hcomp _ _ _ _ _ h
          · cases h
        · split at h
          · unfold whileFn at h
            split at h
            · exact hwhile _ _ _ _ _ _ h
            · cases h; exact here _
          · split at h
            · unfold whichFn at h
              split at h
              · cases h; exact here _
              · exact hwhich _ _ le_rfl _ _ _ h
            · split at h
              · unfold ifFn at h
                split at h <;> (cases h; exact here _)
              · cases h; exact here _

/-- **C96, rules are stopped.** Once the evaluation is interrupted, every expression built from calls gets a value after
finitely many steps, whatever the rules are (also rules that call themselves for ever), and the state stays as it is. -/
theorem C96_rules_stop_partial {c : Ctx} (hc : c.Mono) (hs : ∀ a b, c.same a b = true ↔ a = b) {st : EState}
    {rules : String → Ex → Option Ex} (hp : RuleProgram c st rules) (hi : st.interrupted = true) (ht : st.thrown = none)
    {e : Ex} (he : CallTree e) : ∃ v, Evals c st e st v := by
  obtain ⟨v, hv, _⟩ := tree_stops hc hs hp hi ht he
  exact ⟨v, hv⟩

/-- **C96, a call is aborted before its right side is touched.** If the evaluation is interrupted, a call to which a rule
applies has the value `$Aborted`, and nothing in the right side has been evaluated: the state is as before. -/
theorem C96_call_aborted {c : Ctx} (hc : c.Mono) {st : EState} {f : String} {args vs ps : List Ex}
    (hi : st.interrupted = true) (ht : st.thrown = none) (hv : getSymDef st.toDState f = none) (hb : hasBuiltin st f = false)
    (ha : (attrsOf st f).noRearrange = true) (hskip : c.skip st (app f args) = false)
    (hseq : EvalSeq c (holds (attrsOf st f)) 1 st args st vs) (hpl : ∀ v ∈ vs, plainPart (attrsOf st f) v)
    (hr : ∀ ev, c.find ev st f (app f vs) = .ok (st, some (.expr ps))) (hne : c.same (app f args) (.expr ps) = false) :
    Evals c st (app f args) st (S "$Aborted") := by
  have hna := ha
  simp only [Attrs.noRearrange, Bool.and_eq_true, Bool.not_eq_true'] at hna
  obtain ⟨N1, h1⟩ := pass_vals hc hv ht hna.2 hseq hpl
  have hp : ∀ n, N1 ≤ n → pass c n (eval c n) st (.sym f :: args) = .ok (st, .next (.expr ps) true) := by
    intro n hn
    rw [h1 n hn]
    rw [app] at hr
    simp [symbolCase, hna, applyDefs, hb, Res.bind, hr]
  refine ⟨N1 + 2, ?_⟩
  rw [app, eval_expr, evalLoop_next rfl (by simp) hskip (hp _ (by omega))]
  have hu : unchanged c (some (.expr (.sym f :: args))) (.expr ps) = false := by simpa [unchanged, app] using hne
  unfold evalLoop
  rw [if_neg (by simp [hu])]
  simp [tryReturn, hi]

/-- **C96, `While` is stopped.** Once the evaluation is interrupted, `While` evaluates its test and its body at most once
more, and then its value is `$Aborted` (or `Null` if the test ended it). -/
theorem C96_while_stops {ev : Evaluator} (hk : ∀ st e st' v, ev st e = .ok (st', v) → FlagStays st st') {st st1 st2 : EState}
    {P cond body v1 v2 : Ex} (hi : st.interrupted = true) (h1 : ev st cond = .ok (st1, v1)) (h2 : ev st1 body = .ok (st2, v2)) (n : Nat) :
    whileFn (n + 1) ev st [P, cond, body] =
      if isSameQ v1 (S "True") then .ok (st2, S "$Aborted") else .ok (st1, S "Null") := by
  have hi2 : st2.interrupted = true := hk _ _ _ _ h2 (hk _ _ _ _ h1 hi)
  simp only [whileFn, whileLoop, h1, Res.bind, h2, tryReturn, hi2, if_true]

/-- **C96, the session goes on.** After an input that ended without an uncaught `Throw`, the interrupt is forgotten. -/
theorem C96_next_input (st : EState) (out : Ex) (h : st.thrown = none) :
    (topLevel st out).1.interrupted = false ∧ (topLevel st out).2 = out := by simp [topLevel, h]

/-- **C96 fails after an uncaught `Throw`.** The interrupt is not forgotten: it hits the next inputs. Every call to which a
rule applies is aborted then, although nobody has interrupted it, until an input ends without `Throw`. -/
theorem C96_throw_keeps_flag {c : Ctx} (hc : c.Mono) {st : EState} {t out : Ex} (hth : st.thrown = some t) (hi : st.interrupted = true)
    {f : String} {args vs ps : List Ex} (hv : getSymDef st.toDState f = none) (hb : hasBuiltin st f = false)
    (ha : (attrsOf st f).noRearrange = true) (hskip : c.skip (topLevel st out).1 (app f args) = false)
    (hseq : EvalSeq c (holds (attrsOf st f)) 1 (topLevel st out).1 args (topLevel st out).1 vs) (hpl : ∀ v ∈ vs, plainPart (attrsOf st f) v)
    (hr : ∀ ev, c.find ev (topLevel st out).1 f (app f vs) = .ok ((topLevel st out).1, some (.expr ps)))
    (hne : c.same (app f args) (.expr ps) = false) :
    Evals c (topLevel st out).1 (app f args) (topLevel st out).1 (S "$Aborted") := by
  have e : (topLevel st out).1 = { st with thrown := none } := by simp [topLevel, hth]
  rw [e] at hskip hseq hr ⊢
  exact C96_call_aborted hc hi rfl hv hb ha hskip hseq hpl hr hne

/-- **C96 fails for values of symbols.** A symbol whose value contains the symbol itself (`x := h[x]`) is evaluated for
ever even if the evaluation is interrupted: the flag is only looked at after the value has been evaluated. -/
theorem C96_symbol_not_stopped {c : Ctx} {st : EState} {x h : String} (hx : getSymDef st.toDState x = some (app h [.sym x]))
    (hv : getSymDef st.toDState h = none) (ht : st.thrown = none) (ha : attrsOf st h = {})
    (hskip : c.skip st (app h [.sym x]) = false) : Diverges c st (.sym x) := by
  have key : ∀ n, eval c n st (.sym x) = .stuck ∧ eval c (n + 1) st (.sym x) = .stuck := by
    intro n
    induction n with
    | zero =>
      refine ⟨rfl, ?_⟩
      simp [eval, evalSymbol, hx, evalDef, app, Res.bind]
    | succ n ih =>
      refine ⟨ih.2, ?_⟩
      have h1 : eval c (n + 1) st (app h [.sym x]) = .stuck := by
        rw [app, eval_expr, evalLoop_pass rfl (by simp) hskip]
        have hp : pass c n (eval c n) st [.sym h, .sym x] = .stuck := by
          have hcond : conditional {} [Ex.sym h, .sym x] = none := rfl
          simp only [pass, headAttrs, ha, hcond]
          cases n with
          | zero => rfl
          | succ m =>
            simp [evalArgs, heldPart, evalSymbol_none hv, Res.bind, ht, ih.1]
        rw [hp]; rfl
      have hne : app h [.sym x] ≠ .sym x := by simp [app]
      show eval c (n + 1 + 1) st (.sym x) = .stuck
      unfold eval
      simp only [evalSymbol, hx, evalDef, hne, if_false, h1, Res.bind]
  exact fun n => (key n).1

/-! ### A program that runs for ever, and is stopped -/

namespace InterruptDemo

/-- The rule `f[x_] := h[f[x]]`. -/
def rules (s : String) (e : Ex) : Option Ex := if s = "Global`f" then some (app "Global`h" [e]) else none

/-- The interpreter with this rule. -/
def ctx : Ctx := { find := fun _ st s e => .ok (st, rules s e), same := fun a b => decide (a = b) }

/-- A state without definitions of other kinds. -/
def state (interrupted : Bool) : EState := { defs := fun _ => none, interrupted := interrupted }

theorem program (b : Bool) : RuleProgram ctx (state b) rules where
  noValue := fun _ => rfl
  noBuiltin := fun _ => rfl
  attrs := fun _ => rfl
  find := fun _ _ _ => rfl
  result := by
    intro s e r h
    unfold rules at h
    split at h
    · cases h; exact .inl ⟨_, rfl⟩
    · cases h

theorem mono : ctx.Mono where
  fn := fun _ _ _ _ _ _ _ _ _ => Res.Le.refl _
  find := fun _ _ _ _ _ _ => Res.Le.refl _

/-- Without an interrupt `f[1]` is never finished. -/
theorem runs_for_ever : Diverges ctx (state false) (app "Global`f" [.int 1]) := by
  intro n
  induction n with
  | zero => rfl
  | succ n ih =>
    rw [app, eval_expr, evalLoop_pass rfl (by simp) rfl]
    cases n with
    | zero => rfl
    | succ m =>
      have hp : pass ctx (m + 1) (eval ctx (m + 1)) (state false) [.sym "Global`f", .int 1] =
          .ok (state false, .next (app "Global`h" [app "Global`f" [.int 1]]) true) := by
        rfl
      rw [hp]
      simp only [Res.bind, afterPass, Bool.false_or]
      rw [app, evalLoop_pass rfl (fun _ => rfl) rfl]
      have hq : pass ctx (m + 1) (eval ctx (m + 1)) (state false) [.sym "Global`h", app "Global`f" [.int 1]] = .stuck := by
        have hcond : conditional {} [Ex.sym "Global`h", app "Global`f" [.int 1]] = none := rfl
        have ha : attrsOf (state false) "Global`h" = {} := rfl
        have hs : eval ctx (m + 1) (state false) (.sym "Global`h") = .ok (state false, .sym "Global`h") := rfl
        have ht : (state false).thrown = none := rfl
        simp only [pass, headAttrs, ha, hcond]
        simp [evalArgs, heldPart, hs, ht, Res.bind, ih]
      rw [hq]; rfl

/-- With an interrupt it ends. -/
theorem stopped : ∃ v, Evals ctx (state true) (app "Global`f" [.int 1]) (state true) v :=
  C96_rules_stop_partial mono (by simp [ctx]) (program true) rfl rfl
    (.call _ _ (by decide) (by decide) (by decide) (by simpa using CallTree.int 1))

/-- The value is `$Aborted`. -/
example : eval ctx 3 (state true) (app "Global`f" [.int 1]) = .ok (state true, S "$Aborted") := rfl

/-- After an uncaught `Throw` in an interrupted input, the next input `f[1]` is aborted. -/
example : eval ctx 3 (topLevel { state true with thrown := some (app "System`Throw" [.int 7]) } (.int 7)).1 (app "Global`f" [.int 1]) =
    .ok (state true, S "$Aborted") := rfl

/-- `x := h[x]` in an interrupted session. -/
def loopState : EState :=
  { defs := fun s => if s = "Global`x" then some { downvalues := [{ lhs := .expr [S "HoldPattern", .sym "Global`x"], rhs := app "Global`h" [.sym "Global`x"] }] } else none,
    interrupted := true }

/-- It is not stopped. -/
example : Diverges ctx loopState (.sym "Global`x") :=
  C96_symbol_not_stopped (h := "Global`h") (by decide +kernel) (by decide +kernel) rfl rfl rfl

end InterruptDemo

end Expreduce
