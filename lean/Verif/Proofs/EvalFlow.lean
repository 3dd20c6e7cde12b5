import Verif.Proofs.EvalIdem

/-! Flow control. -/

namespace Expreduce
open Ex

theorem whileLoop_mono {ev ev' : Evaluator} (h : EvLe ev ev') (cond body : Ex) :
    ∀ n n', n ≤ n' → ∀ st, (whileLoop ev cond body n st).Le (whileLoop ev' cond body n' st) := by
  intro n
  induction n with
  | zero => intro _ _ _; exact Or.inl rfl
  | succ n ih =>
    intro n' hn st
    obtain ⟨n', rfl⟩ : ∃ j, n' = j + 1 := ⟨n' - 1, by omega⟩
    unfold whileLoop
    refine .bind (h _ _) (fun r => ?_)
    split
    · refine .bind (h _ _) (fun q => ?_)
      cases tryReturn q.1 q.2 with
      | some v => exact .refl _
      | none =>
        simp only
        split
        · exact .refl _
        · exact ih _ (by omega) _
    · exact .refl _

theorem whichLoop_mono {ev ev' : Evaluator} (h : EvLe ev ev') : ∀ (ps : List Ex) (st : EState), (whichLoop ev st ps).Le (whichLoop ev' st ps)
  | [], _ => .refl _
  | [_], _ => .refl _
  | _ :: _ :: rest, _ => by
    unfold whichLoop
    refine .bind (h _ _) (fun r => ?_)
    split
    · exact .refl _
    · exact whichLoop_mono h rest _

theorem compoundLoop_mono {ev ev' : Evaluator} (h : EvLe ev ev') (ps : List Ex) :
    ∀ st v, (compoundLoop ev st ps v).Le (compoundLoop ev' st ps v) := by
  induction ps with
  | nil => intro _ _; exact .refl _
  | cons p ps ih =>
    intro st v
    unfold compoundLoop
    refine .bind (h _ _) (fun r => ?_)
    cases r.1.thrown with
    | some t => exact .refl _
    | none =>
      simp only
      split
      · exact .refl _
      · exact ih _ _

theorem flowFn_mono (fmt : Rat → String) (s : String) {n n' : Nat} (hn : n ≤ n') {ev ev' : Evaluator} (h : EvLe ev ev') (st : EState) (ps : List Ex) :
    (flowFn fmt s n ev st ps).Le (flowFn fmt s n' ev' st ps) := by
  unfold flowFn
  split
  · exact .refl _
  split
  · unfold catchFn
    split
    · exact .bind (h _ _) (fun r => .refl _)
    · exact .refl _
  split
  · unfold compoundFn
    split
    · exact compoundLoop_mono h _ _ _
    · exact .refl _
  split
  · unfold whileFn
    split
    · exact whileLoop_mono h _ _ _ _ hn _
    · exact .refl _
  split
  · unfold whichFn
    split
    · exact .refl _
    · exact whichLoop_mono h _ _
  split <;> exact .refl _

theorem flowCtx_mono (fmt : Rat → String) : (flowCtx fmt).Mono :=
  ⟨fun s n n' ev ev' st ps hn h => flowFn_mono fmt s hn h st ps, fun _ _ _ _ _ _ => .refl _⟩

theorem same_refl (fmt : Rat → String) (e : Ex) : (flowCtx fmt).same e e = true := by simp [flowCtx]

theorem isSameQ_expr_self (ps : List Ex) : isSameQ (.expr ps) (.expr ps) = true := by
  simp [isSameQ]

/-- A built-in function whose arguments are ready. -/
theorem evals_builtin {c : Ctx} (hc : c.Mono) {st st1 st2 : EState} {f : String} {args vs : List Ex} {F} {v : Ex}
    (hskip : c.skip st (app f args) = false) (ht : st.thrown = none) (hv : getSymDef st.toDState f = none)
    (hplain : (attrsOf st f).noRearrange = true) (hb : Builtin c st1 f F)
    (hfind : ∀ ev e, c.find ev st2 f e = .ok (st2, none))
    (hseq : EvalSeq c (holds (attrsOf st f)) 1 st args st1 vs) (hpl : ∀ w ∈ vs, plainPart (attrsOf st f) w)
    (hF : ∃ N, ∀ n, N ≤ n → F n (eval c n) st1 (.sym f :: vs) = .ok (st2, v)) (hd : Done c st2 v) :
    Evals c st (app f args) st2 v := by
  obtain ⟨N, hN⟩ := hF
  obtain ⟨M, hM⟩ := evalArgs_app hc hv ht (attrsOf st f) hseq
  refine evals_of_pass_done hc (N := max N M) hskip (fun n hn => ?_) hd
  have hspl : spliceParts (eval c n) true (attrsOf st f) st1 (.sym f :: vs) = .ok (st1, .sym f :: vs) := by
    refine spliceParts_plain _ _ _ _ ?_
    intro p hp
    rcases List.mem_cons.1 hp with rfl | hp
    · exact plain_sym _ _
    · exact hpl p hp
  rw [pass_builtin hplain hb (hM n (by omega)) hspl, hN n (by omega)]
  simp only [Res.bind]
  split
  · rw [hfind]; rfl
  · rfl

theorem done_pending {c : Ctx} (hc : c.Mono) {st : EState} {f : String} {args : List Ex} (ht : st.thrown = some (app f args))
    (hv : getSymDef st.toDState f = none) (ha : (attrsOf st f).noRearrange = true)
    (hh : (attrsOf st f).holdAll = false) (hhc : (attrsOf st f).holdAllComplete = false) : Done c st (app f args) := by
  cases hs : c.skip st (app f args) with
  | true => exact ⟨1, by show evalLoop _ _ _ _ _ _ _ _ = _; exact evalLoop_skip (by simp) hs⟩
  | false =>
    refine pending_call hc ht hv ?_ hh hhc hs
    simp only [Attrs.noRearrange, Bool.and_eq_true, Bool.not_eq_true'] at ha
    simp [conditional, ha.2]

theorem compoundLoop_throw {c : Ctx} (hc : c.Mono) {i st left st1 vs} (h : EvalSeq c (fun _ => False) i st left st1 vs)
    (hr : ∀ v ∈ vs, hasHead "System`Return" v = false) {p st2 t} (hp : Evals c st1 p st2 t) (ht : st2.thrown = some t) (right : List Ex) :
    ∃ N, ∀ n, N ≤ n → ∀ w, compoundLoop (eval c n) st (left ++ p :: right) w = .ok (st2, t) := by
  induction h with
  | nil =>
    obtain ⟨N, hN⟩ := hp.at hc
    refine ⟨N, fun n hn w => ?_⟩
    rw [List.nil_append, compoundLoop, hN n hn]
    simp [Res.bind, ht]
  | hold h1 _ _ => exact h1.elim
  | @step i st q qs st1' v st' vs h1 h2 h3 _ ih =>
    obtain ⟨N, ih⟩ := ih (fun v hv => hr v (by simp [hv])) hp
    obtain ⟨M, h2⟩ := h2.at hc
    refine ⟨max N M, fun n hn w => ?_⟩
    rw [List.cons_append, compoundLoop, h2 n (by omega)]
    simp only [Res.bind, h3, hr v (by simp), Bool.false_eq_true, if_false]
    exact ih n (by omega) v

theorem Command.withThrown {c : Ctx} {f : String} {F} {st : EState} (h : Command c f F st) (th : Option Ex) : Command c f F { st with thrown := th } :=
  ⟨⟨h.noValue, h.builtin, h.fn⟩, h.plain, fun ev e th' => h.noRules ev e th'⟩

theorem HasThrow.withThrown {c : Ctx} {st : EState} (h : HasThrow c st) (th : Option Ex) : HasThrow c { st with thrown := th } :=
  ⟨h.throwCmd.withThrown th, h.throwHold, h.catchCmd.withThrown th, h.catchHold, h.compoundCmd.withThrown th, h.compoundHold⟩

theorem not_holds_throw {c : Ctx} {st : EState} (h : HasThrow c st) : ¬ holds (attrsOf st "System`Throw") 1 := by
  rintro (⟨h1, -⟩ | ⟨-, h1⟩ | h1 | h1)
  · simp [h.throwHold.2.2] at h1
  · omega
  · simp [h.throwHold.1] at h1
  · simp [h.throwHold.2.1] at h1

theorem throwPath_thrown {c : Ctx} {st e st' t} (h : ThrowPath c st e st' t) : st'.thrown = some t ∧ ∃ v, t = app "System`Throw" [v] := by
  induction h with
  | here => exact ⟨rfl, _, rfl⟩
  | arg _ _ _ _ _ _ ih => exact ih
  | stmt _ _ _ _ _ _ _ ih => exact ih

theorem throwPath_evals {c : Ctx} (hc : c.Mono) (hsk : ∀ st e, c.skip st e = false) {st e st' t} (h : ThrowPath c st e st' t) : Evals c st e st' t := by
  induction h with
  | @here st p st1 v h1 h2 ht hp ht1 hpl =>
    refine evals_builtin hc (hsk _ _) ht h1.throwCmd.noValue h1.throwCmd.plain h2.throwCmd.toBuiltin ?_
      (EvalSeq.step (not_holds_throw h1) hp ht1 .nil) (by simpa using hpl) (F := fun _ _ st ps => throwFn st ps) ?_ ?_
    · intro ev e
      exact (h2.throwCmd.withThrown _).noRules ev e (some (app "System`Throw" [v]))
    · exact ⟨0, fun n _ => rfl⟩
    · exact done_pending hc rfl (h2.withThrown _).throwCmd.noValue (h2.withThrown _).throwCmd.plain (h2.withThrown _).throwHold.1
        (h2.withThrown _).throwHold.2.1
  | @arg st f left st1 vs p st2 t right ht hv hcond hseq hn hp ih =>
    exact throws_call hc (hsk _ _) ht hv hcond hseq hn ⟨⟨t, ih⟩, (throwPath_thrown hp).1⟩
  | @stmt st left st1 vs p st2 t right h1 h2 ht hseq hr hpl hp ih =>
    obtain ⟨hth, v, rfl⟩ := throwPath_thrown hp
    have hhold : ∀ ps i, EvalSeq c (holds (attrsOf st "System`CompoundExpression")) i st ps st ps := by
      intro ps
      induction ps with
      | nil => intro i; exact .nil
      | cons q qs ihq => intro i; exact .hold (Or.inr (Or.inr (Or.inl h1.compoundHold))) (ihq _)
    refine evals_builtin hc (hsk _ _) ht h1.compoundCmd.noValue h1.compoundCmd.plain h1.compoundCmd.toBuiltin ?_
      (hhold _ _) hpl (F := fun _ ev st ps => compoundFn ev st ps) ?_ ?_
    · intro ev e
      exact h2.compoundCmd.noRules ev e st2.thrown
    · obtain ⟨N, hN⟩ := compoundLoop_throw hc hseq hr ih hth right
      refine ⟨N, fun n hn => ?_⟩
      have hne : ∃ q qs, left ++ p :: right = q :: qs := by
        cases left with
        | nil => exact ⟨_, _, rfl⟩
        | cons q qs => exact ⟨_, _, rfl⟩
      obtain ⟨q, qs, hq⟩ := hne
      have := hN n hn
      rw [hq] at this ⊢
      exact this q
    · exact done_pending hc hth h2.throwCmd.noValue h2.throwCmd.plain h2.throwHold.1 h2.throwHold.2.1

end Expreduce
