import Verif.Proofs.Sow
import Verif.Props.EvalEx

/-! Property C87: `Reap` returns what was sown. -/

namespace Expreduce
open Ex

/-- The functions of the interpreter other than `Sow` and `Reap` do not touch the list of sown values. -/
def OthersQuiet (c : Ctx) : Prop := (∀ s n ev st ps st' v, s ≠ "System`Sow" → s ≠ "System`Reap" → EvKeeps SownGrows ev → c.fn s n ev st ps = .ok (st', v) → SownGrows st st') ∧
  ∀ s ev st e st' v, EvKeeps SownGrows ev → c.find ev st s e = .ok (st', v) → SownGrows st st'

theorem SownGrows.refl (st : EState) : SownGrows st st := ⟨[], by cases st.sown <;> simp⟩
theorem SownGrows.trans (a b d : EState) : SownGrows a b → SownGrows b d → SownGrows a d := by
  rintro ⟨l, hl⟩ ⟨l', hl'⟩
  exact ⟨l ++ l', by rw [hl', hl]; cases a.sown <;> simp⟩

/-- C87: whatever is evaluated, as long as no `Reap` is evaluated nothing that has been sown is lost or reordered, and nothing starts to be recorded by itself. -/
theorem C87_nothing_lost {c : Ctx} (hc : c.Mono) (hq : OthersQuiet c) (hs : c.fn "System`Sow" = fun _ ev st ps => sowFn ev st ps)
    {st st' : EState} {e v : Ex} (h : Evals (c.without "System`Reap") st e st' v) : Evals c st e st' v ∧ SownGrows st st' := by
  refine ⟨h.of_without hc, ?_⟩
  obtain ⟨n, hn⟩ := h
  refine eval_keeps SownGrows.refl SownGrows.trans (c := c.without "System`Reap") ⟨?_, ?_⟩ n _ _ _ _ hn
  · intro s n ev st ps st' v hev hf
    simp only [Ctx.without] at hf
    split at hf
    · cases hf
    · rename_i hr
      by_cases hss : s = "System`Sow"
      · subst hss
        rw [hs] at hf
        simp only [sowFn] at hf
        split at hf
        · obtain ⟨q, h1, h2⟩ := Res.bind_ok hf
          cases h2
          exact SownGrows.trans _ _ _ (hev _ _ _ _ h1) ⟨[q.2], rfl⟩
        · cases hf; exact SownGrows.refl _
      · exact hq.1 _ _ _ _ _ _ _ hss hr hev hf
  · intro s ev st e st' v hev hf
    exact hq.2 _ _ _ _ _ _ hev hf

/-- C87: `Reap[e]` is `{v, {l}}` where `v` is the value of `e` and `l` the list of what `e` has sown, in order; what was sown before plays no part. -/
theorem C87_reap_partial {c : Ctx} (hc : c.Mono) (hsk : ∀ st e, c.skip st e = false) (hsame : ∀ e, c.same e e = true) {st st1 : EState} {e v : Ex} {l : List Ex}
    (hst : HasSow c st) (hst1 : HasSow c { st1 with sown := some [] }) (ht : st.thrown = none)
    (hpl : plainPart (attrsOf st "System`Reap") e)
    (he : Sows c { st with sown := some [] } e st1 v l)
    (hd : ∀ w ∈ v :: l, Done c { st1 with sown := some [] } w ∧ plainPart (attrsOf st1 "System`List") w) :
    Evals c st (app "System`Reap" [e]) { st1 with sown := some [] } (app "System`List" [v, app "System`List" [app "System`List" l]]) := by
  obtain ⟨he, ht1, hs1⟩ := he
  have hs1 : st1.sown = some l := by simpa using hs1
  obtain ⟨N, hN⟩ := he.at hc
  have hseq : ∀ ws : List Ex, (∀ w ∈ ws, Done c { st1 with sown := some [] } w) → ∀ i, EvalSeq c (holds (attrsOf st1 "System`List")) i { st1 with sown := some [] } ws { st1 with sown := some [] } ws := by
    intro ws
    induction ws with
    | nil => intro _ i; exact .nil
    | cons w ws ih =>
      intro h i
      exact .step (hst1.listHold i) (h w List.mem_cons_self) ht1 (ih (fun x hx => h x (List.mem_cons_of_mem _ hx)) _)
  have hlist : ∀ ws : List Ex, (∀ w ∈ ws, Done c { st1 with sown := some [] } w ∧ plainPart (attrsOf st1 "System`List") w) →
      Done c { st1 with sown := some [] } (app "System`List" ws) ∧ plainPart (attrsOf st1 "System`List") (app "System`List" ws) := by
    intro ws hws
    refine ⟨?_, ⟨.inr (.inr rfl), .inr rfl, rfl⟩⟩
    exact C26_arguments hc hsame ws ws (hsk _ _) hst1.list hst1.list rfl ht1 ht1 hst1.listPlain (hseq ws (fun w hw => (hws w hw).1) 1)
      (fun w hw => (hws w hw).2) (fun j hj _ => (hws _ (List.getElem_mem hj)).1)
  have hl := hlist l (fun w hw => hd w (List.mem_cons_of_mem _ hw))
  have hll := hlist [app "System`List" l] (by simpa using hl)
  have hv := hd v List.mem_cons_self
  have hres := hlist [v, app "System`List" [app "System`List" l]] (by simpa using ⟨hv, hll⟩)
  refine evals_builtin hc (hsk _ _) ht hst.reapCmd.noValue hst.reapCmd.plain hst.reapCmd.toBuiltin ?_
      (EvalSeq.hold (.inl ⟨hst.reapHold, rfl⟩) .nil) (by simpa using hpl) (F := fun _ ev st ps => reapFn ev st ps) ⟨N, ?_⟩ hres.1
  · intro ev e
    have := hst1.reapCmd.noRules ev e none
    have e1 : ({ st1 with sown := some [] } : EState) = { ({ st1 with sown := some [] } : EState) with thrown := none } := by
      rw [← ht1]
    rw [e1]
    exact this
  · intro n hn
    simp only [reapFn, hN n hn, Res.bind, hs1, reapResult, Res.ofOption]
    rfl

/-- C87: `Sow[e]` has the value of `e` and records it, behind what `e` itself sows. -/
theorem C87_sow {c : Ctx} (hc : c.Mono) (hsk : ∀ st e, c.skip st e = false) {st st1 : EState} {e v : Ex} {l : List Ex}
    (hst : HasSow c st) (hst1 : HasSow c st1) (hst2 : HasSow c (st1.record v)) (ht : st.thrown = none) (hpl : plainPart (attrsOf st "System`Sow") v)
    (he : Sows c st e st1 v l) (hd1 : Done c st1 v) (hd : Done c (st1.record v) v) :
    Sows c st (app "System`Sow" [e]) (st1.record v) v (l ++ [v]) := by
  obtain ⟨he, ht1, hs1⟩ := he
  obtain ⟨N, hN⟩ := hd1.at hc
  refine ⟨?_, ht1, ?_⟩
  · refine evals_builtin hc (hsk _ _) ht hst.sowCmd.noValue hst.sowCmd.plain hst1.sowCmd.toBuiltin ?_
      (EvalSeq.step (hst.sowHold 1) he ht1 .nil) (by simpa using hpl) (F := fun _ ev st ps => sowFn ev st ps) ⟨N, ?_⟩ hd
    · intro ev e
      have := hst2.sowCmd.noRules ev e none
      have e1 : st1.record v = { st1.record v with thrown := none } := by
        rw [← ht1]; rfl
      rw [e1]
      exact this
    · intro n hn
      simp only [sowFn, hN n hn, Res.bind]
  · simp only [EState.record, hs1]
    cases st.sown <;> simp

theorem SowSeq.evalSeq {c : Ctx} {held : Nat → Prop} {i st ps st' vs l} (h : SowSeq c held i st ps st' vs l) :
    EvalSeq c held i st ps st' vs ∧ st'.sown = st.sown.map (· ++ l) ∧ (st.thrown = none → st'.thrown = none) := by
  induction h with
  | nil => exact ⟨.nil, by simp, fun h => h⟩
  | hold hh _ ih => exact ⟨.hold hh ih.1, ih.2⟩
  | @step i st p ps st1 v l st' vs l' hh hp _ ih =>
    refine ⟨.step hh hp.1 hp.2.1 ih.1, ?_, fun _ => ih.2.2 hp.2.1⟩
    rw [ih.2.1, hp.2.2]
    cases st.sown <;> simp

/-- C87: the arguments of a function sow from left to right; held arguments sow nothing. -/
theorem C87_arguments {c : Ctx} (hc : c.Mono) (hsk : ∀ st e, c.skip st e = false) (hsame : ∀ e, c.same e e = true) {st st' : EState} {f : String} {args vals l : List Ex}
    (hi : FreeHead c st f) (hi' : FreeHead c st' f) (hat : attrsOf st' f = attrsOf st f)
    (ht : st.thrown = none) (ha : (attrsOf st f).noRearrange = true)
    (hseq : SowSeq c (holds (attrsOf st f)) 1 st args st' vals l) (hpl : ∀ a ∈ vals, plainPart (attrsOf st f) a)
    (hd : ∀ j (h : j < vals.length), ¬ holds (attrsOf st f) (j + 1) → Done c st' vals[j]) :
    Sows c st (app f args) st' (app f vals) l := by
  obtain ⟨h1, h2, h3⟩ := hseq.evalSeq
  exact ⟨C26_arguments hc hsame args vals (hsk _ _) hi hi' hat ht (h3 ht) ha h1 hpl hd, h3 ht, h2⟩

theorem compoundLoop_values {c : Ctx} (hc : c.Mono) {i st ps st1 vs} (h : EvalSeq c (fun _ => False) i st ps st1 vs)
    (hr : ∀ v ∈ vs, hasHead "System`Return" v = false) : ∃ N, ∀ n, N ≤ n → ∀ w, compoundLoop (eval c n) st ps w = .ok (st1, vs.getLastD w) := by
  induction h with
  | nil => exact ⟨0, fun n _ w => rfl⟩
  | hold hh _ _ => exact hh.elim
  | @step i st p ps st1 v st' vs hh hp ht _ ih =>
    obtain ⟨N, hN⟩ := hp.at hc
    obtain ⟨M, hM⟩ := ih (fun v hv => hr v (List.mem_cons_of_mem _ hv))
    refine ⟨max N M, fun n hn w => ?_⟩
    rw [compoundLoop, hN n (by omega)]
    simp only [Res.bind, ht, hr v List.mem_cons_self, Bool.false_eq_true, if_false]
    rw [hM n (by omega) v]
    cases vs <;> rfl

/-- C87: statements sow one after the other; the value is that of the last one. -/
theorem C87_statements {c : Ctx} (hc : c.Mono) (hsk : ∀ st e, c.skip st e = false) {st st' : EState} {p : Ex} {ps vs l : List Ex} {v : Ex}
    (hst : HasSow c st) (hst' : HasSow c st') (ht : st.thrown = none) (hpl : ∀ q ∈ p :: ps, plainPart (attrsOf st "System`CompoundExpression") q)
    (hseq : SowSeq c (fun _ => False) 1 st (p :: ps) st' vs l) (hr : ∀ v ∈ vs, hasHead "System`Return" v = false) (hv : vs.getLast? = some v) (hd : Done c st' v) :
    Sows c st (app "System`CompoundExpression" (p :: ps)) st' v l := by
  obtain ⟨h1, h2, h3⟩ := hseq.evalSeq
  obtain ⟨N, hN⟩ := compoundLoop_values hc h1 hr
  refine ⟨?_, h3 ht, h2⟩
  have hheld : ∀ i, holds (attrsOf st "System`CompoundExpression") i := fun i => .inr (.inr (.inl hst.compoundHold))
  refine evals_builtin hc (hsk _ _) ht hst.compoundCmd.noValue hst.compoundCmd.plain hst.compoundCmd.toBuiltin ?_
      (evalSeq_held (p :: ps) 1 (fun j _ => hheld j)) hpl (F := fun _ ev st ps => compoundFn ev st ps) ⟨N, ?_⟩ hd
  · intro ev e
    have := hst'.compoundCmd.noRules ev e none
    have e1 : st' = { st' with thrown := none } := by
      rw [← h3 ht]
    rw [e1]
    exact this
  · intro n hn
    simp only [compoundFn, hN n hn p]
    rw [List.getLastD_eq_getLast?, hv]
    rfl

namespace SowDemo

/-- The state: nothing is being recorded. -/
def st (l : Option (List Ex)) : EState := { defs := sowTable, sown := l }

/-- The functions of `sowReapFn`, no rules, expressions are compared exactly. -/
def ctx : Ctx := { fn := sowReapFn Demo.fmt, same := fun a b => decide (a = b) }

theorem fn_mono (fmt : Rat → String) (s : String) {n n' : Nat} (hn : n ≤ n') {ev ev' : Evaluator} (h : EvLe ev ev') (st : EState) (ps : List Ex) :
    (sowReapFn fmt s n ev st ps).Le (sowReapFn fmt s n' ev' st ps) := by
  unfold sowReapFn
  split
  · unfold sowFn
    split
    · exact .bind (h _ _) (fun _ => .refl _)
    · exact .refl _
  · split
    · unfold reapFn
      split
      · exact .bind (h _ _) (fun _ => .refl _)
      · exact .refl _
    · exact flowFn_mono fmt s hn h st ps

theorem mono : ctx.Mono := ⟨fun s _ _ _ _ st ps hn h => fn_mono Demo.fmt s hn h st ps, fun _ _ _ _ _ _ => .refl _⟩
theorem same (e : Ex) : ctx.same e e = true := by simp [ctx]
theorem quiet : OthersQuiet ctx := by
  refine ⟨?_, fun _ _ _ _ _ _ _ h => by cases h; exact SownGrows.refl _⟩
  intro s n ev st ps st' v h1 h2 hev hf
  simp only [ctx, sowReapFn, if_neg h1, if_neg h2] at hf
  unfold flowFn at hf
  split at hf
  · unfold throwFn at hf
    split at hf <;> · cases hf; exact ⟨[], by simp⟩
  split at hf
  · unfold catchFn at hf
    split at hf
    · obtain ⟨q, h3, h4⟩ := Res.bind_ok hf
      have := hev _ _ _ _ h3
      split at h4
      · cases h4; exact this
      · cases h4; exact this
      · cases h4
    · cases hf; exact SownGrows.refl _
  split at hf
  · unfold compoundFn at hf
    split at hf
    · rename_i p rest
      generalize p :: rest = l at hf
      revert hf
      generalize hw : p = w
      clear hw
      intro hf
      induction l generalizing st w with
      | nil => cases hf; exact SownGrows.refl _
      | cons p l ih =>
        rw [compoundLoop] at hf
        obtain ⟨q, h3, h4⟩ := Res.bind_ok hf
        have := hev _ _ _ _ h3
        split at h4
        · cases h4; exact this
        · split at h4
          · cases h4; exact this
          · exact SownGrows.trans _ _ _ this (ih _ _ h4)
    · cases hf
  split at hf
  · unfold whileFn at hf
    split at hf
    · induction n generalizing st with
      | zero => cases hf
      | succ n ih =>
        rw [whileLoop] at hf
        obtain ⟨q, h3, h4⟩ := Res.bind_ok hf
        have h5 := hev _ _ _ _ h3
        split at h4
        · obtain ⟨q', h6, h7⟩ := Res.bind_ok h4
          have h8 := SownGrows.trans _ _ _ h5 (hev _ _ _ _ h6)
          split at h7
          · cases h7; exact h8
          · split at h7
            · cases h7; exact h8
            · exact SownGrows.trans _ _ _ h8 (ih _ h7)
        · cases h4; exact h5
    · cases hf; exact SownGrows.refl _
  split at hf
  · unfold whichFn at hf
    split at hf
    · cases hf; exact SownGrows.refl _
    · revert hf
      generalize ps.tail = l
      intro hf
      fun_induction whichLoop ev st l with
      | case1 st cond val rest ih =>
        obtain ⟨q, h3, h4⟩ := Res.bind_ok hf
        have h5 := hev _ _ _ _ h3
        split at h4
        · cases h4; exact h5
        · exact SownGrows.trans _ _ _ h5 (ih _ h4)
      | case2 => cases hf; exact SownGrows.refl _
  split at hf
  · unfold ifFn at hf
    split at hf <;> · cases hf; exact SownGrows.refl _
  · cases hf; exact SownGrows.refl _

theorem no_holds {a : Attrs} (h1 : a.holdFirst = false) (h2 : a.holdRest = false) (h3 : a.holdAll = false) (h4 : a.holdAllComplete = false) (i : Nat) : ¬ holds a i := by
  rintro (⟨h, -⟩ | ⟨h, -⟩ | h | h) <;> simp_all

theorem hasSow (l : Option (List Ex)) : HasSow ctx (st l) where
  sowCmd := ⟨⟨rfl, rfl, rfl⟩, rfl, fun _ _ _ => rfl⟩
  sowHold := no_holds rfl rfl rfl rfl
  reapCmd := ⟨⟨rfl, rfl, rfl⟩, rfl, fun _ _ _ => rfl⟩
  reapHold := rfl
  compoundCmd := ⟨⟨rfl, rfl, rfl⟩, rfl, fun _ _ _ => rfl⟩
  compoundHold := rfl
  list := ⟨rfl, rfl, fun _ _ => rfl⟩
  listHold := no_holds rfl rfl rfl rfl
  listPlain := rfl

theorem done_int (l : Option (List Ex)) (n : Int) : Done ctx (st l) (.int n) := ⟨1, rfl⟩
theorem plain_app (a : Attrs) (f : String) (args : List Ex) (h : f ≠ "System`Sequence" ∧ f ≠ "System`Evaluate" ∧ f ≠ "System`Unevaluated") : plainPart a (app f args) := by
  refine ⟨.inr (.inr ?_), .inr ?_, ?_⟩ <;> simp [hasHead, argsOf, app, h]

theorem sow_int (l : Option (List Ex)) (n : Int) : Sows ctx (st l) (app "System`Sow" [.int n]) (st (l.map (· ++ [.int n]))) (.int n) [.int n] :=
  C87_sow (l := []) mono (fun _ _ => rfl) (hasSow l) (hasSow l) (hasSow _) rfl (Demo.plain_int _ _) ⟨done_int _ _, rfl, by cases l <;> simp [st]⟩ (done_int _ _) (done_int _ _)

/-- `f[Sow[1], Sow[2]]; Sow[3]` -/
def program : Ex := app "System`CompoundExpression" [app "Global`f" [app "System`Sow" [.int 1], app "System`Sow" [.int 2]], app "System`Sow" [.int 3]]

/-- It sows 1, 2, 3 … -/
theorem program_sows : Sows ctx (st (some [])) program (st (some [.int 1, .int 2, .int 3])) (.int 3) [.int 1, .int 2, .int 3] := by
  have hf : ∀ l, FreeHead ctx (st l) "Global`f" := fun l => ⟨rfl, rfl, fun _ _ => rfl⟩
  have h1 : Sows ctx (st (some [])) (app "Global`f" [app "System`Sow" [.int 1], app "System`Sow" [.int 2]]) (st (some [.int 1, .int 2])) (app "Global`f" [.int 1, .int 2]) [.int 1, .int 2] := by
    refine C87_arguments mono (fun _ _ => rfl) same (hf _) (hf _) rfl rfl rfl
      (.step (no_holds rfl rfl rfl rfl _) (sow_int _ 1) (.step (no_holds rfl rfl rfl rfl _) (sow_int _ 2) .nil)) ?_ ?_
    · intro a ha
      simp only [List.mem_cons, List.not_mem_nil, or_false] at ha
      rcases ha with rfl | rfl <;> exact Demo.plain_int _ _
    · intro j hj _
      match j, hj with
      | 0, _ => exact done_int _ _
      | 1, _ => exact done_int _ _
  refine C87_statements (vs := [app "Global`f" [.int 1, .int 2], .int 3]) mono (fun _ _ => rfl) (hasSow _) (hasSow _) rfl ?_ (.step (fun h => h) h1 (.step (fun h => h) (sow_int _ 3) .nil)) ?_ rfl (done_int _ _)
  · intro q hq
    simp only [List.mem_cons, List.not_mem_nil, or_false] at hq
    rcases hq with rfl | rfl <;> exact plain_app _ _ _ ⟨by decide, by decide, by decide⟩
  · intro q hq
    simp only [List.mem_cons, List.not_mem_nil, or_false] at hq
    rcases hq with rfl | rfl <;> rfl

/-- … and `Reap` of it is `{3, {{1, 2, 3}}}`, whatever was recorded before. -/
theorem program_reaped (l : Option (List Ex)) : Evals ctx (st l) (app "System`Reap" [program]) (st (some []))
    (app "System`List" [.int 3, app "System`List" [app "System`List" [.int 1, .int 2, .int 3]]]) := by
  refine C87_reap_partial mono (fun _ _ => rfl) same (hasSow l) (hasSow _) rfl (plain_app _ _ _ ⟨by decide, by decide, by decide⟩) program_sows ?_
  intro w hw
  simp only [List.mem_cons, List.not_mem_nil, or_false] at hw
  rcases hw with rfl | rfl | rfl | rfl <;> exact ⟨done_int _ _, Demo.plain_int _ _⟩

/-- No `Reap` is called in the program, so `C87_nothing_lost` speaks about it. -/
example : ∃ st' v, Evals (ctx.without "System`Reap") (st (some [.int 0])) program st' v ∧ SownGrows (st (some [.int 0])) st' := by
  have h : Evals (ctx.without "System`Reap") (st (some [.int 0])) program (st (some [.int 0, .int 1, .int 2, .int 3])) (.int 3) := ⟨20, by set_option maxRecDepth 20000 in rfl⟩
  exact ⟨_, _, h, (C87_nothing_lost mono quiet rfl h).2⟩

end SowDemo

open SowDemo in
/-- C87 is false of nested calls: an inner `Reap` throws away what the outer one has collected so far. `Reap[Sow[1]; Reap[Sow[2]]; Sow[3]]` is `{3, {{3}}}`, the 1 is lost. -/
theorem C87_nested_wrong : Evals ctx (st none)
    (app "System`Reap" [app "System`CompoundExpression" [app "System`Sow" [.int 1], app "System`Reap" [app "System`Sow" [.int 2]], app "System`Sow" [.int 3]]])
    (st (some [])) (app "System`List" [.int 3, app "System`List" [app "System`List" [.int 3]]]) := ⟨20, by set_option maxRecDepth 20000 in rfl⟩

open SowDemo in
/-- C87: outside of `Reap` nothing is recorded. -/
theorem C87_outside (n : Int) : Evals ctx (st none) (app "System`Sow" [.int n]) (st none) (.int n) := (sow_int none n).1

end Expreduce
