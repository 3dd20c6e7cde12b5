import Verif.Spec.AssignProg
import Verif.Proofs.IterFn
import Verif.Props.Compare

/-! Evaluation of assignments. -/

namespace Expreduce
open Ex
namespace AssignProg

variable {A : AlgParams} {strLen : Ex → Nat} {fmt : Rat → String}

theorem mono : (ctx A strLen fmt).Mono := by
  refine ⟨fun s n n' ev ev' st ps hn h => ?_, fun _ _ _ _ _ _ => .refl _⟩
  simp only [ctx, fn]
  repeat' split
  all_goals first | exact .refl _ | exact flowFn_mono fmt s hn h st ps

theorem sorts (l : List Ex) : ((ctx A strLen fmt).sort l).Perm l := insertionSort_perm _ _

theorem same_refl' (e : Ex) : (ctx A strLen fmt).same e e = true := by simp [ctx]

/-- The pass of a built-in function that gives a value other than the call. -/
theorem pass_cmd {c : Ctx} (hc : c.Mono) {st st1 st2 : EState} {f : String} {args vs : List Ex} {F} {v : Ex}
    (ht : st.thrown = none) (hv : getSymDef st.toDState f = none)
    (hplain : (attrsOf st f).noRearrange = true) (hb : Builtin c st1 f F)
    (hseq : EvalSeq c (holds (attrsOf st f)) 1 st args st1 vs) (hpl : ∀ w ∈ vs, plainPart (attrsOf st f) w)
    (hF : ∃ N, ∀ n, N ≤ n → F n (eval c n) st1 (.sym f :: vs) = .ok (st2, v)) (hfind : ∀ ev e, c.find ev st2 f e = .ok (st2, none)) :
    ∃ N, ∀ n, N ≤ n → pass c n (eval c n) st (.sym f :: args) = .ok (st2, .next v false) := by
  obtain ⟨N, hN⟩ := hF
  obtain ⟨M, hM⟩ := evalArgs_app hc hv ht (attrsOf st f) hseq
  refine ⟨max N M, fun n hn => ?_⟩
  have hspl : spliceParts (eval c n) true (attrsOf st f) st1 (.sym f :: vs) = .ok (st1, .sym f :: vs) := by
    refine spliceParts_plain _ _ _ _ ?_
    intro p hp
    rcases List.mem_cons.1 hp with rfl | hp
    · exact plain_sym _ _
    · exact hpl p hp
  rw [pass_builtin hplain hb (hM n (by omega)) hspl, hN n (by omega)]
  simp only [Res.bind]
  split
  · rw [hfind]; rfl
  · rfl

/-- Where evaluation ends: at an expression that the next pass leaves alone. -/
def Final (c : Ctx) (st : EState) (v : Ex) : Prop :=
  (∀ ps, v ≠ .expr ps) ∧ Done c st v ∨
  ∃ ps N, v = .expr ps ∧ tryReturn st v = none ∧ c.skip st v = false ∧ ∀ n, N ≤ n → pass c n (eval c n) st ps = .ok (st, .next v false)

theorem Final.loop {c : Ctx} (hc : c.Mono) (hs : ∀ e, c.same e e = true) {st : EState} {v : Ex} (h : Final c st v) :
    ∃ N, ∀ n, N ≤ n → ∀ k, N ≤ k → ∀ b last, evalLoop c n (eval c n) k st b last v = .ok (st, v) := by
  rcases h with ⟨ha, hd⟩ | ⟨ps, N, rfl, ht, hk, hp⟩
  · obtain ⟨N, hN⟩ := hd.at hc
    refine ⟨N + 1, fun n hn k hk b last => ?_⟩
    obtain ⟨k, rfl⟩ : ∃ j, k = j + 1 := ⟨k - 1, by omega⟩
    cases hu : unchanged c last v with
    | true => exact evalLoop_same hu
    | false =>
      cases v with
      | expr ps => exact absurd rfl (ha ps)
      | _ => unfold evalLoop; rw [if_neg (by simp [hu])]; exact hN n (by omega)
  · refine ⟨N + 2, fun n hn k hk' b last => ?_⟩
    obtain ⟨k, rfl⟩ : ∃ j, k = j + 2 := ⟨k - 2, by omega⟩
    cases hu : unchanged c last (.expr ps) with
    | true => exact evalLoop_same hu
    | false =>
      rw [evalLoop_next hu (fun _ => ht) hk (hp n (by omega))]
      exact evalLoop_same (by simp [unchanged, hs])

theorem Final.done {c : Ctx} (hc : c.Mono) (hs : ∀ e, c.same e e = true) {st : EState} {v : Ex} (h : Final c st v) : Done c st v := by
  have h' := h
  rcases h with ⟨_, hd⟩ | ⟨ps, N, rfl, _⟩
  · exact hd
  · obtain ⟨M, hM⟩ := h'.loop hc hs
    exact ⟨M + 1, by rw [eval_expr]; exact hM M (Nat.le_refl _) (M + 1) (by omega) false none⟩

/-- A call that a rule turns into a call of a built-in function. -/
theorem evals_by_rule {c : Ctx} (hc : c.Mono) (hs : ∀ e, c.same e e = true) {st st1 st2 : EState} {f : String} {args vs qs : List Ex} {v : Ex} {N : Nat}
    (hskip : ∀ st e, c.skip st e = false) (ht : st.thrown = none) (hv : getSymDef st.toDState f = none)
    (hplain : (attrsOf st f).noRearrange = true) (hnb : hasBuiltin st1 f = false)
    (hseq : EvalSeq c (holds (attrsOf st f)) 1 st args st1 vs) (hpl : ∀ w ∈ vs, plainPart (attrsOf st f) w)
    (hfind : ∀ ev, c.find ev st1 f (app f vs) = .ok (st1, some (.expr qs)))
    (hne : c.same (app f args) (.expr qs) = false) (hret : tryReturn st1 (.expr qs) = none)
    (hbody : ∀ n, N ≤ n → pass c n (eval c n) st1 qs = .ok (st2, .next v false)) (hd : Final c st2 v) : Evals c st (app f args) st2 v := by
  obtain ⟨M, hM⟩ := evalArgs_app hc hv ht (attrsOf st f) hseq
  obtain ⟨K, hK⟩ := hd.loop hc hs
  have hna := hplain
  simp only [Attrs.noRearrange, Bool.and_eq_true, Bool.not_eq_true'] at hna
  have hp : ∀ n, M ≤ n → pass c n (eval c n) st (.sym f :: args) = .ok (st1, .next (.expr qs) true) := by
    intro n hn
    have hspl : spliceParts (eval c n) true (attrsOf st f) st1 (.sym f :: vs) = .ok (st1, .sym f :: vs) := by
      refine spliceParts_plain _ _ _ _ ?_
      intro p hp
      rcases List.mem_cons.1 hp with rfl | hp
      · exact plain_sym _ _
      · exact hpl p hp
    have hcond : conditional (attrsOf st f) (.sym f :: args) = none := by simp [conditional, hna.2]
    rw [app] at hfind
    simp [pass, headAttrs, hcond, hM n hn, Res.bind, callSym, afterArgs, hspl, symbolCase, hna, applyDefs, hnb, hfind]
  refine ⟨max (max M N) K + 2, ?_⟩
  rw [app, eval_expr, evalLoop_next rfl (by simp) (hskip _ _) (hp _ (by omega))]
  rw [evalLoop_next (by simpa [unchanged, app] using hne) (fun _ => hret) (hskip _ _) (hbody _ (by omega))]
  exact hK _ (by omega) _ (by omega) _ _

/-! ### The session -/

section
variable {st st' : EState}

theorem Shell.entryOf (h : Shell st) {f : String} {d : DefM} (hm : (f, d) ∈ entries) : st.defs f = some d := h.entry _ hm

theorem Becomes.shell {x : String} {v : Ex} (hb : Becomes st x v st') (h : Shell st) (hx : x ∉ reserved) : Shell st' := by
  have hd : ∀ y ∈ reserved, st'.defs y = st.defs y := fun y hy => hb.others y (by rintro rfl; exact hx hy)
  have hg : ∀ y ∈ reserved, getSymDef st'.toDState y = getSymDef st.toDState y := fun y hy => by simp [getSymDef, hd y hy]
  refine ⟨fun p hp => ?_, fun s hs => ?_, ?_, hb.thrown.trans h.notThrown, hb.interrupted.trans h.notInterrupted, hb.frozen.trans h.notFrozen⟩
  · rw [hd _ (by simp only [reserved, List.mem_cons]; exact .inr (.inr (.inr (.inr (List.mem_map_of_mem hp)))))]; exact h.entry p hp
  · rw [hg s (by
      simp only [List.mem_cons, List.not_mem_nil, or_false] at hs
      rcases hs with rfl | rfl | rfl | rfl <;> simp [reserved])]
    exact h.noValue s hs
  · have := hd "System`List" (by simp [reserved])
    simp only [hasBuiltin, attrsOf, rulesFor, this]
    exact h.list

theorem Becomes.variable {x : String} {v : Ex} (hb : Becomes st x v st') (h : Variable st x) : Variable st' x := ⟨h.named, h.user, hb.rules⟩

/-- A second variable is not touched. -/
theorem Becomes.keeps {x y : String} {v w : Ex} (hb : Becomes st x v st') (hxy : y ≠ x) (h : HasValue st y w) : HasValue st' y w := by
  unfold HasValue getSymDef at h ⊢
  rw [hb.others y hxy]; exact h

theorem define_becomes (h : Shell st) {x : String} (hx : Variable st x) {v : Ex} (hv : Unconditional v) :
    ∃ st', defineIn strLen st (.sym x) v = .ok st' ∧ Becomes st x v st' := by
  obtain ⟨d, h1, h2, h3, h4, h5⟩ := define_symbol (strLen := strLen) hx.named h.notFrozen hx.rules hv
  refine ⟨{ st with toDState := d }, by simp [defineIn, h1], ⟨h2, h5, rfl, rfl, rfl, h4.trans h.notFrozen.symm, h3⟩⟩

/-- The entry of a function without rules. -/
theorem find_none (h : Shell st) {f : String} {d : DefM} (hm : (f, d) ∈ entries) (hd : d.downvalues = []) (ev : Evaluator) (e : Ex) :
    (ctx A strLen fmt).find ev st f e = .ok (st, none) := by
  simp [ctx, algFind, getDef, h.entryOf hm, hd, rulesReplace]

theorem builtin_of (h : Shell st) {f : String} {d : DefM} (hm : (f, d) ∈ entries) (hd : d.builtin = true) (hv : (d.downvalues.find? (fun dv => isSymbolRule dv.lhs)) = none)
    {F} (hF : fn A strLen fmt f = F) : Builtin (ctx A strLen fmt) st f F :=
  ⟨by simp [getSymDef, h.entryOf hm, hv], by simp [hasBuiltin, h.entryOf hm, hd], hF⟩

theorem attrs_of (h : Shell st) {f : String} {d : DefM} (hm : (f, d) ∈ entries) : attrsOf st f = d.attrs := by simp [attrsOf, h.entryOf hm]

/-! ### Values -/

theorem done_int (n : Int) : Done (ctx A strLen fmt) st (.int n) := ⟨1, rfl⟩
theorem final_int (n : Int) : Final (ctx A strLen fmt) st (.int n) := .inl ⟨by simp, done_int n⟩
theorem final_flt (q : Rat) : Final (ctx A strLen fmt) st (.flt q) := .inl ⟨by simp, ⟨1, rfl⟩⟩

theorem done_sym {s : String} (h : getSymDef st.toDState s = none) : Done (ctx A strLen fmt) st (.sym s) := ⟨1, evalSymbol_none h 0⟩
theorem final_sym {s : String} (h : getSymDef st.toDState s = none) : Final (ctx A strLen fmt) st (.sym s) := .inl ⟨by simp, done_sym h⟩

theorem evals_var {x : String} {v : Ex} (hi : st.interrupted = false) (hv : HasValue st x v) (hd : Done (ctx A strLen fmt) st v)
    (hr : hasHead "System`Return" v = false) (hn : v ≠ .sym x) : Evals (ctx A strLen fmt) st (.sym x) st v := by
  obtain ⟨N, hN⟩ := hd
  refine ⟨N + 1, ?_⟩
  have hr' : argsOf "System`Return" v = none := (argsOf_noneE _ _).2 hr
  show evalSymbol _ _ _ = _
  rw [HasValue] at hv
  simp [evalSymbol, hv, evalDef, hn, hN, Res.bind, tryReturn, hi, hr']

end

/-! ### Arithmetic -/

/-- A number that is not a complex one. -/
def isNum : Ex → Bool
  | .int _ => true
  | .flt _ => true
  | _ => false

theorem pass_arith {f : String} (F : List Ex → Ex) {st st1 st2 : EState} (h : Shell st) (ht1 : st1.thrown = none) (h' : Shell st2)
    (hf : f = "System`Plus" ∧ F = plusEval A.toN ∨ f = "System`Times" ∧ F = timesEval A.toN) {e1 e2 p q r : Ex}
    (hcond : propagate [.sym f, e1, e2] = none)
    (h1 : Evals (ctx A strLen fmt) st e1 st1 p) (h2 : Evals (ctx A strLen fmt) st1 e2 st2 q) (hp : isNum p = true) (hq : isNum q = true)
    (hpq : F [p, q] = r) (hqp : F [q, p] = r) : 
    ∃ N, ∀ n, N ≤ n → pass (ctx A strLen fmt) n (eval (ctx A strLen fmt) n) st [.sym f, e1, e2] = .ok (st2, .next r false) := by
  have hm : (f, ({ attrs := arithAttrs, builtin := true } : DefM)) ∈ entries := by rcases hf with ⟨rfl, -⟩ | ⟨rfl, -⟩ <;> simp [entries]
  have hd := h.entryOf hm
  have hnv : getSymDef st.toDState f = none := by simp [getSymDef, hd]
  have ha : attrsOf st f = arithAttrs := by simp [attrsOf, hd]
  have hb : hasBuiltin st2 f = true := by simp [hasBuiltin, h'.entryOf hm]
  have hfn : ∀ n ev st ps, (ctx A strLen fmt).fn f n ev st ps = .ok (st, F ps.tail) := by
    intro n ev st ps
    rcases hf with ⟨rfl, rfl⟩ | ⟨rfl, rfl⟩ <;> simp [ctx, fn]
  have hseq : EvalSeq (ctx A strLen fmt) (holds arithAttrs) 1 st [e1, e2] st2 [p, q] := by
    have : holds arithAttrs = fun _ => False := by funext i; simp [holds, arithAttrs]
    rw [this]; exact .step (by simp) h1 ht1 (.step (by simp) h2 h'.notThrown .nil)
  obtain ⟨N, hN⟩ := evalArgs_app mono hnv h.notThrown _ hseq
  refine ⟨N, fun n hn => ?_⟩
  have hpl : ∀ e, isNum e = true → plainPart arithAttrs e ∧ hasHead f e = false ∧ argsOf "System`List" e = none := by
    intro e he
    cases e <;> simp [isNum] at he
    all_goals exact ⟨⟨.inr (.inr rfl), .inr rfl, rfl⟩, rfl, rfl⟩
  have hcnd : conditional arithAttrs [.sym f, e1, e2] = none := by simp [conditional, arithAttrs, hcond]
  simp only [pass, headAttrs, ha, hcnd, hN n hn, Res.bind, callSym, afterArgs, Option.isSome]
  rw [spliceParts_plain _ _ _ _ (by
    intro p' h3
    simp only [List.mem_cons, List.not_mem_nil, or_false] at h3
    rcases h3 with rfl | rfl | rfl
    · exact plain_sym _ _
    · exact (hpl _ hp).1
    · exact (hpl _ hq).1)]
  have hflat : mergeSeq f [.sym f, p, q] = [.sym f, p, q] := by
    unfold mergeSeq
    rw [if_neg]
    simp [(hpl p hp).2.1, (hpl q hq).2.1]
    rfl
  obtain ⟨cur, hcur, hcur'⟩ : ∃ cur, (cur = [p, q] ∨ cur = [q, p]) ∧ sortArgs (ctx A strLen fmt) [.sym f, p, q] = .sym f :: cur :=
    ⟨_, perm_two (sorts _), rfl⟩
  have hF : F cur = r := by rcases hcur with rfl | rfl <;> assumption
  have hthr : threadExpr (.sym f :: cur) = none := by
    rcases hcur with rfl | rfl <;> simp [threadExpr, listLengths, (hpl p hp).2.2, (hpl q hq).2.2]
  simp only [symbolCase, arithAttrs, if_true, hflat, hcur', hthr, applyDefs, hb, hfn, Res.bind, List.tail_cons, hF]
  split
  · rw [find_none h' hm rfl]
  · rfl

theorem evals_arith {f : String} (F : List Ex → Ex) {st : EState} (h : Shell st)
    (hf : f = "System`Plus" ∧ F = plusEval A.toN ∨ f = "System`Times" ∧ F = timesEval A.toN) {e1 e2 p q r : Ex}
    (hcond : propagate [.sym f, e1, e2] = none)
    (h1 : Evals (ctx A strLen fmt) st e1 st p) (h2 : Evals (ctx A strLen fmt) st e2 st q) (hp : isNum p = true) (hq : isNum q = true) (hr : isNum r = true)
    (hpq : F [p, q] = r) (hqp : F [q, p] = r) : Evals (ctx A strLen fmt) st (.expr [.sym f, e1, e2]) st r := by
  obtain ⟨N, hN⟩ := pass_arith F h h.notThrown h hf hcond h1 h2 hp hq hpq hqp
  have hrd : Done (ctx A strLen fmt) st r := by
    cases r <;> simp [isNum] at hr
    all_goals exact ⟨1, rfl⟩
  exact evals_of_pass_done mono rfl hN hrd

/-! ### `Set` and `CompoundExpression` -/

/-- The expression has none of the heads that are taken apart in an argument of a function. -/
def Whole (e : Ex) : Prop := hasHead "System`Sequence" e = false ∧ hasHead "System`Evaluate" e = false ∧ hasHead "System`Unevaluated" e = false

theorem Whole.plain {e : Ex} (h : Whole e) (a : Attrs) : plainPart a e := ⟨.inr (.inr h.1), .inr h.2.1, h.2.2⟩

theorem whole_int (n : Int) : Whole (.int n) := ⟨rfl, rfl, rfl⟩
theorem whole_sym (s : String) : Whole (.sym s) := ⟨rfl, rfl, rfl⟩
theorem whole_num {e : Ex} (h : isNum e = true) : Whole e := by
  cases e <;> simp [isNum] at h <;> exact ⟨rfl, rfl, rfl⟩
theorem unconditional_num {e : Ex} (h : isNum e = true) : Unconditional e := by
  cases e <;> simp [isNum] at h <;> exact ⟨rfl, fun _ _ _ h => by cases h⟩
theorem final_num {st : EState} {e : Ex} (h : isNum e = true) : Final (ctx A strLen fmt) st e := by
  cases e <;> simp [isNum] at h
  · exact final_int _
  · exact final_flt _
theorem return_num {e : Ex} (h : isNum e = true) : hasHead "System`Return" e = false := by
  cases e <;> simp [isNum] at h <;> rfl

theorem evals_num {st : EState} (hi : st.interrupted = false) {x : String} {p : Ex} (hv : HasValue st x p) (hp : isNum p = true) :
    Evals (ctx A strLen fmt) st (.sym x) st p :=
  evals_var hi hv ((final_num hp).done mono same_refl') (return_num hp) (by rintro rfl; cases hp)

theorem holdsFirst_one {a : Attrs} (h : a.holdFirst = true) : holds a 1 := .inl ⟨h, rfl⟩

theorem not_holds_two {a : Attrs} (h1 : a.holdRest = false) (h2 : a.holdAll = false) (h3 : a.holdAllComplete = false) : ¬ holds a 2 := by
  rintro (⟨-, h⟩ | ⟨h, -⟩ | h | h)
  · omega
  · simp [h1] at h
  · simp [h2] at h
  · simp [h3] at h

/-- `x = e`. -/
theorem pass_set {st st1 : EState} (h : Shell st) (h1 : Shell st1) {x : String} (hx : Variable st1 x) {e v : Ex} (he : Evals (ctx A strLen fmt) st e st1 v)
    (hu : Unconditional v) (hw : Whole v) :
    ∃ st', Becomes st1 x v st' ∧ ∃ N, ∀ n, N ≤ n → pass (ctx A strLen fmt) n (eval (ctx A strLen fmt) n) st [S "Set", .sym x, e] = .ok (st', .next v false) := by
  obtain ⟨st', hd, hb⟩ := define_becomes (strLen := strLen) h1 hx hu
  refine ⟨st', hb, ?_⟩
  have hm : ("System`Set", ({ attrs := { holdFirst := true, sequenceHold := true }, builtin := true } : DefM)) ∈ entries := by simp [entries]
  have ha := attrs_of h hm
  refine pass_cmd (f := "System`Set") mono h.notThrown (by simp [getSymDef, h.entryOf hm]) (by rw [ha]; rfl)
    (builtin_of h1 hm rfl rfl (F := fun _ _ st ps => setCall strLen st ps) (by funext n ev st ps; simp [fn]))
    (vs := [.sym x, v]) ?_ ?_ ⟨0, fun n _ => ?_⟩ (fun ev e => find_none (hb.shell h1 hx.user) hm rfl ev e)
  · rw [ha]
    exact .hold (holdsFirst_one rfl) (.step (not_holds_two rfl rfl rfl) he h1.notThrown .nil)
  · intro w hw'
    simp only [List.mem_cons, List.not_mem_nil, or_false] at hw'
    rcases hw' with rfl | rfl
    · exact (whole_sym x).plain _
    · exact hw.plain _
  · simp [setCall, hd, Res.bind]

theorem evals_of_pass_final {c : Ctx} (hc : c.Mono) (hs : ∀ e, c.same e e = true) {st st2 : EState} {ps : List Ex} {v : Ex} (hskip : c.skip st (.expr ps) = false)
    (h1 : ∃ N, ∀ n, N ≤ n → pass c n (eval c n) st ps = .ok (st2, .next v false)) (hd : Final c st2 v) : Evals c st (.expr ps) st2 v := by
  obtain ⟨N, h1⟩ := h1
  exact evals_of_pass_done hc hskip h1 (hd.done hc hs)

theorem compoundLoop_seq {c : Ctx} (hc : c.Mono) {i st ps st' vs} (h : EvalSeq c (fun _ => False) i st ps st' vs)
    (hr : ∀ v ∈ vs, hasHead "System`Return" v = false) : ∃ N, ∀ n, N ≤ n → ∀ w, compoundLoop (eval c n) st ps w = .ok (st', vs.getLastD w) := by
  induction h with
  | nil => exact ⟨0, fun n _ w => rfl⟩
  | hold h1 _ _ => exact h1.elim
  | @step i st q qs st1' v st' vs h1 h2 h3 _ ih =>
    obtain ⟨N, ih⟩ := ih (fun v hv => hr v (by simp [hv]))
    obtain ⟨M, h2⟩ := h2.at hc
    refine ⟨max N M, fun n hn w => ?_⟩
    rw [compoundLoop, h2 n (by omega)]
    simp only [Res.bind, h3, hr v (by simp), Bool.false_eq_true, if_false]
    rw [ih n (by omega) v]
    cases vs <;> rfl

theorem evalSeq_allHeld {c : Ctx} {st : EState} {a : Attrs} (ha : a.holdAll = true) (ps : List Ex) : ∀ i, EvalSeq c (holds a) i st ps st ps := by
  induction ps with
  | nil => intro i; exact .nil
  | cons p ps ih => intro i; exact .hold (.inr (.inr (.inl ha))) (ih _)

/-- `p; q` -/
theorem pass_compound {st st1 st2 : EState} (h : Shell st) (h1 : Shell st1) (h2 : Shell st2) {p q v w : Ex} (hp : Evals (ctx A strLen fmt) st p st1 v)
    (hq : Evals (ctx A strLen fmt) st1 q st2 w) (wp : Whole p) (wq : Whole q) (rv : hasHead "System`Return" v = false) (rw' : hasHead "System`Return" w = false) :
    ∃ N, ∀ n, N ≤ n → pass (ctx A strLen fmt) n (eval (ctx A strLen fmt) n) st [S "CompoundExpression", p, q] = .ok (st2, .next w false) := by
  have hm : ("System`CompoundExpression", ({ attrs := { holdAll := true, readProtected := true, prot := true }, builtin := true } : DefM)) ∈ entries := by
    simp [entries]
  have ha := attrs_of h hm
  obtain ⟨N, hN⟩ := compoundLoop_seq (c := ctx A strLen fmt) mono (i := 1) (.step (fun h => h) hp h1.notThrown (.step (fun h => h) hq h2.notThrown .nil)) (by
    intro u hu
    simp only [List.mem_cons, List.not_mem_nil, or_false] at hu
    rcases hu with rfl | rfl <;> assumption)
  refine pass_cmd (f := "System`CompoundExpression") mono h.notThrown (by simp [getSymDef, h.entryOf hm]) (by rw [ha]; rfl)
    (builtin_of h hm rfl rfl (F := fun _ ev st ps => compoundFn ev st ps) (by funext n ev st ps; simp [fn, flowFn]))
    (vs := [p, q]) (by rw [ha]; exact evalSeq_allHeld rfl _ _) ?_ ⟨N, fun n hn => ?_⟩ (fun ev e => find_none h2 hm rfl ev e)
  · intro w hw
    simp only [List.mem_cons, List.not_mem_nil, or_false] at hw
    rcases hw with rfl | rfl
    · exact wp.plain _
    · exact wq.plain _
  · simp only [compoundFn]
    exact hN n hn p

/-- The rule of a function defined by a rule. -/
theorem find_rule {st : EState} (h : Shell st) (hA : 3 ≤ A.bound) (hL : LocalsOk A.locals) {f : String} {d : DefM} {xs : List String} {rhs : Ex}
    (hm : (f, d) ∈ entries) (hdv : d.downvalues = [ruleFor f xs rhs]) (ho : d.attrs.orderless = false) (hfl : d.attrs.flat = false)
    (hs : f ∉ CallMatch.specialHeads) (as : List Ex) (hl : xs.length = as.length) (hn : (xs.map ("Private`" ++ ·)).Nodup) (hne : 1 ≤ as.length)
    (ha : ∀ a ∈ as, a ≠ .expr []) (res : Ex) (hres : replacePD rhs (some (bindAll [] (xs.map ("Private`" ++ ·)) as)) = res)
    (c1 : hasHead "System`Condition" res = false) (c2 : hasHead "System`With" res = false) (c3 : hasHead "System`Module" res = false) (ev : Evaluator) :
    (ctx A strLen fmt).find ev st f (app f as) = .ok (st, some res) := by
  obtain ⟨b, hb⟩ : ∃ b, A.bound = b + 3 := ⟨A.bound - 3, by omega⟩
  have hd := h.entryOf hm
  have hc : condArgs A.locals res = none := by
    unfold condArgs
    rw [(argsOf_noneE _ _).2 c1, hL res c2 c3]
    rfl
  have := CallMatch.rulesReplace_call (envOf st A.truth) A.locals b (b + 2) hs (by simp [envOf, attrsOf, hd, ho]) (by simp [envOf, attrsOf, hd, hfl])
    (xs.map ("Private`" ++ ·)) as (by simpa using hl) hn ha hne rhs res hres hc []
  simp only [ctx, algFind, getDef, hd, hdv, List.map_cons, List.map_nil, hb, app]
  simp only [ruleFor, held]
  rw [this]

/-- The parts of the use of a rule: the arguments are held or evaluated, the rule is used, its right side is run. -/
theorem evals_entry {st st1 st2 : EState} (h : Shell st) (h1 : Shell st1) (hA : 3 ≤ A.bound) (hL : LocalsOk A.locals) {f : String} {d : DefM}
    {xs : List String} {rhs : Ex} (hm : (f, d) ∈ entries) (hdv : d.downvalues = [ruleFor f xs rhs]) (hpl : d.attrs.noRearrange = true)
    (hs : f ∉ CallMatch.specialHeads) (hnb : d.builtin = false) {args as qs : List Ex} {v : Ex} (hseq : EvalSeq (ctx A strLen fmt) (holds d.attrs) 1 st args st1 as)
    (hw : ∀ a ∈ as, Whole a)
    (hl : xs.length = as.length) (hn : (xs.map ("Private`" ++ ·)).Nodup) (hne : 1 ≤ as.length)
    (ha : ∀ a ∈ as, a ≠ .expr []) (hres : replacePD rhs (some (bindAll [] (xs.map ("Private`" ++ ·)) as)) = .expr qs)
    (hhead : ∃ g, qs.head? = some (S g) ∧ g ∈ ["Set", "CompoundExpression"]) (hf : f ∉ ["System`Set", "System`CompoundExpression"])
    (hbody : ∃ N, ∀ n, N ≤ n → pass (ctx A strLen fmt) n (eval (ctx A strLen fmt) n) st1 qs = .ok (st2, .next v false))
    (hd : Final (ctx A strLen fmt) st2 v) : Evals (ctx A strLen fmt) st (app f args) st2 v := by
  obtain ⟨N, hbody⟩ := hbody
  obtain ⟨g, hg, hgm⟩ := hhead
  obtain ⟨qs', rfl⟩ : ∃ qs', qs = S g :: qs' := by
    cases qs with
    | nil => simp at hg
    | cons q qs' => simp at hg; exact ⟨qs', by rw [hg]⟩
  have hhd : ∀ s, s ∉ ["System`Set", "System`CompoundExpression"] → hasHead s (.expr (S g :: qs')) = false := by
    intro s hs
    simp only [List.mem_cons, List.not_mem_nil, or_false, not_or] at hs hgm
    rcases hgm with rfl | rfl
    · simpa [hasHead, S] using fun h => hs.1 h.symm
    · simpa [hasHead, S] using fun h => hs.2 h.symm
  have ho := hpl
  simp only [Attrs.noRearrange, Bool.and_eq_true, Bool.not_eq_true'] at ho
  have hnv : (d.downvalues.find? (fun dv => isSymbolRule dv.lhs)) = none := by
    rw [hdv]; rfl
  refine evals_by_rule mono same_refl' (fun _ _ => rfl) h.notThrown (by simp [getSymDef, h.entryOf hm, hnv]) (by rw [attrs_of h hm]; exact hpl)
    (by simp [hasBuiltin, h1.entryOf hm, hnb]) (by rw [attrs_of h hm]; exact hseq) (fun w hw' => (hw w hw').plain _)
    (fun ev => find_rule h1 hA hL hm hdv ho.1.1.2 ho.1.1.1 hs as hl hn hne ha _ hres (hhd _ (by decide)) (hhd _ (by decide)) (hhd _ (by decide)) ev)
    ?_ ?_ hbody hd
  · simp only [ctx, app, decide_eq_false_iff_not, Ex.expr.injEq, List.cons.injEq, not_and]
    intro h _
    simp only [List.mem_cons, List.not_mem_nil, or_false, not_or] at hf hgm
    rcases hgm with rfl | rfl
    · exact hf.1 (Ex.sym.inj h)
    · exact hf.2 (Ex.sym.inj h)
  · unfold tryReturn
    rw [h1.notInterrupted, (argsOf_noneE _ _).2 (hhd "System`Return" (by decide))]
    rfl

end AssignProg
end Expreduce
