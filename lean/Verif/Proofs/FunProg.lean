import Verif.Spec.FunProg
import Verif.Props.ImpProg
import Verif.Props.UserFn
import Verif.Props.Compare

/-! Programs of the functional language in the evaluator. -/

namespace Expreduce
open Ex
namespace Fp
open AssignProg Imp

variable {A : AlgParams} {strLen : Ex → Nat} {fmt : Rat → String} {st : EState} {B : Int} {P : Program} {σ ρ : Store}

/-- Parameters as a substitution. -/
def sub1 (ρ : Store) : String → Option Ex := fun x => (ρ x).map Ex.int

/-- The evaluator's loop comes to the number `n`, inside a body or not, whatever it has seen before. -/
def Settles (c : Ctx) (st : EState) (e : Ex) (n : Int) : Prop :=
  ∃ N, ∀ m, N ≤ m → ∀ k, N ≤ k → ∀ inside last, unchanged c last e = false → evalLoop c m (eval c m) k st inside last e = .ok (st, .int n)

theorem Settles.evals {e : Ex} {n : Int} (h : Settles (ctx A strLen fmt) st e n) : Evals (ctx A strLen fmt) st e st (.int n) := by
  obtain ⟨N, hN⟩ := h
  have := hN (N + 1) (by omega) (N + 2) (by omega) false none (by simp [unchanged])
  cases e with
  | expr ps => exact ⟨N + 2, by rw [eval_expr]; exact this⟩
  | _ => exact ⟨N + 1, by unfold evalLoop at this; rw [if_neg (by simp [unchanged])] at this; exact this⟩

theorem settles_atom {e : Ex} {n : Int} (ha : ∀ ps, e ≠ .expr ps) (h : Evals (ctx A strLen fmt) st e st (.int n)) : Settles (ctx A strLen fmt) st e n := by
  obtain ⟨N, hN⟩ := h.at mono
  refine ⟨N + 1, fun m hm k hk inside last hu => ?_⟩
  obtain ⟨k, rfl⟩ : ∃ j, k = j + 1 := ⟨k - 1, by omega⟩
  cases e with
  | expr ps => exact absurd rfl (ha ps)
  | _ => unfold evalLoop; rw [if_neg (by simp [hu])]; exact hN m (by omega)

theorem settles_int (n : Int) : Settles (ctx A strLen fmt) st (.int n) n := settles_atom (by simp) (done_int n)

/-- One round of the loop. -/
theorem settles_step {ps : List Ex} {e : Ex} {n : Int} {b : Bool} {N : Nat} (ht : tryReturn st (.expr ps) = none)
    (hp : ∀ m, N ≤ m → pass (ctx A strLen fmt) m (eval (ctx A strLen fmt) m) st ps = .ok (st, .next e b)) (h : Settles (ctx A strLen fmt) st e n) :
    Settles (ctx A strLen fmt) st (.expr ps) n := by
  by_cases he : e = .expr ps
  · subst he; exact h
  obtain ⟨M, hM⟩ := h
  refine ⟨max N M + 1, fun m hm k hk inside last hu => ?_⟩
  obtain ⟨k, rfl⟩ : ∃ j, k = j + 1 := ⟨k - 1, by omega⟩
  rw [evalLoop_next hu (fun _ => ht) rfl (hp m (by omega))]
  refine hM m (by omega) k (by omega) _ _ ?_
  simp only [unchanged, ctx, Option.map_some, Option.getD_some, decide_eq_false_iff_not]
  exact fun h => he h.symm

/-- The parameters hide no name that is used for something else. -/
def Clear (ρ : Store) (e : Exp) : Prop := (∀ g ∈ taken, ρ g = none) ∧ ∀ g ∈ e.calls, g ∉ taken ∧ ρ g = none

theorem subst_head {f : String} (h : ρ f = none) (ps : List Ex) : subst (sub1 ρ) (.expr (.sym f :: ps)) = .expr (.sym f :: substL (sub1 ρ) ps) := by
  simp [subst, substL, sub1, h]

theorem substL_toExL (τ : String → Option Ex) : ∀ as : List Exp, substL τ (Exp.toExL as) = as.map (fun a => subst τ a.toEx)
  | [] => rfl
  | a :: as => by simp [Exp.toExL, substL, substL_toExL τ as]

theorem subst_minus (hρ : ∀ g ∈ taken, ρ g = none) (a b : Ex) : subst (sub1 ρ) (minusEx a b) = minusEx (subst (sub1 ρ) a) (subst (sub1 ρ) b) := by
  have h1 := hρ "System`Plus" (by simp [taken])
  have h2 := hρ "System`Times" (by simp [taken])
  simp [minusEx, S, subst, substL, sub1, h1, h2]

/-- An expression of the language with the values of parameters in their places: nothing that the evaluator treats in a special way. -/
theorem shape (e : Exp) (hc : Clear ρ e) :
    Whole (subst (sub1 ρ) e.toEx) ∧ condExprArgs (subst (sub1 ρ) e.toEx) = none ∧
      ∀ s ∈ ["System`Condition", "System`With", "System`Module", "System`Return"], hasHead s (subst (sub1 ρ) e.toEx) = false := by
  have simple : ∀ f ps, f ∉ taken ∨ f ∈ ["System`Plus", "System`Times", "System`If"] → Whole (.expr (.sym f :: ps)) ∧ condExprArgs (.expr (.sym f :: ps)) = none ∧
      ∀ s ∈ ["System`Condition", "System`With", "System`Module", "System`Return"], hasHead s (.expr (.sym f :: ps)) = false := by
    intro f ps hf
    have : f ≠ "System`ConditionalExpression" ∧ f ≠ "System`Return" ∧ f ≠ "System`Condition" ∧ f ≠ "System`With" ∧ f ≠ "System`Module" ∧ f ≠ "System`Sequence" ∧
        f ≠ "System`Evaluate" ∧ f ≠ "System`Unevaluated" := by
      rcases hf with hf | hf
      · simp only [taken, List.mem_cons, List.not_mem_nil, or_false, not_or] at hf
        exact hf.2.2.2.2.2
      · simp at hf
        rcases hf with rfl | rfl | rfl <;> decide
    obtain ⟨h1, h2, h3, h4, h5, h6, h7, h8⟩ := this
    refine ⟨⟨?_, ?_, ?_⟩, ?_, ?_⟩
    · simp [hasHead, h6]
    · simp [hasHead, h7]
    · simp [hasHead, h8]
    · match ps with
      | [] => rfl
      | [_] => rfl
      | [_, _] => simp [condExprArgs, h1]
      | _ :: _ :: _ :: _ => rfl
    · intro s hs
      simp at hs
      rcases hs with rfl | rfl | rfl | rfl <;> simp [hasHead, h2, h3, h4, h5]
  cases e with
  | lit m => exact ⟨whole_int _, rfl, by simp [Exp.toEx, subst, hasHead]⟩
  | var x =>
    rw [Exp.toEx, subst]
    cases hx : sub1 ρ x with
    | none => exact ⟨whole_sym _, rfl, by simp [hasHead]⟩
    | some v =>
      have hx' : (ρ x).map Ex.int = some v := hx
      obtain ⟨m, -, rfl⟩ := Option.map_eq_some_iff.1 hx'
      exact ⟨whole_int _, rfl, by simp [hasHead]⟩
  | add a b => rw [Exp.toEx, subst_head (hc.1 _ (by simp [taken]))]; exact simple _ _ (.inr (by simp))
  | mul a b => rw [Exp.toEx, subst_head (hc.1 _ (by simp [taken]))]; exact simple _ _ (.inr (by simp))
  | sub a b => rw [Exp.toEx, subst_minus hc.1, minusEx]; exact simple _ _ (.inr (by simp))
  | ite less a b t e => rw [Exp.toEx, subst_head (hc.1 _ (by simp [taken]))]; exact simple _ _ (.inr (by simp))
  | call f args =>
    have := hc.2 f (by simp [Exp.calls])
    rw [Exp.toEx, subst_head this.2]
    exact simple _ _ (.inl this.1)

/-- The choice of `If`, whatever the test is. -/
theorem pass_choice (h : Shell st) (hif : st.defs "System`If" = some ifEntry) {b : Ex} {t : Bool} (hb : Evals (ctx A strLen fmt) st b st (if t then S "True" else S "False"))
    {e1 e2 : Ex} (w1 : Whole e1) (w2 : Whole e2) :
    ∃ N, ∀ n, N ≤ n → pass (ctx A strLen fmt) n (eval (ctx A strLen fmt) n) st [.sym "System`If", b, e1, e2] = .ok (st, .next (if t then e1 else e2) false) := by
  have ha : attrsOf st "System`If" = ifEntry.attrs := by simp [attrsOf, hif]
  have hnv : getSymDef st.toDState "System`If" = none := by simp [getSymDef, hif, ifEntry]
  refine pass_cmd (f := "System`If") mono h.notThrown hnv (by rw [ha]; rfl)
    ⟨hnv, by simp [hasBuiltin, hif, ifEntry], rfl⟩
    (vs := [if t then S "True" else S "False", e1, e2]) ?_ ?_ ⟨0, fun n _ => ?_⟩ (fun ev e => by simp [ctx, algFind, getDef, hif, ifEntry, rulesReplace])
  · rw [ha]
    refine .step ?_ hb h.notThrown (.hold ?_ (.hold ?_ .nil))
    · simp [holds, ifEntry]
    · simp [holds, ifEntry]
    · simp [holds, ifEntry]
  · intro w hw
    simp only [List.mem_cons, List.not_mem_nil, or_false] at hw
    rcases hw with rfl | rfl | rfl
    · cases t <;> exact (whole_sym _).plain _
    · exact w1.plain _
    · exact w2.plain _
  · cases t <;> simp [ctx, fn, flowFn, ifFn, ifChoice, isEqual, S, vIf]

/-- A comparison. -/
theorem evals_cmp (h : Shell st) {less : Bool} {e1 e2 : Ex} {m n : Int} {t : Bool} (h1 : Evals (ctx A strLen fmt) st e1 st (.int m)) (h2 : Evals (ctx A strLen fmt) st e2 st (.int n))
    (ht : compare less m n = some t) :
    Evals (ctx A strLen fmt) st (.expr [.sym (if less then "System`Less" else "System`LessEqual"), e1, e2]) st (if t then S "True" else S "False") := by
  unfold compare at ht
  split at ht
  case isFalse => cases ht
  case isTrue hx =>
  obtain rfl := Option.some.inj ht
  cases less with
  | true =>
    refine evals_compare (f := "System`Less") _ h (.inl ⟨rfl, rfl⟩) h1 h2 (whole_int _) (whole_int _) ?_
    rw [(C12_reals [.int m, .int n] (by simp [realNum])).1]
    simp [rounded, rnd53_int_exact m hx.1, rnd53_int_exact n hx.2]
  | false =>
    refine evals_compare (f := "System`LessEqual") _ h (.inr ⟨rfl, rfl⟩) h1 h2 (whole_int _) (whole_int _) ?_
    rw [(C12_reals [.int m, .int n] (by simp [realNum])).2.1]
    simp [rounded, rnd53_int_exact m hx.1, rnd53_int_exact n hx.2]

theorem takes_fits {p : ArgPat} {v : Int} {t : Bool} (hl : ∀ c, p = .lit c → ∀ v : Int, |v| ≤ B → v ≠ c → isSameQ (.int v) (.int c) = false) (h : fits B p v = some t) :
    p.takes (.int v) = t := by
  cases p with
  | any x => simpa [fits, ArgPat.takes] using h
  | lit c =>
    simp only [fits] at h
    split at h
    · rename_i hv
      subst hv
      obtain rfl := Option.some.inj h
      exact (C07_refl_symm (.int v) (.int 0)).1
    · split at h
      · rename_i hv hb
        obtain rfl := Option.some.inj h
        exact hl c rfl v hb hv
      · cases h

theorem agree_fits : ∀ (ps : List ArgPat) (vs : List Int) (t : Bool), (∀ c, ArgPat.lit c ∈ ps → ∀ v : Int, |v| ≤ B → v ≠ c → isSameQ (.int v) (.int c) = false) →
    fitAll B ps vs = some t → agree ps (vs.map Ex.int) = t
  | [], [], t, _, h => by simpa [fitAll, agree] using h
  | [], _ :: _, t, _, h => by simp [fitAll] at h
  | _ :: _, [], t, _, h => by simp [fitAll] at h
  | p :: ps, v :: vs, t, hl, h => by
    rw [fitAll] at h
    rw [List.map_cons, agree]
    cases hf : fits B p v with
    | none => simp [hf] at h
    | some b =>
      rw [takes_fits (fun c hc => hl c (by simp [hc])) hf]
      cases b with
      | true => simpa using agree_fits ps vs t (fun c hc => hl c (by simp [hc])) (by simpa [hf] using h)
      | false => simpa [hf] using h

theorem find_pick {vs : List Int} : ∀ (qs : List Eqn) (q : Eqn), (∀ q ∈ qs, ∀ c, ArgPat.lit c ∈ q.args → ∀ v : Int, |v| ≤ B → v ≠ c → isSameQ (.int v) (.int c) = false) →
    pick B vs qs = some q → q ∈ qs ∧ (qs.map Eqn.toClause).find? (fun cl => agree cl.args (vs.map Ex.int)) = some q.toClause
  | [], _, _, h => by simp [pick] at h
  | p :: qs, q, hl, h => by
    rw [pick] at h
    cases hf : fitAll B p.args vs with
    | none => simp [hf] at h
    | some t =>
      have := agree_fits p.args vs t (hl p (by simp)) hf
      cases t with
      | true =>
        obtain rfl := Option.some.inj (by simpa [hf] using h)
        exact ⟨by simp, by simp [Eqn.toClause, this]⟩
      | false =>
        obtain ⟨h1, h2⟩ := find_pick qs q (fun q hq => hl q (by simp [hq])) (by simpa [hf] using h)
        refine ⟨by simp [h1], ?_⟩
        rw [List.map_cons, List.find?_cons_of_neg (by simp [Eqn.toClause, this])]
        exact h2

theorem paramOf_params : ∀ (ps : List ArgPat) (vs : List Int), paramOf ps (vs.map Ex.int) = sub1 (params ps vs)
  | [], vs => by funext y; simp [paramOf, sub1, params]
  | .any x :: ps, [] => by funext y; simp [paramOf, sub1, params]
  | .lit c :: ps, [] => by funext y; simp [paramOf, sub1, params]
  | .any x :: ps, v :: vs => by
    funext y
    have := congrFun (paramOf_params ps vs) y
    simp only [List.map_cons, paramOf, sub1, params] at this ⊢
    split <;> simp [this]
  | .lit c :: ps, v :: vs => by
    funext y
    have := congrFun (paramOf_params ps vs) y
    simpa only [List.map_cons, paramOf, sub1, params] using this

theorem params_dom : ∀ (ps : List ArgPat) (vs : List Int) (g : String), (∀ x, ArgPat.any x ∈ ps → x ≠ g) → params ps vs g = none
  | [], vs, g, _ => by simp [params]
  | .any x :: ps, [], g, _ => by simp [params]
  | .lit c :: ps, [], g, _ => by simp [params]
  | .any x :: ps, v :: vs, g, h => by
    rw [params, if_neg (Ne.symm (h x (by simp)))]
    exact params_dom ps vs g (fun x hx => h x (by simp [hx]))
  | .lit c :: ps, v :: vs, g, h => by
    rw [params]
    exact params_dom ps vs g (fun x hx => h x (by simp [hx]))

theorem clear_body (h : Installed st B P σ) {f : String} {qs : List Eqn} (hqs : P f = some qs) {q : Eqn} (hmem : q ∈ qs) (vs : List Int) : Clear (params q.args vs) q.body := by
  refine ⟨fun g hg => params_dom _ _ _ ?_, fun g hg => ⟨h.named f qs hqs q hmem g hg, params_dom _ _ _ ?_⟩⟩
  · rintro x hx rfl; exact (h.names f qs hqs q hmem x hx).1 hg
  · rintro x hx rfl; exact (h.names f qs hqs q hmem x hx).2 hg

/-- The pass of a call whose arguments come to their values. -/
theorem pass_user_of (hA : 3 ≤ A.bound) (hL : LocalsOk A.locals) (h : Installed st B P σ) {ρ : Store} {f : String} {args : List Exp} (hc : Clear ρ (.call f args)) {d : Nat}
    (ih : ∀ (e : Exp) (n : Int), Clear ρ e → run B P σ d ρ e = some n → Settles (ctx A strLen fmt) st (subst (sub1 ρ) e.toEx) n) {vs : List Int}
    (hvs : args.mapM (run B P σ d ρ) = some vs) {qs : List Eqn} (hqs : P f = some qs) (hlen : ∀ q ∈ qs, q.args.length = vs.length) {q : Eqn} (hq : pick B vs qs = some q) :
    ∃ N, ∀ n, N ≤ n → pass (ctx A strLen fmt) n (eval (ctx A strLen fmt) n) st (.sym f :: args.map (fun a => subst (sub1 ρ) a.toEx)) =
      .ok (st, .next (subst (sub1 (params q.args vs)) q.body.toEx) true) := by
  obtain ⟨hcs, hnh⟩ := h.stored f qs hqs
  obtain ⟨hmem, hfind⟩ := find_pick (B := B) qs q (fun q hq => h.literals f qs hqs q hq) hq
  have hinst : q.toClause.instance (vs.map Ex.int) = subst (sub1 (params q.args vs)) q.body.toEx := by
    simp only [Clause.instance, Eqn.toClause, paramOf_params]
  have hc' := clear_body h hqs hmem vs
  have hseq : ∀ (as : List Exp) (vs : List Int) (i : Nat), (∀ g ∈ Exp.callsL as, g ∉ taken ∧ ρ g = none) → as.mapM (run B P σ d ρ) = some vs →
      EvalSeq (ctx A strLen fmt) (holds (attrsOf st f)) i st (as.map (fun a => subst (sub1 ρ) a.toEx)) st (vs.map Ex.int) := by
    intro as
    induction as with
    | nil => intro vs i _ hv; obtain rfl : vs = [] := by simpa using hv.symm
             exact .nil
    | cons a as ih' =>
      intro vs i hg hv
      simp only [List.mapM_cons, Option.pure_def, Option.bind_eq_bind, Option.bind_eq_some_iff, Option.some.injEq] at hv
      obtain ⟨w, hw, ws, hws, rfl⟩ := hv
      exact .step (hnh i) (ih a w ⟨hc.1, fun g hg' => hg g (by simp [Exp.callsL, hg'])⟩ hw).evals h.shell.notThrown
        (ih' ws (i + 1) (fun g hg' => hg g (by simp [Exp.callsL, hg'])) hws)
  obtain ⟨N, hN⟩ := pass_call (A := A) (strLen := strLen) (fmt := fmt) hA hL hcs hcs h.shell.notThrown
    (hseq args vs 1 (fun g hg => hc.2 g (by simp [Exp.calls, hg])) hvs)
    (by intro w hw; obtain ⟨v, -, rfl⟩ := List.mem_map.1 hw; exact whole_int v)
    (by intro w hw; obtain ⟨v, -, rfl⟩ := List.mem_map.1 hw; simp)
    (by
      intro cl hcl
      obtain ⟨p, hp, rfl⟩ := List.mem_map.1 hcl
      simpa [Eqn.toClause] using hlen p hp)
    (by
      intro cl _ hcl s hs
      rw [hfind] at hcl
      obtain rfl := Option.some.inj hcl
      rw [hinst]
      exact (shape q.body hc').2.2 s (by simp at hs ⊢; tauto))
  rw [hfind] at hN
  simp only [Option.map_some, Option.getD_some, hinst] at hN
  exact ⟨N, hN⟩

/-- Expressions come to their values. -/
theorem settles (hA : 3 ≤ A.bound) (hL : LocalsOk A.locals) (h : Installed st B P σ) : ∀ (d : Nat) (ρ : Store) (e : Exp) (n : Int), Clear ρ e → run B P σ d ρ e = some n →
    Settles (ctx A strLen fmt) st (subst (sub1 ρ) e.toEx) n := by
  intro d
  induction d with
  | zero => intro ρ e n _ hr; simp [run] at hr
  | succ d ih =>
  intro ρ e n hc hr
  have hr0 := hr
  cases e with
  | lit m =>
    obtain rfl := Option.some.inj hr
    exact settles_int _
  | var x =>
    rw [run] at hr
    rw [Exp.toEx, subst]
    cases hx : ρ x with
    | some m =>
      have : n = m := by simpa [over, hx] using hr.symm
      subst this
      simpa [sub1, hx] using settles_int n
    | none =>
      have : σ x = some n := by simpa [over, hx] using hr
      simp only [sub1, hx, Option.map_none]
      exact settles_atom (by simp) (evals_num h.shell.notInterrupted (h.globals x n this) rfl)
  | add a b =>
    have ha : Clear ρ a := ⟨hc.1, fun g hg => hc.2 g (by simp [Exp.calls, hg])⟩
    have hb : Clear ρ b := ⟨hc.1, fun g hg => hc.2 g (by simp [Exp.calls, hg])⟩
    simp only [run, Option.pure_def, Option.bind_eq_bind, Option.bind_eq_some_iff, Option.some.injEq] at hr
    obtain ⟨p, hp, q, hq, rfl⟩ := hr
    rw [Exp.toEx, subst_head (hc.1 _ (by simp [taken]))]
    simp only [substL]
    obtain ⟨N, hN⟩ := pass_arith (A := A) (strLen := strLen) (fmt := fmt) (f := "System`Plus") _ h.shell h.shell.notThrown h.shell (.inl ⟨rfl, rfl⟩)
      (no_cond (shape a ha).2.1 (shape b hb).2.1)
      (ih ρ a p ha hp).evals (ih ρ b q hb hq).evals rfl rfl (r := .int (p + q)) (by rw [plusEval_ints]) (by rw [plusEval_ints]; congr 1; omega)
    exact settles_step (no_return h.shell (by decide) _) hN (settles_int _)
  | mul a b =>
    have ha : Clear ρ a := ⟨hc.1, fun g hg => hc.2 g (by simp [Exp.calls, hg])⟩
    have hb : Clear ρ b := ⟨hc.1, fun g hg => hc.2 g (by simp [Exp.calls, hg])⟩
    simp only [run, Option.pure_def, Option.bind_eq_bind, Option.bind_eq_some_iff, Option.some.injEq] at hr
    obtain ⟨p, hp, q, hq, rfl⟩ := hr
    rw [Exp.toEx, subst_head (hc.1 _ (by simp [taken]))]
    simp only [substL]
    obtain ⟨N, hN⟩ := pass_arith (A := A) (strLen := strLen) (fmt := fmt) (f := "System`Times") _ h.shell h.shell.notThrown h.shell (.inr ⟨rfl, rfl⟩)
      (no_cond (shape a ha).2.1 (shape b hb).2.1)
      (ih ρ a p ha hp).evals (ih ρ b q hb hq).evals rfl rfl (r := .int (p * q)) (by rw [timesEval_ints]) (by rw [timesEval_ints, Int.mul_comm])
    exact settles_step (no_return h.shell (by decide) _) hN (settles_int _)
  | sub a b =>
    have ha : Clear ρ a := ⟨hc.1, fun g hg => hc.2 g (by simp [Exp.calls, hg])⟩
    have hb : Clear ρ b := ⟨hc.1, fun g hg => hc.2 g (by simp [Exp.calls, hg])⟩
    simp only [run, Option.pure_def, Option.bind_eq_bind, Option.bind_eq_some_iff, Option.some.injEq] at hr
    obtain ⟨p, hp, q, hq, rfl⟩ := hr
    rw [Exp.toEx, subst_minus hc.1, minusEx]
    have h2 : Evals (ctx A strLen fmt) st (.expr [S "Times", subst (sub1 ρ) b.toEx, .int (-1)]) st (.int (-q)) :=
      evals_arith (f := "System`Times") _ h.shell (.inr ⟨rfl, rfl⟩) (no_cond (shape b hb).2.1 rfl) (ih ρ b q hb hq).evals (done_int _) rfl rfl rfl
        (by rw [timesEval_ints]; congr 1; omega) (by rw [timesEval_ints]; congr 1; omega)
    obtain ⟨N, hN⟩ := pass_arith (A := A) (strLen := strLen) (fmt := fmt) (f := "System`Plus") _ h.shell h.shell.notThrown h.shell (.inl ⟨rfl, rfl⟩)
      (no_cond (shape a ha).2.1 rfl)
      (ih ρ a p ha hp).evals h2 rfl rfl (r := .int (p - q)) (by rw [plusEval_ints]; congr 1) (by rw [plusEval_ints]; congr 1; omega)
    exact settles_step (no_return h.shell (g := "System`Plus") (by decide) _) hN (settles_int _)
  | ite less a b t e =>
    simp only [run, Option.bind_eq_bind, Option.bind_eq_some_iff] at hr
    obtain ⟨p, hp, q, hq, r, hcmp, hr⟩ := hr
    have ha : Clear ρ a := ⟨hc.1, fun g hg => hc.2 g (by simp [Exp.calls, hg])⟩
    have hb : Clear ρ b := ⟨hc.1, fun g hg => hc.2 g (by simp [Exp.calls, hg])⟩
    have ht : Clear ρ t := ⟨hc.1, fun g hg => hc.2 g (by simp [Exp.calls, hg])⟩
    have he : Clear ρ e := ⟨hc.1, fun g hg => hc.2 g (by simp [Exp.calls, hg])⟩
    rw [Exp.toEx, subst_head (hc.1 _ (by simp [taken]))]
    simp only [substL]
    rw [subst_head (hc.1 _ (by cases less <;> simp [taken]))]
    simp only [substL]
    obtain ⟨N, hN⟩ := pass_choice (A := A) (strLen := strLen) (fmt := fmt) h.shell h.cond (evals_cmp h.shell (ih ρ a p ha hp).evals (ih ρ b q hb hq).evals hcmp)
      (shape t ht).1 (shape e he).1
    refine settles_step (no_return h.shell (by decide) _) hN ?_
    cases r with
    | true => exact ih ρ t n ht (by simpa using hr)
    | false => exact ih ρ e n he (by simpa using hr)
  | call f args =>
    have hf0 := hc.2 f (by simp [Exp.calls])
    simp only [run, Option.bind_eq_bind, Option.bind_eq_some_iff] at hr
    obtain ⟨vs, hvs, qs, hqs, hr⟩ := hr
    split at hr
    case isFalse => cases hr
    case isTrue hlen =>
    obtain ⟨q, hq, hr⟩ := Option.bind_eq_some_iff.1 hr
    rw [Exp.toEx, subst_head hf0.2, substL_toExL]
    have hmem := (find_pick (B := B) qs q (fun q hq => h.literals f qs hqs q hq) hq).1
    obtain ⟨N, hN⟩ := pass_user_of hA hL h hc (ih ρ) hvs hqs (by simpa using hlen) hq
    exact settles_step (no_return h.shell (by rintro rfl; exact hf0.1 (by simp [taken])) _) hN (ih _ _ n (clear_body h hqs hmem vs) hr)

/-- The pass of a call. -/
theorem pass_user (hA : 3 ≤ A.bound) (hL : LocalsOk A.locals) (h : Installed st B P σ) {ρ : Store} {f : String} {args : List Exp} (hc : Clear ρ (.call f args)) {d : Nat} {vs : List Int}
    (hvs : args.mapM (run B P σ d ρ) = some vs) {qs : List Eqn} (hqs : P f = some qs) (hlen : ∀ q ∈ qs, q.args.length = vs.length) {q : Eqn} (hq : pick B vs qs = some q) :
    ∃ N, ∀ n, N ≤ n → pass (ctx A strLen fmt) n (eval (ctx A strLen fmt) n) st (.sym f :: args.map (written ρ)) = .ok (st, .next (written (params q.args vs) q.body) true) :=
  pass_user_of hA hL h hc (fun e n hc hr => settles hA hL h d ρ e n hc hr) hvs hqs hlen hq

end Fp
end Expreduce
