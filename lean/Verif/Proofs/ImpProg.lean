import Verif.Spec.ImpProg
import Verif.Proofs.ForLoop
import Verif.Proofs.UserFn

/-! Programs of the imperative language in the evaluator. -/

namespace Expreduce
open Ex
namespace Imp
open AssignProg

variable {A : AlgParams} {strLen : Ex → Nat} {fmt : Rat → String} {st : EState} {D : List String} {σ : Store}

theorem AExp.plain (a : AExp) : Whole a.toEx ∧ a.toEx ≠ .expr [] ∧ condExprArgs a.toEx = none := by
  cases a <;> exact ⟨⟨rfl, rfl, rfl⟩, by simp [AExp.toEx, minusEx], rfl⟩

theorem BExp.plain (b : BExp) : Whole b.toEx ∧ b.toEx ≠ .expr [] := by
  cases b <;> exact ⟨⟨rfl, rfl, rfl⟩, by simp [BExp.toEx]⟩

theorem Stmt.plain (s : Stmt) : Whole s.toEx := by
  cases s with
  | expr a => exact a.plain.1
  | _ => exact ⟨rfl, rfl, rfl⟩

theorem no_cond {f : String} {e1 e2 : Ex} (h1 : condExprArgs e1 = none) (h2 : condExprArgs e2 = none) : propagate [.sym f, e1, e2] = none := by
  simp [propagate, h1, h2]

/-- Expressions are evaluated to their values. -/
theorem evals_aexp (h : Holds st D σ) : ∀ (a : AExp), a.vars ⊆ D → ∀ {n}, a.eval σ = some n → Evals (ctx A strLen fmt) st a.toEx st (.int n)
  | .lit m, _, n, he => by
    obtain rfl := Option.some.inj he
    exact done_int _
  | .var x, hv, n, he => evals_num h.shell.notInterrupted (h.value x (hv (by simp [AExp.vars])) n he) rfl
  | .add a b, hv, n, he => by
    simp only [AExp.vars, List.append_subset] at hv
    simp only [AExp.eval, Option.pure_def, Option.bind_eq_bind, Option.bind_eq_some_iff, Option.some.injEq] at he
    obtain ⟨p, hp, q, hq, rfl⟩ := he
    exact evals_arith (f := "System`Plus") _ h.shell (.inl ⟨rfl, rfl⟩) (no_cond a.plain.2.2 b.plain.2.2) (evals_aexp h a hv.1 hp) (evals_aexp h b hv.2 hq) rfl rfl rfl
      (by rw [plusEval_ints]) (by rw [plusEval_ints]; congr 1; omega)
  | .mul a b, hv, n, he => by
    simp only [AExp.vars, List.append_subset] at hv
    simp only [AExp.eval, Option.pure_def, Option.bind_eq_bind, Option.bind_eq_some_iff, Option.some.injEq] at he
    obtain ⟨p, hp, q, hq, rfl⟩ := he
    exact evals_arith (f := "System`Times") _ h.shell (.inr ⟨rfl, rfl⟩) (no_cond a.plain.2.2 b.plain.2.2) (evals_aexp h a hv.1 hp) (evals_aexp h b hv.2 hq) rfl rfl rfl
      (by rw [timesEval_ints]) (by rw [timesEval_ints, Int.mul_comm])
  | .sub a b, hv, n, he => by
    simp only [AExp.vars, List.append_subset] at hv
    simp only [AExp.eval, Option.pure_def, Option.bind_eq_bind, Option.bind_eq_some_iff, Option.some.injEq] at he
    obtain ⟨p, hp, q, hq, rfl⟩ := he
    have h2 : Evals (ctx A strLen fmt) st (.expr [.sym "System`Times", b.toEx, .int (-1)]) st (.int (-q)) :=
      evals_arith (f := "System`Times") _ h.shell (.inr ⟨rfl, rfl⟩) (no_cond b.plain.2.2 rfl) (evals_aexp h b hv.2 hq) (done_int _) rfl rfl rfl
        (by rw [timesEval_ints]; congr 1; omega) (by rw [timesEval_ints]; congr 1; omega)
    exact evals_arith (f := "System`Plus") _ h.shell (.inl ⟨rfl, rfl⟩) (no_cond a.plain.2.2 rfl) (evals_aexp h a hv.1 hp) h2 rfl rfl rfl
      (by rw [plusEval_ints]; congr 1) (by rw [plusEval_ints]; congr 1; omega)

/-- Tests are evaluated to their outcomes. -/
theorem evals_test (h : Holds st D σ) {b : BExp} (hv : b.vars ⊆ D) {t : Bool} (ht : b.Gives σ t) :
    Evals (ctx A strLen fmt) st b.toEx st (if t then S "True" else S "False") := by
  cases ht with
  | @lt a b m n h1 h2 e1 e2 =>
    simp only [BExp.vars, List.append_subset] at hv
    refine evals_compare (f := "System`Less") _ h.shell (.inl ⟨rfl, rfl⟩) (evals_aexp h a hv.1 h1) (evals_aexp h b hv.2 h2) (whole_int _) (whole_int _) ?_
    rw [(C12_reals [.int m, .int n] (by simp [realNum])).1]
    simp [rounded, rnd53_int_exact m e1, rnd53_int_exact n e2]
  | @le a b m n h1 h2 e1 e2 =>
    simp only [BExp.vars, List.append_subset] at hv
    refine evals_compare (f := "System`LessEqual") _ h.shell (.inr ⟨rfl, rfl⟩) (evals_aexp h a hv.1 h1) (evals_aexp h b hv.2 h2) (whole_int _) (whole_int _) ?_
    rw [(C12_reals [.int m, .int n] (by simp [realNum])).2.1]
    simp [rounded, rnd53_int_exact m e1, rnd53_int_exact n e2]

theorem OnlyVars.refl (D : List String) (st : EState) : OnlyVars D st st := ⟨fun _ _ => rfl, rfl, rfl, rfl, rfl⟩

theorem OnlyVars.trans {a b c : EState} (h : OnlyVars D a b) (h' : OnlyVars D b c) : OnlyVars D a c :=
  ⟨fun g hg => (h'.others g hg).trans (h.others g hg), h'.thrown.trans h.thrown, h'.interrupted.trans h.interrupted, h'.sown.trans h.sown, h'.frozen.trans h.frozen⟩

/-- The state after an assignment. -/
theorem Holds.assign (h : Holds st D σ) {x : String} (hx : x ∈ D) {n : Int} {st' : EState} (hb : Becomes st x (.int n) st') :
    Holds st' D (σ.set x n) ∧ OnlyVars D st st' := by
  obtain ⟨hv, hne⟩ := h.user x hx
  refine ⟨⟨hb.shell h.shell hv.user, by rw [hb.others _ (Ne.symm hne)]; exact h.cond, ?_, ?_⟩, ⟨?_, hb.thrown, hb.interrupted, hb.sown, hb.frozen⟩⟩
  · intro y hy
    obtain ⟨hy1, hy2⟩ := h.user y hy
    refine ⟨?_, hy2⟩
    by_cases hxy : y = x
    · subst hxy; exact hb.variable hy1
    · exact ⟨hy1.named, hy1.user, by have := hy1.rules; simp only [rulesFor] at this ⊢; rwa [hb.others y hxy]⟩
  · intro y hy m hm
    by_cases hxy : y = x
    · subst hxy
      simp only [Store.set, if_true, Option.some.injEq] at hm
      subst hm
      exact hb.value
    · rw [Store.set, if_neg hxy] at hm
      exact hb.keeps hxy (h.value y hy m hm)
  · intro g hg
    exact hb.others g (by rintro rfl; exact hg hx)

theorem final_value (h : Shell st) (v : Option Int) : Final (ctx A strLen fmt) st (valueEx v) := by
  cases v with
  | none => exact final_null h
  | some n => exact final_int n

theorem whole_value (v : Option Int) : hasHead "System`Return" (valueEx v) = false ∧ hasHead "System`Break" (valueEx v) = false := by
  cases v <;> exact ⟨rfl, rfl⟩

/-- The loop of the evaluator, started with an expression in place of another. -/
theorem loop_of_evals {c : Ctx} (hc : c.Mono) {st st' : EState} {e v : Ex} (h : Evals c st e st' v) : ∃ N, ∀ n, N ≤ n → ∀ k, N ≤ k → ∀ last, unchanged c last e = false →
    evalLoop c n (eval c n) k st false last e = .ok (st', v) := by
  obtain ⟨N, hN⟩ := h.at hc
  refine ⟨N + 1, fun n hn k hk last hu => ?_⟩
  obtain ⟨k, rfl⟩ : ∃ j, k = j + 1 := ⟨k - 1, by omega⟩
  cases e with
  | expr ps =>
    have h1 := hN (N + 1) (by omega)
    rw [eval_expr] at h1
    have := (evalLoop_mono hc (show N ≤ n by omega) (eval_mono hc (show N ≤ n by omega)) (N + 1) (k + 1) (by omega) st false none (.expr ps)).ok h1
    rw [← this]
    rw [evalLoop, if_neg (by simp [hu])]
    symm
    rw [evalLoop, if_neg (by simp [unchanged])]
  | _ =>
    unfold evalLoop
    rw [if_neg (by simp [hu])]
    exact hN n (by omega)

/-- The choice of `If`. -/
theorem pass_if (h : Holds st D σ) {b : BExp} (hv : b.vars ⊆ D) {t : Bool} (ht : b.Gives σ t) (e1 e2 : Ex) (w1 : Whole e1) (w2 : Whole e2) :
    ∃ N, ∀ n, N ≤ n → pass (ctx A strLen fmt) n (eval (ctx A strLen fmt) n) st [.sym "System`If", b.toEx, e1, e2] = .ok (st, .next (if t then e1 else e2) false) := by
  have ha : attrsOf st "System`If" = ifEntry.attrs := by simp [attrsOf, h.cond]
  have hnv : getSymDef st.toDState "System`If" = none := by simp [getSymDef, h.cond, ifEntry]
  refine pass_cmd (f := "System`If") mono h.shell.notThrown hnv (by rw [ha]; rfl)
    ⟨hnv, by simp [hasBuiltin, h.cond, ifEntry], rfl⟩
    (vs := [if t then S "True" else S "False", e1, e2]) ?_ ?_ ⟨0, fun n _ => ?_⟩ (fun ev e => by simp [ctx, algFind, getDef, h.cond, ifEntry, rulesReplace])
  · rw [ha]
    refine .step ?_ (evals_test h hv ht) h.shell.notThrown (.hold ?_ (.hold ?_ .nil))
    · simp [holds, ifEntry]
    · simp [holds, ifEntry]
    · simp [holds, ifEntry]
  · intro w hw
    simp only [List.mem_cons, List.not_mem_nil, or_false] at hw
    rcases hw with rfl | rfl | rfl
    · cases t <;> exact (whole_sym _).plain _
    · exact w1.plain _
    · exact w2.plain _
  · cases t <;> simp [ctx, fn, flowFn, ifFn, ifChoice, isEqual, S, vIf]

end Imp
end Expreduce
