import Verif.Proofs.UserFn
import Mathlib.Data.Nat.Factorial.Basic
import Mathlib.Data.Nat.Fib.Basic

/-! C121: functions defined by the user, by cases and by recursion. -/

namespace Expreduce
open Ex
open AssignProg

section
variable {A : AlgParams} {strLen : Ex → Nat} {fmt : Rat → String}

/-- C121: The value of a call `f[a, b, ...]` of a function with several definitions: the arguments are evaluated from left to right; the first definition whose integers are among the values in
their places is used; the value is that of its right side with the values in the places of the names. -/
theorem C121_call_partial (hA : 3 ≤ A.bound) (hL : LocalsOk A.locals) {st st1 st2 : EState} {f : String} {cs : List Clause} (hf : HasClauses st f cs) (hf1 : HasClauses st1 f cs)
    (ht : st.thrown = none) {args vs : List Ex} (hseq : EvalSeq (ctx A strLen fmt) (holds (attrsOf st f)) 1 st args st1 vs)
    (hw : ∀ w ∈ vs, Whole w) (ha : ∀ w ∈ vs, w ≠ .expr []) (hl : ∀ cl ∈ cs, cl.args.length = vs.length) (before : List Clause) (cl : Clause) (after : List Clause)
    (hcs : cs = before ++ cl :: after) (hbefore : ∀ b ∈ before, agree b.args vs = false) (hag : agree cl.args vs = true)
    (hc : ∀ s ∈ ["System`Condition", "System`With", "System`Module"], hasHead s (cl.instance vs) = false) (hne : cl.instance vs ≠ app f args) {v : Ex}
    (hb : EvalsBody (ctx A strLen fmt) st1 (cl.instance vs) st2 v) : Evals (ctx A strLen fmt) st (app f args) st2 v := by
  refine evals_call hA hL hf hf1 ht hseq hw ha hl (cl := cl) ?_ hc hne hb
  rw [hcs, List.find?_append]
  have : before.find? (fun cl => agree cl.args vs) = none := by
    rw [List.find?_eq_none]
    intro b hb; simp [hbefore b hb]
  rw [this]
  simp [List.find?, hag]

/-- C121: A call that no definition fits stays, with its arguments evaluated. -/
theorem C121_no_clause (hA : 3 ≤ A.bound) (hL : LocalsOk A.locals) {st : EState} {f : String} {cs : List Clause} (hf : HasClauses st f cs)
    (ht : st.thrown = none) {vs : List Ex} (hseq : ∀ v ∈ vs, Done (ctx A strLen fmt) st v)
    (hw : ∀ w ∈ vs, Whole w) (ha : ∀ w ∈ vs, w ≠ .expr []) (hl : ∀ cl ∈ cs, cl.args.length = vs.length) (hno : ∀ cl ∈ cs, agree cl.args vs = false) :
    Done (ctx A strLen fmt) st (app f vs) := by
  have hnone : cs.find? (fun cl => agree cl.args vs) = none := by
    rw [List.find?_eq_none]
    intro b hb; simp [hno b hb]
  have hs : EvalSeq (ctx A strLen fmt) (holds (attrsOf st f)) 1 st vs st vs := by
    have : ∀ i, EvalSeq (ctx A strLen fmt) (holds (attrsOf st f)) i st vs st vs := by
      clear hw ha hl hno hnone
      induction vs with
      | nil => exact fun _ => .nil
      | cons v vs ih =>
        intro i
        by_cases hi : holds (attrsOf st f) i
        · exact .hold hi (ih (fun w hw => hseq w (by simp [hw])) _)
        · exact .step hi (hseq v (by simp)) ht (ih (fun w hw => hseq w (by simp [hw])) _)
    exact this 1
  obtain ⟨N, hN⟩ := pass_call (strLen := strLen) (fmt := fmt) hA hL hf hf ht hs hw ha hl (by intro cl _ h; rw [hnone] at h; cases h)
  rw [hnone] at hN
  refine ⟨N + 2, ?_⟩
  rw [app, eval_expr, evalLoop_next rfl (by simp) rfl (hN _ (by omega))]
  exact evalLoop_same (by simp [unchanged, app, same_refl'])

/-- `x - c` in the places where it occurs below. -/
theorem AssignProg.evals_minus {st : EState} (h : Shell st) (a c : Int) : Evals (ctx A strLen fmt) st (minusEx (.int a) (.int c)) st (.int (a - c)) :=
  evals_arith (f := "System`Plus") _ h (.inl ⟨rfl, rfl⟩) rfl (done_int a) (times_neg h c) rfl rfl rfl (by rw [plusEval_ints]; congr 1)
    (by rw [plusEval_ints]; congr 1; omega)

theorem AssignProg.one_value {st st' : EState} (ht : st'.thrown = none) {f : String} {cs : List Clause} (hf : HasClauses st f cs) (hh : ¬ holds (attrsOf st f) 1) {e v : Ex}
    (he : Evals (ctx A strLen fmt) st e st' v) : EvalSeq (ctx A strLen fmt) (holds (attrsOf st f)) 1 st [e] st' [v] := .step hh he ht .nil

theorem AssignProg.not_entry {st : EState} (h : Shell st) {f g : String} {cs : List Clause} (hf : HasClauses st f cs) {d : DefM} (hm : (g, d) ∈ entries) (hd : d.builtin = true) : f ≠ g := by
  rintro rfl
  obtain ⟨d', h1, h2, -⟩ := hf.stored
  rw [h.entryOf hm] at h1
  obtain rfl := Option.some.inj h1
  rw [h2] at hd; cases hd

theorem AssignProg.no_return {st : EState} (h : Shell st) {g : String} (hg : g ≠ "System`Return") (ps : List Ex) : tryReturn st (.expr (.sym g :: ps)) = none := by
  unfold tryReturn
  rw [h.notInterrupted, (argsOf_noneE _ _).2 (by simpa [hasHead] using hg)]
  rfl

/-- `f[0] = 1; f[x_] := x * f[x - 1]`. -/
def factorialClauses (f x : String) : List Clause :=
  [⟨[.lit 0], .int 1⟩, ⟨[.any x], .expr [S "Times", .sym x, .expr [.sym f, minusEx (.sym x) (.int 1)]]⟩]

/-- C121: `f[0] = 1; f[x_] := x f[x - 1]` computes factorials, for every argument that evaluates to a natural number, however large. (No integer up to it has the fingerprint of 0.) -/
theorem C121_factorial_partial (hA : 3 ≤ A.bound) (hL : LocalsOk A.locals) {st : EState} (h : Shell st) {f x : String} (hf : HasClauses st f (factorialClauses f x))
    (hh : ¬ holds (attrsOf st f) 1) (hx : x ≠ f ∧ x ≠ "System`Times" ∧ x ≠ "System`Plus") :
    ∀ (n : Nat), (∀ k : Nat, 0 < k → k ≤ n → isSameQ (.int k) (.int 0) = false) → ∀ e, Evals (ctx A strLen fmt) st e st (.int n) →
      Evals (ctx A strLen fmt) st (app f [e]) st (.int n.factorial) := by
  intro n
  induction n with
  | zero =>
    intro _ e he
    refine evals_call hA hL hf hf h.notThrown (one_value h.notThrown hf hh he) (by intro w hw; simp at hw; subst hw; exact whole_int _) (by simp)
      (by simp [factorialClauses]) (cl := ⟨[.lit 0], .int 1⟩) ?_ ?_ (by simp [Clause.instance, subst, app]) (body_atom (by simp [Clause.instance, subst]) (done_int _))
    · have : (ArgPat.lit 0).takes (.int 0) = true := by decide +kernel
      simp [factorialClauses, agree, this]
    · intro s _; simp [Clause.instance, subst, hasHead]
  | succ n ih =>
    intro hk e he
    have hno : (ArgPat.lit 0).takes (.int ((n + 1 : Nat) : Int)) = false := hk (n + 1) (by omega) (by omega)
    have e1 : Clause.instance ⟨[.any x], .expr [S "Times", .sym x, .expr [.sym f, minusEx (.sym x) (.int 1)]]⟩ [.int ((n + 1 : Nat) : Int)] =
        .expr [S "Times", .int ((n + 1 : Nat) : Int), .expr [.sym f, minusEx (.int ((n + 1 : Nat) : Int)) (.int 1)]] := by
      simp [Clause.instance, subst, substL, paramOf, minusEx, S, hx.2.1.symm, hx.2.2.symm, hx.1.symm]
    have ih' := ih (fun k h1 h2 => hk k h1 (by omega)) (minusEx (.int ((n + 1 : Nat) : Int)) (.int 1)) (by
      have := evals_minus (A := A) (strLen := strLen) (fmt := fmt) h ((n + 1 : Nat) : Int) 1
      rwa [show ((n + 1 : Nat) : Int) - 1 = n by omega] at this)
    obtain ⟨N, hN⟩ := pass_arith (A := A) (strLen := strLen) (fmt := fmt) (f := "System`Times") _ h h.notThrown h (.inr ⟨rfl, rfl⟩) (r := .int (n + 1).factorial)
      rfl (done_int ((n + 1 : Nat) : Int)) ih' rfl rfl (by rw [timesEval_ints]; congr 1) (by rw [timesEval_ints, Nat.factorial_succ]; congr 1; push_cast; ring)
    refine evals_call hA hL hf hf h.notThrown (one_value h.notThrown hf hh he) (by intro w hw; simp at hw; subst hw; exact whole_int _) (by simp)
      (by simp [factorialClauses]) (cl := ⟨[.any x], .expr [S "Times", .sym x, .expr [.sym f, minusEx (.sym x) (.int 1)]]⟩) ?_ ?_ ?_ ?_
    · rw [factorialClauses, List.find?_cons_of_neg (by simp only [agree, hno]; simp)]
      simp [agree, ArgPat.takes]
    · rw [e1]; intro s hs; simp at hs; rcases hs with rfl | rfl | rfl <;> rfl
    · rw [e1]
      simp only [app, ne_eq, Ex.expr.injEq, List.cons.injEq, not_and]
      intro h' _
      exact absurd (Ex.sym.inj h').symm (not_entry h hf (g := "System`Times") (d := { attrs := arithAttrs, builtin := true }) (by simp [entries]) rfl)
    · rw [e1]
      exact body_of_pass mono same_refl' rfl (no_return h (g := "System`Times") (by decide) _) hN (final_int _)

/-- `f[0] = 0; f[1] = 1; f[x_] := f[x - 1] + f[x - 2]`. -/
def fibClauses (f x : String) : List Clause :=
  [⟨[.lit 0], .int 0⟩, ⟨[.lit 1], .int 1⟩,
   ⟨[.any x], .expr [S "Plus", .expr [.sym f, minusEx (.sym x) (.int 1)], .expr [.sym f, minusEx (.sym x) (.int 2)]]⟩]

/-- C121: `f[0] = 0; f[1] = 1; f[x_] := f[x - 1] + f[x - 2]` computes the Fibonacci numbers. (No other integer up to the argument has the fingerprint of 0 or 1.) -/
theorem C121_fibonacci_partial (hA : 3 ≤ A.bound) (hL : LocalsOk A.locals) {st : EState} (h : Shell st) {f x : String} (hf : HasClauses st f (fibClauses f x))
    (hh : ¬ holds (attrsOf st f) 1) (hx : x ≠ f ∧ x ≠ "System`Times" ∧ x ≠ "System`Plus") :
    ∀ (n : Nat), (∀ k : Nat, k ≤ n → (0 < k → isSameQ (.int k) (.int 0) = false) ∧ (1 < k → isSameQ (.int k) (.int 1) = false)) →
      ∀ e, Evals (ctx A strLen fmt) st e st (.int n) → Evals (ctx A strLen fmt) st (app f [e]) st (.int (Nat.fib n)) := by
  intro n
  induction n using Nat.strong_induction_on with
  | _ n ih =>
  intro hk e he
  have hne : ∀ g ∈ ["System`Plus"], f ≠ g := by
    intro g hg; simp at hg; subst hg
    exact not_entry h hf (g := "System`Plus") (d := { attrs := arithAttrs, builtin := true }) (by simp [entries]) rfl
  have hw : ∀ w ∈ [Ex.int n], Whole w := by intro w hw; simp at hw; subst hw; exact whole_int _
  match n, ih, hk, he, hw with
  | 0, _, _, he, hw =>
    refine evals_call hA hL hf hf h.notThrown (one_value h.notThrown hf hh he) hw (by simp)
      (by simp [fibClauses]) (cl := ⟨[.lit 0], .int 0⟩) ?_ ?_ (by simp [Clause.instance, subst, app]) (body_atom (by simp [Clause.instance, subst]) (done_int _))
    · have : (ArgPat.lit 0).takes (.int 0) = true := by decide +kernel
      simp [fibClauses, agree, this]
    · intro s _; simp [Clause.instance, subst, hasHead]
  | 1, _, hk, he, hw =>
    refine evals_call hA hL hf hf h.notThrown (one_value h.notThrown hf hh he) hw (by simp)
      (by simp [fibClauses]) (cl := ⟨[.lit 1], .int 1⟩) ?_ ?_ (by simp [Clause.instance, subst, app]) (body_atom (by simp [Clause.instance, subst]) (done_int _))
    · have h0 : (ArgPat.lit 0).takes (.int 1) = false := (hk 1 (by omega)).1 (by omega)
      have h1 : (ArgPat.lit 1).takes (.int 1) = true := by decide +kernel
      simp [fibClauses, agree, h0, h1]
    · intro s _; simp [Clause.instance, subst, hasHead]
  | n + 2, ih, hk, he, hw =>
    have hno0 : (ArgPat.lit 0).takes (.int ((n + 2 : Nat) : Int)) = false := (hk (n + 2) (by omega)).1 (by omega)
    have hno1 : (ArgPat.lit 1).takes (.int ((n + 2 : Nat) : Int)) = false := (hk (n + 2) (by omega)).2 (by omega)
    have e1 : Clause.instance ⟨[.any x], .expr [S "Plus", .expr [.sym f, minusEx (.sym x) (.int 1)], .expr [.sym f, minusEx (.sym x) (.int 2)]]⟩ [.int ((n + 2 : Nat) : Int)] =
        .expr [S "Plus", .expr [.sym f, minusEx (.int ((n + 2 : Nat) : Int)) (.int 1)], .expr [.sym f, minusEx (.int ((n + 2 : Nat) : Int)) (.int 2)]] := by
      simp [Clause.instance, subst, substL, paramOf, minusEx, S, hx.2.1.symm, hx.2.2.symm, hx.1.symm]
    have ih1 := ih (n + 1) (by omega) (fun k h1 => hk k (by omega)) (minusEx (.int ((n + 2 : Nat) : Int)) (.int 1)) (by
      have := evals_minus (A := A) (strLen := strLen) (fmt := fmt) h ((n + 2 : Nat) : Int) 1
      rwa [show ((n + 2 : Nat) : Int) - 1 = (n + 1 : Nat) by omega] at this)
    have ih2 := ih n (by omega) (fun k h1 => hk k (by omega)) (minusEx (.int ((n + 2 : Nat) : Int)) (.int 2)) (by
      have := evals_minus (A := A) (strLen := strLen) (fmt := fmt) h ((n + 2 : Nat) : Int) 2
      rwa [show ((n + 2 : Nat) : Int) - 2 = (n : Nat) by omega] at this)
    have hcond : propagate [.sym "System`Plus", app f [minusEx (.int ((n + 2 : Nat) : Int)) (.int 1)], app f [minusEx (.int ((n + 2 : Nat) : Int)) (.int 2)]] = none := rfl
    obtain ⟨N, hN⟩ := pass_arith (A := A) (strLen := strLen) (fmt := fmt) (f := "System`Plus") _ h h.notThrown h (.inl ⟨rfl, rfl⟩) (r := .int (Nat.fib (n + 2)))
      hcond ih1 ih2 rfl rfl (by rw [plusEval_ints, Nat.fib_add_two]; congr 1; push_cast; ring) (by rw [plusEval_ints, Nat.fib_add_two]; congr 1)
    refine evals_call hA hL hf hf h.notThrown (one_value h.notThrown hf hh he) hw (by simp)
      (by simp [fibClauses]) (cl := ⟨[.any x], .expr [S "Plus", .expr [.sym f, minusEx (.sym x) (.int 1)], .expr [.sym f, minusEx (.sym x) (.int 2)]]⟩) ?_ ?_ ?_ ?_
    · rw [fibClauses, List.find?_cons_of_neg (by simp only [agree, hno0]; simp), List.find?_cons_of_neg (by simp only [agree, hno1]; simp)]
      simp [agree, ArgPat.takes]
    · rw [e1]; intro s hs; simp at hs; rcases hs with rfl | rfl | rfl <;> rfl
    · rw [e1]
      simp only [app, ne_eq, Ex.expr.injEq, List.cons.injEq, not_and]
      intro h' _
      exact absurd (Ex.sym.inj h').symm (hne _ (by simp))
    · rw [e1]
      exact body_of_pass mono same_refl' rfl (no_return h (g := "System`Plus") (by decide) _) hN (final_int _)

end
end Expreduce
