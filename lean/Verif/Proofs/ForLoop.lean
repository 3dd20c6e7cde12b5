import Verif.Props.AssignProg

/-! `For` and comparisons. -/

namespace Expreduce
open Ex
namespace AssignProg

variable {A : AlgParams} {strLen : Ex → Nat} {fmt : Rat → String}

theorem final_null {st : EState} (h : Shell st) : Final (ctx A strLen fmt) st (S "Null") := final_sym (h.noValue _ (by simp))

theorem evals_compound {st st1 st2 : EState} (h : Shell st) (h1 : Shell st1) (h2 : Shell st2) {p q v w : Ex} (hp : Evals (ctx A strLen fmt) st p st1 v)
    (hq : Evals (ctx A strLen fmt) st1 q st2 w) (wp : Whole p) (wq : Whole q) (rv : hasHead "System`Return" v = false) (rw' : hasHead "System`Return" w = false)
    (hd : Done (ctx A strLen fmt) st2 w) : Evals (ctx A strLen fmt) st (.expr [S "CompoundExpression", p, q]) st2 w := by
  obtain ⟨N, hN⟩ := pass_compound h h1 h2 hp hq wp wq rv rw'
  exact evals_of_pass_done mono rfl hN hd

theorem ForRuns.shell {c : Ctx} {test incr body : Ex} {st st' : EState} (h : ForRuns c test incr body st st') : Shell st' := by
  induction h with
  | stop _ _ h => exact h
  | round _ _ _ _ _ _ _ _ _ _ _ ih => exact ih

theorem while_of_for {test incr body : Ex} (wi : Whole incr) (wb : Whole body) {st st' : EState} (h : ForRuns (ctx A strLen fmt) test incr body st st') :
    ∃ N, ∀ n, N ≤ n → ∀ k, N ≤ k →
      whileLoop (eval (ctx A strLen fmt) n) test (.expr [S "CompoundExpression", body, incr]) k st = .ok (st', S "Null") := by
  induction h with
  | @stop st st' v h1 h2 _ =>
    obtain ⟨N, hN⟩ := h1.at mono
    refine ⟨N + 1, fun n hn k hk => ?_⟩
    obtain ⟨k, rfl⟩ : ∃ j, k = j + 1 := ⟨k - 1, by omega⟩
    rw [whileLoop, hN n (by omega)]
    simp [Res.bind, h2]
  | @round st st1 st2 st3 st' v w h1 h2 h3 s1 s2 s3 r1 r2 b hd _ ih =>
    obtain ⟨N, hN⟩ := h1.at mono
    obtain ⟨M, hM⟩ := (evals_compound s1 s2 s3 h2 h3 wb wi r1 r2 hd).at mono
    obtain ⟨K, hK⟩ := ih
    refine ⟨max (max N M) K + 1, fun n hn k hk => ?_⟩
    obtain ⟨k, rfl⟩ : ∃ j, k = j + 1 := ⟨k - 1, by omega⟩
    rw [whileLoop, hN n (by omega)]
    have ht : isSameQ (S "True") (S "True") = true := by decide +kernel
    have hr : tryReturn st3 w = none := by
      unfold tryReturn
      rw [s3.notInterrupted, (argsOf_noneE _ _).2 r2]; rfl
    simp only [Res.bind, ht, if_true, hM n (by omega), hr, isBreak, b, Bool.false_eq_true, if_false]
    exact hK n (by omega) k (by omega)

theorem evals_while {test incr body : Ex} (wt : Whole test) (wi : Whole incr) (wb : Whole body) {st st' : EState} (hs : Shell st)
    (h : ForRuns (ctx A strLen fmt) test incr body st st') :
    Evals (ctx A strLen fmt) st (.expr [S "While", test, .expr [S "CompoundExpression", body, incr]]) st' (S "Null") := by
  have hm : ("System`While", ({ attrs := { holdAll := true, prot := true }, builtin := true } : DefM)) ∈ entries := by simp [entries]
  have ha := attrs_of hs hm
  obtain ⟨N, hN⟩ := while_of_for wi wb h
  refine evals_of_pass_final mono same_refl' rfl ?_ (final_null h.shell)
  refine pass_cmd (f := "System`While") mono hs.notThrown (by simp [getSymDef, hs.entryOf hm]) (by rw [ha]; rfl)
    (builtin_of hs hm rfl rfl (F := whileFn) (by funext n ev st ps; simp [fn, flowFn]))
    (vs := [test, .expr [S "CompoundExpression", body, incr]]) (by rw [ha]; exact evalSeq_allHeld rfl _ _) ?_ ⟨N, fun n hn => hN n hn n hn⟩
    (fun ev e => find_none h.shell hm rfl ev e)
  intro w hw
  simp only [List.mem_cons, List.not_mem_nil, or_false] at hw
  rcases hw with rfl | rfl
  · exact wt.plain _
  · exact Whole.plain ⟨rfl, rfl, rfl⟩ _

/-- A comparison of numbers. -/
theorem evals_compare {f : String} (F : List Ex → Option Bool) {st : EState} (h : Shell st)
    (hf : f = "System`Less" ∧ F = lessEval numToN ∨ f = "System`LessEqual" ∧ F = lessEqualEval numToN) {e1 e2 p q : Ex} {b : Bool}
    (h1 : Evals (ctx A strLen fmt) st e1 st p) (h2 : Evals (ctx A strLen fmt) st e2 st q) (wp : Whole p) (wq : Whole q) (hb : F [p, q] = some b) :
    Evals (ctx A strLen fmt) st (.expr [.sym f, e1, e2]) st (if b then S "True" else S "False") := by
  have hm : (f, ({ attrs := { prot := true }, builtin := true } : DefM)) ∈ entries := by rcases hf with ⟨rfl, -⟩ | ⟨rfl, -⟩ <;> simp [entries]
  have ha := attrs_of h hm
  have hfin : Final (ctx A strLen fmt) st (if b then S "True" else S "False") := by
    cases b
    · exact final_sym (h.noValue _ (by simp))
    · exact final_sym (h.noValue _ (by simp))
  refine evals_of_pass_final mono same_refl' rfl ?_ hfin
  refine pass_cmd (f := f) mono h.notThrown (by simp [getSymDef, h.entryOf hm]) (by rw [ha]; rfl)
    (builtin_of h hm rfl rfl (F := fun _ _ st ps => .ok (st, truthEx ps (F ps.tail))) (by
      funext n ev st ps
      rcases hf with ⟨rfl, rfl⟩ | ⟨rfl, rfl⟩ <;> simp [fn]))
    (vs := [p, q]) ?_ ?_ ⟨0, fun n _ => by simp only [List.tail_cons, hb]; cases b <;> rfl⟩ (fun ev e => find_none h hm rfl ev e)
  · rw [ha]
    have : holds ({ prot := true } : Attrs) = fun _ => False := by funext i; simp [holds]
    rw [this]; exact .two h.notThrown h1 h2 1
  · intro w hw
    simp only [List.mem_cons, List.not_mem_nil, or_false] at hw
    rcases hw with rfl | rfl
    · exact wp.plain _
    · exact wq.plain _

end AssignProg
end Expreduce
