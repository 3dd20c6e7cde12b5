import Verif.Proofs.EvalPass
import Verif.Proofs.SameQ

/-! Throw and Catch. -/

namespace Expreduce
open Ex

theorem evalArgs_throw {c : Ctx} (hc : c.Mono) {held : Nat → Prop} {hb : Nat → Bool} (hh : ∀ i, hb i = true ↔ held i)
    {i st left st1 vs} (h : EvalSeq c held i st left st1 vs) {p st2 t} (hp : Throws c st1 p st2 t) (hn : ¬ held (i + left.length))
    (right : List Ex) : ∃ N, ∀ n, N ≤ n → evalArgs (eval c n) hb i st (left ++ p :: right) = .ok (st2, .inr t) := by
  induction h with
  | nil =>
    obtain ⟨⟨v, hv⟩, ht⟩ := hp
    obtain ⟨N, hv⟩ := hv.at hc
    refine ⟨N, fun n hN => ?_⟩
    rw [List.nil_append, evalArgs, if_neg (fun h => hn (by simpa using (hh _).1 h)), hv n hN]
    simp only [Res.bind, ht]
  | @hold i st q qs st' vs h1 _ ih =>
    obtain ⟨N, ih⟩ := ih hp (by rwa [show i + 1 + qs.length = i + (q :: qs).length by simp; omega])
    refine ⟨N, fun n hN => ?_⟩
    rw [List.cons_append, evalArgs, if_pos ((hh _).2 h1), ih n hN]
    rfl
  | @step i st q qs st1' v st' vs h1 h2 h3 _ ih =>
    obtain ⟨N, ih⟩ := ih hp (by rwa [show i + 1 + qs.length = i + (q :: qs).length by simp; omega])
    obtain ⟨M, h2⟩ := h2.at hc
    refine ⟨max N M, fun n hN => ?_⟩
    rw [List.cons_append, evalArgs, if_neg (fun hp => h1 ((hh _).1 hp)), h2 n (by omega)]
    simp only [Res.bind, h3]
    rw [ih n (by omega)]
    rfl

theorem evals_of_ret {c : Ctx} {st st2 : EState} {ps : List Ex} {v : Ex} {N : Nat} (hskip : c.skip st (.expr ps) = false)
    (h1 : ∀ n, N ≤ n → pass c n (eval c n) st ps = .ok (st2, .ret v)) : Evals c st (.expr ps) st2 v :=
  ⟨N + 1, by rw [eval_expr, evalLoop_ret rfl (by simp) hskip (h1 N (by omega))]⟩

/-- A throw in an argument that is not held ends the call; the arguments to the right do not matter. -/
theorem throws_call {c : Ctx} (hc : c.Mono) {st st1 st2 : EState} {f : String} {left right vs : List Ex} {p t : Ex}
    (hskip : c.skip st (app f (left ++ p :: right)) = false) (ht : st.thrown = none) (hv : getSymDef st.toDState f = none)
    (hcond : conditional (attrsOf st f) (.sym f :: (left ++ p :: right)) = none)
    (hleft : EvalSeq c (holds (attrsOf st f)) 1 st left st1 vs) (hn : ¬ holds (attrsOf st f) (1 + left.length))
    (hp : Throws c st1 p st2 t) : Evals c st (app f (left ++ p :: right)) st2 t := by
  obtain ⟨N, h⟩ := evalArgs_throw hc (heldPart_iff (attrsOf st f)) hleft hp hn right
  refine evals_of_ret (N := N + 1) hskip (fun n hN => ?_)
  obtain ⟨n, rfl⟩ : ∃ m, n = m + 1 := ⟨n - 1, by omega⟩
  simp only [pass, headAttrs, hcond]
  have : evalArgs (eval c (n + 1)) (heldPart (attrsOf st f)) 0 st (.sym f :: (left ++ p :: right)) = .ok (st2, .inr t) := by
    rw [evalArgs]
    split
    · rw [h _ (by omega)]; rfl
    · rw [evalSymbol_none hv]
      simp only [Res.bind, ht]
      rw [h _ (by omega)]
      rfl
  rw [this]
  rfl

/-- While a throw is pending, a call whose head is evaluated does nothing. -/
theorem pass_pending {c : Ctx} {st : EState} {f : String} {args : List Ex} {t : Ex} (ht : st.thrown = some t)
    (hv : getSymDef st.toDState f = none) (hcond : conditional (attrsOf st f) (.sym f :: args) = none)
    (hh : (attrsOf st f).holdAll = false) (hhc : (attrsOf st f).holdAllComplete = false) (n : Nat) :
    pass c n (eval c (n + 1)) st (.sym f :: args) = .ok (st, .ret t) := by
  simp only [pass, headAttrs, hcond]
  rw [evalArgs, if_neg (by simp [heldPart, hh, hhc]), evalSymbol_none hv]
  simp only [Res.bind, ht]

theorem pending_call {c : Ctx} (hc : c.Mono) {st : EState} {f : String} {args : List Ex} {t : Ex} (ht : st.thrown = some t)
    (hv : getSymDef st.toDState f = none) (hcond : conditional (attrsOf st f) (.sym f :: args) = none)
    (hh : (attrsOf st f).holdAll = false) (hhc : (attrsOf st f).holdAllComplete = false)
    (hskip : c.skip st (app f args) = false) : Evals c st (app f args) st t := by
  refine evals_of_ret (N := 1) hskip (fun n hN => ?_)
  obtain ⟨n, rfl⟩ : ∃ m, n = m + 1 := ⟨n - 1, by omega⟩
  have := pass_pending (c := c) ht hv hcond hh hhc n
  exact (pass_mono hc (Nat.le_succ n) (fun _ _ => .refl _) _ _).ok this

/-- The loop with a finished expression. -/
theorem loop_done {c : Ctx} (hc : c.Mono) {st : EState} {v : Ex} (hd : Done c st v) :
    ∃ N, ∀ n, N ≤ n → ∀ k, N ≤ k → ∀ last, evalLoop c n (eval c n) k st false last v = .ok (st, v) := by
  obtain ⟨N, hN⟩ := hd
  refine ⟨N + 1, fun n hn k hk last => ?_⟩
  obtain ⟨k, rfl⟩ : ∃ j, k = j + 1 := ⟨k - 1, by omega⟩
  cases hu : unchanged c last v with
  | true => exact evalLoop_same hu
  | false =>
    by_cases hx : ∃ ps, v = .expr ps
    · obtain ⟨ps, rfl⟩ := hx
      obtain ⟨N, rfl⟩ : ∃ M, N = M + 1 := ⟨N - 1, by
        rcases N with _ | N
        · simp [eval] at hN
        · omega⟩
      rw [eval_expr] at hN
      have := (evalLoop_mono hc (show N ≤ n by omega) (eval_mono hc (show N ≤ n by omega)) (N + 1) (k + 1) (by omega) st false none (.expr ps)).ok hN
      rw [← this]
      rw [evalLoop, if_neg (by simp [hu])]
      symm
      rw [evalLoop, if_neg (by simp [unchanged])]
    · have he : eval c n st v = .ok (st, v) := (eval_mono hc (show N ≤ n by omega) st v).ok hN
      cases v with
      | expr ps => exact absurd ⟨ps, rfl⟩ hx
      | _ => unfold evalLoop; rw [if_neg (by simp [hu])]; exact he

/-- A built-in function whose first pass gives a finished expression. -/
theorem evals_of_pass_done {c : Ctx} (hc : c.Mono) {st st2 : EState} {ps : List Ex} {v : Ex} {N : Nat} (hskip : c.skip st (.expr ps) = false)
    (h1 : ∀ n, N ≤ n → pass c n (eval c n) st ps = .ok (st2, .next v false)) (hd : Done c st2 v) : Evals c st (.expr ps) st2 v := by
  obtain ⟨M, hM⟩ := loop_done hc hd
  refine ⟨max N M + 1, ?_⟩
  rw [eval_expr, evalLoop_next rfl (by simp) hskip (h1 _ (by omega))]
  exact hM _ (by omega) _ (by omega) _

/-- The pass of a built-in function whose arguments are ready. -/
theorem pass_builtin {c : Ctx} {n : Nat} {ev : Evaluator} {st st1 : EState} {f : String} {args vs ws : List Ex} {F}
    (ha : (attrsOf st f).noRearrange = true) (hb : Builtin c st1 f F)
    (hargs : evalArgs ev (heldPart (attrsOf st f)) 0 st (.sym f :: args) = .ok (st1, .inl (.sym f :: vs)))
    (hspl : spliceParts ev true (attrsOf st f) st1 (.sym f :: vs) = .ok (st1, .sym f :: ws)) :
    pass c n ev st (.sym f :: args) =
      (F n ev st1 (.sym f :: ws)).bind (fun r =>
        if isSameQ r.2 (app f ws) then
          (c.find ev r.1 f (app f ws)).bind (fun q => .ok (q.1, .next (q.2.getD r.2) q.2.isSome))
        else .ok (r.1, .next r.2 false)) := by
  simp only [Attrs.noRearrange, Bool.and_eq_true, Bool.not_eq_true'] at ha
  obtain ⟨⟨⟨h1, h2⟩, h3⟩, h4⟩ := ha
  have hnf : conditional (attrsOf st f) (.sym f :: args) = none := by simp [conditional, h4]
  simp only [pass, headAttrs, hnf, hargs, Res.bind, callSym, afterArgs, Option.isSome, hspl, symbolCase, h1, h2, h3, applyDefs, hb.builtin,
    hb.fn, if_true, Bool.false_eq_true, if_false, app]
  cases F n ev st1 (.sym f :: ws) with
  | stuck => rfl
  | panic => rfl
  | ok r =>
    cases hsq : isSameQ r.2 (.expr (.sym f :: ws))
    · simp only [hsq, Bool.false_eq_true, if_false]
    · simp only [hsq, if_true]
      cases c.find ev r.1 f (.expr (.sym f :: ws)) with
      | stuck => rfl
      | panic => rfl
      | ok q =>
        obtain ⟨q1, q2⟩ := q
        cases q2 <;> rfl

end Expreduce
