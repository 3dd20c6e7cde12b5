import Verif.Props.Replace
import Verif.Props.Integral
import Verif.Model.Definite
import Mathlib.MeasureTheory.Integral.DivergenceTheorem

/-! Property C113: definite integrals. -/

namespace Expreduce
open Ex Shipped Set

mutual
/-- The expression is built from numbers, symbols and calls of functions other than `x`. -/
def callsNot (x : String) : Ex → Bool
  | .int _ => true
  | .rat _ _ => true
  | .sym s => s != "System`Sequence"
  | .expr (.sym s :: es) => s != x && callsNotL x es
  | _ => false
/-- The same for a list. -/
def callsNotL (x : String) : List Ex → Bool
  | [] => true
  | e :: es => callsNot x e && callsNotL x es
end

theorem callsNotL_mem {x : String} : ∀ {es : List Ex}, callsNotL x es = true → ∀ e ∈ es, callsNot x e = true
  | [], _, e, he => by cases he
  | a :: es, h, e, he => by
    simp only [callsNotL, Bool.and_eq_true] at h
    rcases List.mem_cons.1 he with rfl | he
    · exact h.1
    · exact callsNotL_mem h.2 e he

/-- The value after a replacement. -/
theorem val_replaced {V : Interp} {x : String} (hx : isVariable x) {c : Ex} {w : ℂ} (hc : V.Denotes c w) : ∀ (n : Nat) (e : Ex), sizeOf e < n → callsNot x e = true →
    V.meaning.argVals (subst (bind1 x c) e) = (V.put x w).meaning.argVals e := by
  intro n
  induction n with
  | zero => intro e h; omega
  | succ n ih =>
    intro e hn he
    unfold callsNot at he
    split at he
    · rfl
    · rfl
    · rename_i s
      by_cases hs : s = x
      · subst hs
        have h1 : subst (bind1 s c) (.sym s) = c := by simp [subst, bind1]
        rw [h1]
        have h2 := den_var (V := V) hx w
        unfold Interp.Denotes at h2 hc
        rw [h2, hc]
      · have h1 : subst (bind1 x c) (.sym s) = .sym s := by simp [subst, bind1, hs]
        rw [h1, argVals_sym, argVals_sym]
        congr 1
        change atomValue V (.sym s) = atomValue (V.put x w) (.sym s)
        simp [atomValue, Interp.put, hs]
    · rename_i s es
      simp only [Bool.and_eq_true, bne_iff_ne, ne_eq] at he
      have h1 : subst (bind1 x c) (.expr (.sym s :: es)) = .expr (.sym s :: es.map (subst (bind1 x c))) := subst_call (by simp [bind1, he.1]) es
      have hsz : ∀ e ∈ es, sizeOf e < n := by
        intro e he
        have := List.sizeOf_lt_of_mem he
        simp only [Ex.expr.sizeOf_spec, List.cons.sizeOf_spec] at hn
        omega
      have hm := callsNotL_mem he.2
      have hl : V.meaning.vals (es.map (subst (bind1 x c))) = (V.put x w).meaning.vals es := by
        clear h1 hn he
        induction es with
        | nil => rfl
        | cons e es ihl =>
          rw [List.map_cons, Meaning.vals_cons, Meaning.vals_cons, ih e (hsz e (by simp)) (hm e (by simp)),
            ihl (fun e he => hsz e (by simp [he])) (fun e he => hm e (by simp [he]))]
      rw [h1]
      by_cases hs : s = "System`Sequence"
      · subst hs
        exact Meaning.argVals_seq.trans (hl.trans Meaning.argVals_seq.symm)
      · rw [Meaning.argVals_app hs, Meaning.argVals_app hs, hl]
        rfl
    · cases he

/-- Replacement of a symbol. -/
theorem replaceAll_symbol (env : MEnv) (m : Nat) (hm : 1 ≤ m) (e c : Ex) (x : String) (hw : wellFormed e = true) (hs : containsSymbol "" e = false)
    (hd : NoCollision (subexprs e ++ subexprs (subst (bind1 x c) e) ++ [.sym x])) :
    replaceAllFn env m e (.expr [S "Rule", .sym x, c]) = some (subst (bind1 x c) e) := by
  have hd1 : Decides env m (.sym x) c (onlyAt (.sym x) c) e := decides_symbol hm hw (fun u hu hh => hd _ (by simp [hu]) _ (by simp) hh)
  have hne : ∀ u ∈ subexprs e, hasHead "" u = false := hasHead_empty hs
  have hre : ∀ u ∈ subexprs e, rewriteOut (hasHead "") (onlyAt (.sym x) c) u = subst (bind1 x c) u :=
    fun u hu => rewriteOut_subst u (fun w hw => hne w (subexprs_trans hw hu))
  have hstep := replaceAll_eq (env := env) (m := m) (stop := "") (lhs := .sym x) (rhs := c) (hit := onlyAt (.sym x) c) (by simp) _ hd1 (by
    intro u hu hh
    rw [hre u hu] at hh ⊢
    have := subst_subexprs (ρ := bind1 x c) _ hu
    exact hd _ (by simp [this]) _ (by simp [hu]) hh)
  rw [hre _ (subexprs_self _)] at hstep
  unfold replaceAllFn
  have := getValidRules_rule (.sym x) c
  unfold rule at this
  rw [this]
  simp only [rulesReplaceAll, ruleSides]
  rw [hstep]

/-- If `anti` is an antiderivative of `f` on the interval, without a jump, then the result is the integral. -/
theorem C113_definite_partial (V : Interp) (env : MEnv) (m : Nat) (hm : 1 ≤ m) (x : String) (hx : isVariable x) (anti start stop : Ex)
    (hc : callsNot x anti = true) (hw : wellFormed anti = true) (he : containsSymbol "" anti = false)
    (hd : ∀ c ∈ [start, stop], NoCollision (subexprs anti ++ subexprs (subst (bind1 x c) anti) ++ [.sym x]))
    (a b : ℝ) (ha : V.Denotes start a) (hb : V.Denotes stop b) (f F : ℝ → ℂ)
    (hF : ∀ t ∈ uIcc a b, (V.put x t).Denotes anti (F t)) (hcont : ContinuousOn F (uIcc a b)) (s : Set ℝ) (hcount : s.Countable)
    (hderiv : ∀ t ∈ Ioo (min a b) (max a b) \ s, HasDerivAt F (f t) t) (hint : IntervalIntegrable f MeasureTheory.volume a b) :
    ∃ r, definiteFn env m anti x start stop = some r ∧ V.Denotes r (∫ t in a..b, f t) := by
  have h1 := replaceAll_symbol env m hm anti start x hw he (hd _ (by simp))
  have h2 := replaceAll_symbol env m hm anti stop x hw he (hd _ (by simp))
  refine ⟨_, by rw [definiteFn, h1, h2], ?_⟩
  have k1 : V.Denotes (subst (bind1 x start) anti) (F a) := by
    unfold Interp.Denotes
    rw [val_replaced hx ha _ anti (Nat.lt_succ_self _) hc]
    exact hF a left_mem_uIcc
  have k2 : V.Denotes (subst (bind1 x stop) anti) (F b) := by
    unfold Interp.Denotes
    rw [val_replaced hx hb _ anti (Nat.lt_succ_self _) hc]
    exact hF b right_mem_uIcc
  rw [MeasureTheory.integral_eq_of_hasDerivAt_off_countable F f hcount hcont hderiv hint]
  exact den_sub k2 k1

/-! ### Examples -/

/-- `x^3/3`, from 0 to 1 -/
def cube3 : Ex := dv (pow sx (.int 3)) (.int 3)

theorem cube3_den (V : Interp) (z : ℂ) : (V.put "Global`x" z).Denotes cube3 (z ^ 3 / 3) := by
  have h := den_var (V := V) sx_var z
  have := den_dv (den_pow (v := z ^ (3 : ℕ)) h (den_int 3) (by have := powValue_natCast (z := z) (n := 3) (by decide); simpa using this)) (den_int (V := V.put "Global`x" z) 3) (by norm_num)
  rw [show (((3 : Int) : ℂ)) = 3 by norm_num] at this
  exact this

/-- `Integrate[x^2, {x, 0, 1}]`. -/
example (V : Interp) : ∃ r, definiteFn solveEnv 60 cube3 "Global`x" (.int 0) (.int 1) = some r ∧ V.Denotes r (∫ t in (0 : ℝ)..1, (fun t : ℝ => (t : ℂ) ^ 2) t) := by
  have hder : ∀ t : ℝ, HasDerivAt (fun t : ℝ => (t : ℂ) ^ 3 / 3) ((t : ℂ) ^ 2) t := by
    intro t
    have h := ((hasDerivAt_id (t : ℂ)).comp_ofReal).pow 3
    have h2 := h.div_const 3
    simpa using h2
  refine C113_definite_partial V solveEnv 60 (by decide) "Global`x" sx_var cube3 (.int 0) (.int 1) (by decide +kernel) (by decide +kernel) (by decide +kernel)
    (by unfold NoCollision; decide +kernel) 0 1 (by simpa using den_int (V := V) 0) (by simpa using den_int (V := V) 1) _ (fun t => (t : ℂ) ^ 3 / 3)
    (fun t _ => cube3_den V t) (fun t _ => (hder t).continuousAt.continuousWithinAt) ∅ countable_empty (fun t _ => hder t) ?_
  exact (Continuous.pow Complex.continuous_ofReal 2).intervalIntegrable _ _

/-- `-1/x` -/
def negInv : Ex := mul [.int (-1), pow sx (.int (-1))]

/-- Without the condition this is false: the derivative of `-1/x` is `1/x^2` wherever it is defined, which is positive, but `Integrate[1/x^2, {x, -1, 1}]` gives
`-1/1 - (-1/(-1))`, that is `-2`. -/
theorem C113_wrong_pole (V : Interp) : (∀ t : ℝ, t ≠ 0 → (V.put "Global`x" t).Denotes negInv (-1 / t) ∧ HasDerivAt (fun t : ℝ => -1 / t) (1 / t ^ 2) t ∧ 0 < 1 / t ^ 2) ∧
    ∃ r, definiteFn solveEnv 60 negInv "Global`x" (.int (-1)) (.int 1) = some r ∧ V.Denotes r (-2) := by
  have hval : ∀ z : ℂ, z ≠ 0 → (V.put "Global`x" z).Denotes negInv (-1 / z) := by
    intro z hz
    have h := den_var (V := V) sx_var z
    have hp := den_pow (v := z⁻¹) h (den_int (-1)) (by rw [powValue_some]; exact ⟨.inl hz, by simp [Complex.cpow_neg_one]⟩)
    exact den_app (by decide) (.cons (den_int _) (.cons hp .nil)) (by rw [show "System`" ++ "Times" = "System`Times" by decide, arith_times]; simp [div_eq_mul_inv])
  refine ⟨fun t ht => ⟨?_, ?_, by positivity⟩, ?_⟩
  · have := hval t (by exact_mod_cast ht)
    simpa using this
  · have h := (hasDerivAt_inv ht).const_mul (-1)
    have e1 : (fun t : ℝ => -1 / t) = fun y => -1 * y⁻¹ := by funext t; simp [div_eq_mul_inv]
    have e2 : 1 / t ^ 2 = -1 * -(t ^ 2)⁻¹ := by simp
    rw [e1, e2]
    exact h
  · have h1 := replaceAll_symbol solveEnv 60 (by decide) negInv (.int (-1)) "Global`x" (by decide +kernel) (by decide +kernel) (by unfold NoCollision; decide +kernel)
    have h2 := replaceAll_symbol solveEnv 60 (by decide) negInv (.int 1) "Global`x" (by decide +kernel) (by decide +kernel) (by unfold NoCollision; decide +kernel)
    refine ⟨_, by rw [definiteFn, h1, h2], ?_⟩
    have k1 : V.Denotes (subst (bind1 "Global`x" (.int (-1))) negInv) 1 := by
      unfold Interp.Denotes
      rw [val_replaced sx_var (den_int _) _ negInv (Nat.lt_succ_self _) (by decide +kernel)]
      have := hval ((-1 : Int) : ℂ) (by norm_num)
      simpa [Interp.Denotes] using this
    have k2 : V.Denotes (subst (bind1 "Global`x" (.int 1)) negInv) (-1) := by
      unfold Interp.Denotes
      rw [val_replaced sx_var (den_int _) _ negInv (Nat.lt_succ_self _) (by decide +kernel)]
      have := hval ((1 : Int) : ℂ) (by norm_num)
      simpa [Interp.Denotes] using this
    have := den_sub k2 k1
    norm_num at this
    exact this

end Expreduce
