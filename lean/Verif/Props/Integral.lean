import Verif.Proofs.IntRule
import Verif.Props.Shipped

/-! Property C112: the result of an integration rule is an antiderivative. -/

namespace Expreduce
open Ex Shipped Filter

theorem calc_all : ∀ r ∈ intRules, CalcOk r := by
  simp only [intRules, List.forall_mem_cons]
  exact ⟨calc_inv, calc_pow, calc_linInv, calc_linPow, calc_twoInvOpp, calc_twoInv, calc_twoPow, calc_sameUp, calc_threeHalves, calc_sameDown, calc_sameMerge, calc_fiveQuarters,
    calc_nineQuarters, calc_bothUp, calc_bothDown, calc_expandPos, calc_expandNeg, calc_quotUp, calc_quotDown, calc_zeroConst, calc_zeroCoef, calc_collect, calc_const,
    calc_scaled, calc_neg, calc_factor, calc_mergePow, calc_proportional, fun _ h => by cases h⟩

theorem check_all : intRules.all intCheck = true := by decide +kernel
theorem patCheck_all : intRules.all (fun r => intPatCheck r.integrand || decide (r.integrand = any "a")) = true := by decide +kernel

/-- If one of the rules is applied to `Int[u, x]`, then every function that the result stands for has the derivative `u`, at most points: wherever
`u` has a value, except possibly on a set that is not dense anywhere (branch cuts, zeros of denominators). -/
theorem C112_rule_partial (V : Interp) (hV : V.Standard) (hi : ∀ v, V.fn "System`Identity" [v] = some v) (env : MEnv) [env.Exact] (locals : Ex → Option Ex)
    (hE : ArithEnv env ["Rubi`Int"]) (hL : LocalsOk locals) (x : String) (hx : isVariable x) (hT : IntTests V x env.isTrue) (r : IntRule) (hr : r ∈ intRules) (u res : Ex)
    (hu : noOpen u = true) (h : RuleGives env locals ["System`Plus", "System`Times", "System`Power"] r.rule (intOf u (.sym x)) res) (F G : ℂ → ℂ)
    (hF : Reads (fun z => V.put x z) x res F) (hG : ∀ᶠ z in mostly, (V.put x z).Denotes u (G z)) : ∀ᶠ z in mostly, HasDerivAt F (G z) z := by
  refine int_sound hE (by decide) hL hV hi hx hT (List.all_eq_true.1 check_all r hr) ?_ (calc_all r hr) hu h hF hG
  have := List.all_eq_true.1 patCheck_all r hr
  simpa using this

theorem reads_inside {I : ℂ → Interp} {x s : String} {l m : List Ex} {a b : Ex} (h : ∀ F, Reads I x b F → Reads I x a F) (hs : s ≠ "System`Sequence")
    (ho : s ∈ openHeads → l = [] ∧ m = [.sym x]) (hq : ∀ e ∈ a :: b :: l ++ m, hasHead "System`Sequence" e = false) (F : ℂ → ℂ)
    (hF : Reads I x (.expr (.sym s :: (l ++ b :: m))) F) : Reads I x (.expr (.sym s :: (l ++ a :: m))) F := by
  by_cases hh : s ∈ openHeads
  · obtain ⟨rfl, rfl⟩ := ho hh
    simp only [openHeads, List.mem_cons, List.not_mem_nil, or_false] at hh
    rcases hh with rfl | rfl | rfl
    · obtain ⟨_, G, h1, h2⟩ := reads_int hF
      exact .integral (h _ h1) h2
    · obtain ⟨_, G, c, h1, h2, h3⟩ := reads_content hF
      exact .content (h _ h1) h2 h3
    · exact .expand (h _ (reads_expand hF).2)
  · obtain ⟨Fs, h1, h2⟩ := reads_app hh hs (fun e he => hq e (by simp at he ⊢; tauto)) hF
    refine .call hh hs (fun e he => hq e (by simp at he ⊢; tauto)) ?_ h2
    clear h2 hF ho hq
    induction l generalizing Fs with
    | nil =>
      cases h1 with
      | cons h1 h2 => exact .cons (h _ h1) h2
    | cons e l ih =>
      cases h1 with
      | cons h1 h2 => exact .cons h1 (ih _ h2)

/-- Steps of the evaluation keep what the expression stands for: a function that the new expression stands for is one that the old expression stands for. -/
theorem C112_step_partial (V : Interp) (hV : V.Standard) (hi : ∀ v, V.fn "System`Identity" [v] = some v) (env : MEnv) [env.Exact] (locals : Ex → Option Ex)
    (hE : ArithEnv env ["Rubi`Int"]) (hL : LocalsOk locals) (x : String) (hx : isVariable x) (hT : IntTests V x env.isTrue) (a b : Ex) (h : IntStep env locals V x a b) :
    ∀ F, Reads (fun z => V.put x z) x b F → Reads (fun z => V.put x z) x a F := by
  induction h with
  | rule hr hu hv h =>
    intro F hF
    obtain ⟨G, hG⟩ := hv
    exact .integral (.plain hu hG) (C112_rule_partial V hV hi env locals hE hL x hx hT _ hr _ _ hu h F G hF hG)
  | other h => exact h
  | inside _ hs ho hq ih => exact reads_inside ih hs ho hq

/-- If the evaluation of `Int[u, x]` ends with an expression `res` without integrals, then `u` is the derivative of `res`. -/
theorem C112_integral_partial (V : Interp) (hV : V.Standard) (hi : ∀ v, V.fn "System`Identity" [v] = some v) (env : MEnv) [env.Exact] (locals : Ex → Option Ex)
    (hE : ArithEnv env ["Rubi`Int"]) (hL : LocalsOk locals) (x : String) (hx : isVariable x) (hT : IntTests V x env.isTrue) (u res : Ex) (hu : noOpen u = true)
    (hr : noOpen res = true) (h : IntSteps env locals V x (intOf u (.sym x)) res) (F G : ℂ → ℂ) (hF : ∀ᶠ z in mostly, (V.put x z).Denotes res (F z))
    (hG : ∀ᶠ z in mostly, (V.put x z).Denotes u (G z)) : ∀ᶠ z in mostly, HasDerivAt F (G z) z := by
  have key : ∀ a, IntSteps env locals V x a res → Reads (fun z => V.put x z) x a F := by
    clear h
    intro a h
    induction h with
    | none => exact .plain hr hF
    | step h1 _ ih => exact C112_step_partial V hV hi env locals hE hL x hx hT _ _ h1 F (ih hr hF)
  obtain ⟨_, G', h1, h2⟩ := reads_int (key _ h)
  filter_upwards [reads_closed hu h1, h2, hG] with z k1 k2 k3
  rwa [den_unique k3 k1]

/-! ### Examples -/

/-- The value of a sum or product of integers. -/
def smallVal : Nat → Ex → Option Int
  | 0, _ => none
  | _ + 1, .int n => some n
  | n + 1, .expr [.sym s, a, b] =>
    match smallVal n a, smallVal n b with
    | some v, some w => if s = "System`Plus" then some (v + w) else if s = "System`Times" then some (v * w) else none
    | _, _ => none
  | _ + 1, _ => none

theorem smallVal_ok (V : Interp) : ∀ (n : Nat) (e : Ex) (k : Int), smallVal n e = some k → V.Denotes e k := by
  intro n
  induction n with
  | zero => intro e k h; simp [smallVal] at h
  | succ n ih =>
    intro e k h
    unfold smallVal at h
    split at h
    · rename_i he; cases he
    · cases h; exact den_int _
    · rename_i he
      cases he
      split at h
      · rename_i v w h1 h2
        have g := List.Forall₂.cons (ih _ _ h1) (List.Forall₂.cons (ih _ _ h2) .nil)
        split at h
        · rename_i hs
          subst hs
          cases h
          exact den_app (by decide) g (by rw [arith_plus]; simp)
        · split at h
          · rename_i hs
            subst hs
            cases h
            exact den_app (by decide) g (by rw [arith_times]; simp)
          · cases h
      · cases h
    · cases h

/-- Tests decided without evaluation. -/
def intTruth : Nat → Ex → Bool
  | 0, _ => false
  | n + 1, .expr (.sym s :: l) =>
    if s = "System`And" then l.all (intTruth n)
    else if s = "System`Or" then l.any (intTruth n)
    else match l with
      | [a] => if s = "System`IntegerQ" ∨ s = "Rubi`Private`RationalQ" then (smallVal 9 a).isSome else if s = "Rubi`Private`EqQ" then decide (smallVal 9 a = some 0)
        else if s = "Rubi`Private`PositiveQ" ∨ s = "Rubi`Private`PositiveIntegerQ" then (smallVal 9 a).any (0 < ·)
        else if s = "Rubi`Private`NegativeIntegerQ" then (smallVal 9 a).any (· < 0) else false
      | [a, b] => if s = "System`FreeQ" then !(pieces a).contains b
        else match smallVal 9 a, smallVal 9 b with
          | some v, some w => if s = "Rubi`Private`EqQ" then decide (v = w) else if s = "Rubi`Private`NeQ" then decide (v ≠ w) else false
          | _, _ => false
      | _ => false
  | _ + 1, _ => false

/-- The environment with these tests. -/
def intEnv : MEnv := { solveEnv with isTrue := intTruth 9 }

instance : intEnv.Exact := ⟨(inferInstance : solveEnv.Exact).exact⟩

theorem intEnv_ok : ArithEnv intEnv ["Rubi`Int"] where
  plus := by decide
  times := by decide
  power := by decide
  plain := by decide

theorem intTruth_mono : ∀ (n : Nat) (e : Ex), intTruth n e = true → intTruth (n + 1) e = true := by
  intro n
  induction n with
  | zero => intro e h; simp [intTruth] at h
  | succ n ih =>
    intro e h
    unfold intTruth at h ⊢
    split at h
    · rename_i he; cases he
    · rename_i s l he
      cases he
      split at h
      · rename_i hs
        rw [if_pos hs]
        rw [List.all_eq_true] at h ⊢
        exact fun c hc => ih c (h c hc)
      · rename_i hs
        rw [if_neg hs]
        split at h
        · rename_i hs'
          rw [if_pos hs']
          rw [List.any_eq_true] at h ⊢
          obtain ⟨c, hc, h⟩ := h
          exact ⟨c, hc, ih c h⟩
        · rename_i hs'
          rw [if_neg hs']
          exact h
    · cases h

theorem intEnv_tests (V : Interp) (x : String) : IntTests V x intEnv.isTrue where
  all := by
    intro l h c hc
    have h' : intTruth 9 (call "And" l) = true := h
    unfold intTruth at h'
    simp only [call, S] at h'
    rw [if_pos (by decide), List.all_eq_true] at h'
    exact intTruth_mono 8 c (h' c hc)
  some := by
    intro l h
    have h' : intTruth 9 (call "Or" l) = true := h
    unfold intTruth at h'
    simp only [call, S] at h'
    rw [if_neg (by decide), if_pos (by decide), List.any_eq_true] at h'
    obtain ⟨c, hc, h'⟩ := h'
    exact ⟨c, hc, intTruth_mono 8 c h'⟩
  free := by
    intro a h
    have h' : intTruth 9 (.expr [S "FreeQ", a, .sym x]) = true := h
    simpa [intTruth, S] using h'
  equal := by
    intro a b h z v w h1 h2
    have h' : intTruth 9 (eqQ a b) = true := h
    simp only [intTruth, eqQ] at h'
    rw [if_neg (by decide), if_neg (by decide), if_neg (by decide)] at h'
    split at h'
    · rename_i k j e1 e2
      simp only [if_true, decide_eq_true_eq] at h'
      rw [den_unique h1 (smallVal_ok _ _ _ _ e1), den_unique h2 (smallVal_ok _ _ _ _ e2), h']
    · cases h'
  zero := by
    intro a h z v h1
    have h' : intTruth 9 (eqQ0 a) = true := h
    simp [intTruth, eqQ0] at h'
    rw [den_unique h1 (smallVal_ok _ _ _ _ h')]; simp
  integer := by
    intro a h
    have h' : intTruth 9 (call "IntegerQ" [a]) = true := h
    simp [intTruth, call, S, Option.isSome_iff_exists] at h'
    obtain ⟨k, h'⟩ := h'
    exact ⟨k, fun z v h1 => den_unique h1 (smallVal_ok _ _ _ _ h')⟩
  posInteger := by
    intro a h
    have h' : intTruth 9 (testR "PositiveIntegerQ" [a]) = true := h
    simp [intTruth, testR] at h'
    cases hk : smallVal 9 a with
    | none => simp [hk] at h'
    | some k => exact ⟨k, fun z v h1 => den_unique h1 (smallVal_ok _ _ _ _ hk)⟩
  negInteger := by
    intro a h
    have h' : intTruth 9 (testR "NegativeIntegerQ" [a]) = true := h
    simp [intTruth, testR] at h'
    cases hk : smallVal 9 a with
    | none => simp [hk] at h'
    | some k => exact ⟨k, fun z v h1 => den_unique h1 (smallVal_ok _ _ _ _ hk)⟩
  rational := by
    intro a h
    have h' : intTruth 9 (testR "RationalQ" [a]) = true := h
    simp [intTruth, testR, Option.isSome_iff_exists] at h'
    obtain ⟨k, h'⟩ := h'
    exact ⟨k, fun z v h1 => by rw [den_unique h1 (smallVal_ok _ _ _ _ h')]; simp⟩
  positive := by
    intro a h
    have h' : intTruth 9 (testR "PositiveQ" [a]) = true := h
    simp [intTruth, testR] at h'
    cases hk : smallVal 9 a with
    | none => simp [hk] at h'
    | some k =>
      simp [hk] at h'
      exact ⟨k, by exact_mod_cast h', fun z v h1 => by rw [den_unique h1 (smallVal_ok _ _ _ _ hk)]; simp⟩

theorem int_gives {rule : Ex × Ex} {e r : Ex} (h0 : noReal e = true) (h1 : replace intEnv (fun _ => none) 60 60 rule.1 rule.2 e = some (some r))
    (h2 : clashFreeAll intEnv polyHeads 60 rule.1 e = true) : RuleGives intEnv (fun _ => none) ["System`Plus", "System`Times", "System`Power"] rule e r :=
  ⟨h0, 60, 60, h1, clashFreeAll_sound h2⟩

/-- `1/((1 + x)*(2 + 3*x))` -/
def intEx1 : Ex := mul [pow (add [.int 1, sx]) (.int (-1)), pow (add [.int 2, mul [.int 3, sx]]) (.int (-1))]


/-- The result for it. -/
def intEx1Res : Ex :=
  sub (mul [dv (.int 1) (sub (mul [.int 1, .int 2]) (mul [.int 1, .int 3])), intOf (recip (add [.int 1, mul [.int 1, sx]])) sx])
    (mul [dv (.int 3) (sub (mul [.int 1, .int 2]) (mul [.int 1, .int 3])), intOf (recip (add [.int 2, mul [.int 3, sx]])) sx])

theorem intEx1_gives : RuleGives intEnv (fun _ => none) ["System`Plus", "System`Times", "System`Power"] intTwoInv.rule (intOf intEx1 sx) intEx1Res :=
  int_gives (by decide) (by decide +kernel) (by decide +kernel)

/-- No other rule applies to it. -/
example : ∀ r ∈ intRules, r.integrand ≠ intTwoInv.integrand → replace intEnv (fun _ => none) 60 60 r.rule.1 r.rule.2 (intOf intEx1 sx) = some none := by decide +kernel

/-- `-x^2` -/
def intEx2 : Ex := mul [.int (-1), pow sx (.int 2)]
/-- `Identity[-1]*(x^(2 + 1)/(2 + 1))` -/
def intEx2Res : Ex := mul [call "Identity" [.int (-1)], dv (pow sx (add [.int 2, .int 1])) (add [.int 2, .int 1])]

/-- The usual meaning of the functions, and of `Identity`. -/
noncomputable def intInterp (val : String → Option ℂ) : Interp :=
  { stdInterp val with fn := fun s l => if s = "System`Identity" then l.head? else (stdInterp val).fn s l }

theorem intInterp_standard (val : String → Option ℂ) : (intInterp val).Standard := by
  have h := stdInterp_standard val
  constructor
  · exact h.e
  · exact h.pi
  · exact h.i
  all_goals intro z; simp only [intInterp]; rw [if_neg (by decide)]
  · exact h.log z
  · exact h.sqrt z
  · exact h.sin z
  · exact h.cos z
  · exact h.tan z
  · exact h.cot z
  · exact h.sec z
  · exact h.csc z
  · exact h.sinh z
  · exact h.cosh z
  · exact h.coth z
  · exact h.csch z
  · exact h.arctan z

theorem intEx_square (V : Interp) (z : ℂ) : (V.put "Global`x" z).Denotes (pow sx (.int 2)) (z ^ 2) := by
  have := den_pow (den_var (V := V) sx_var z) (den_int (V := V.put "Global`x" z) 2) (v := z ^ 2) (by rw [powValue_some]; exact ⟨.inr (by norm_num), by norm_num⟩)
  exact this

/-- Two steps, the second of them inside the expression. -/
theorem intEx2_steps (V : Interp) : IntSteps intEnv (fun _ => none) V "Global`x" (intOf intEx2 sx) intEx2Res := by
  refine .step (.rule (r := intNeg) (res := mul [call "Identity" [.int (-1)], intOf (pow sx (.int 2)) sx]) (by simp [intRules]) (by decide +kernel)
    ⟨fun z => -(z ^ 2), .of_forall fun z => ?_⟩ (int_gives (by decide) (by decide +kernel) (by decide +kernel))) (.step (.inside (l := [call "Identity" [.int (-1)]]) (m := [])
    (.rule (r := intPow) (by simp [intRules]) (by decide +kernel) ⟨fun z => z ^ 2, .of_forall fun z => intEx_square V z⟩
      (int_gives (by decide) (by decide +kernel) (by decide +kernel))) (by decide) (by decide) (by decide)) .none)
  exact den_app (by decide) (.cons (den_int _) (.cons (intEx_square V z) .nil)) (by rw [show "System`" ++ "Times" = "System`Times" by decide, arith_times]; simp)

/-- The derivative of the result. -/
example (val : String → Option ℂ) (F : ℂ → ℂ) (hF : ∀ᶠ z in mostly, ((intInterp val).put "Global`x" z).Denotes intEx2Res (F z)) :
    ∀ᶠ z in mostly, HasDerivAt F (-(z ^ 2)) z :=
  C112_integral_partial (intInterp val) (intInterp_standard val) (fun _ => rfl) intEnv _ intEnv_ok noLocals "Global`x" sx_var (intEnv_tests _ _) intEx2 intEx2Res
    (by decide +kernel) (by decide +kernel) (intEx2_steps _) F (fun z => -(z ^ 2)) hF
    (.of_forall fun z => den_app (by decide) (.cons (den_int _) (.cons (intEx_square _ z) .nil)) (by rw [show "System`" ++ "Times" = "System`Times" by decide, arith_times]; simp))

/-- The result has a value everywhere. -/
example (val : String → Option ℂ) (z : ℂ) : ((intInterp val).put "Global`x" z).Denotes intEx2Res (-1 * (z ^ 3 / 3)) := by
  have h := den_var (V := intInterp val) sx_var z
  have hp := fun n => den_pow (v := z ^ (3 : ℕ)) h (b := add [.int 2, .int 1]) (y := ((3 : ℕ) : ℂ)) n (powValue_natCast (by decide))
  have h3 : ((intInterp val).put "Global`x" z).Denotes (add [.int 2, .int 1]) ((3 : ℕ) : ℂ) :=
    den_app (by decide) (.cons (den_int _) (.cons (den_int _) .nil)) (by rw [show "System`" ++ "Plus" = "System`Plus" by decide, arith_plus]; norm_num)
  have hd := den_dv (hp h3) h3 (by norm_num)
  have hid : ((intInterp val).put "Global`x" z).Denotes (call "Identity" [.int (-1)]) (-1) :=
    den_app (by decide) (.cons (den_int _) .nil) (by rw [arith_fn (by decide)]; simp [intInterp, Interp.put])
  have := den_app (V := (intInterp val).put "Global`x" z) (s := "System`Times") (v := -1 * (z ^ 3 / ((3 : ℕ) : ℂ))) (by decide) (.cons hid (.cons hd .nil)) (by rw [arith_times]; simp)
  rw [Nat.cast_ofNat] at this
  exact this

end Expreduce
