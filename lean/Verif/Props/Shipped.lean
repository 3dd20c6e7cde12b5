import Verif.Proofs.ShippedAll
import Verif.Props.Algebra

/-! Property C92: the rules that come with the interpreter are right. -/

namespace Expreduce
open Ex Shipped

/-- C92. If a rule of `power.m`, `arithmetic.m` or `trig.m` (those of `Shipped.rulesFor`) applies to an expression and gives `r`, then `r` has the
value of the expression, if it has one: for all complex numbers the symbols may stand for, with the usual meaning of the elementary
functions. (No machine reals; no sequences in the expression; the match compares no two different expressions with the same
fingerprint.) -/
theorem C92_rule_keeps_value_partial (V : Interp) (hS : V.Standard) (A : AlgParams) (hT : TruthOk V A.truth) (hL : LocalsOk A.locals) (D : Table) (hD : StdTable V D)
    (s : String) (lhs rhs : Ex) (hr : (lhs, rhs) ∈ rulesFor s) (m n : Nat) (e r : Ex) (he : Frag (· ∈ stdHeads) e) (hq : hasHead "System`Sequence" e = false)
    (hc : ∀ rs pm', matchF (envOf { defs := D } A.truth) m e lhs [] = some (rs, pm') → ∀ q ∈ rs, ClashFree (envOf { defs := D } A.truth) lhsHeads lhs e (bindingsOf q))
    (h : replace (envOf { defs := D } A.truth) A.locals m n lhs rhs e = some (some r)) : Frag (· ∈ stdHeads) r ∧ ∀ v, V.Denotes e v → V.Denotes r v := by
  obtain ⟨hp, hf, hsound⟩ := rulesFor_sound hS hT hD hL s _ hr
  have hTab := stdTable_sound hS hT hD hL
  have := hTab.dflt
  unfold replace at h
  split at h
  · simp at h
  · rename_i rs pm' hm
    obtain ⟨l, b, t, rfl, hy, _⟩ := replaceLoop_some h
    have h1 := matchF_matches hp (frag_noReal he) hm b (by simp)
    have h2 : OnlyNames (bindingsOf b) lhs := matchF_names hp hm b (by simp)
    have h0 := hc _ _ hm b (by simp)
    obtain ⟨h3, h4⟩ := val_of_match hTab.lawful hf h0 h1
    have hpf := pieces_frag (by decide) (by decide) he
    obtain ⟨k1, k2⟩ := hsound _ _ (fun t ht => (h4 t ht).mono hpf) h2 hy
    refine ⟨k1, fun v hv => ?_⟩
    unfold Related at k2
    have hfill : hasHead "System`Sequence" (fill (bindingsOf b) lhs) = false := by
      obtain ⟨T, hD, hρ⟩ := h0
      exact fill_noSeq hD hρ hf e (pieces_self e) (fun q hq => hq) h1
    unfold Interp.Denotes at hv ⊢
    rw [Meaning.argVals_one _ hfill, h3, ← Meaning.argVals_one _ hq, hv] at k2
    generalize V.meaning.argVals r = l at k2 ⊢
    cases k2 with
    | cons h t =>
      cases t
      rw [h v rfl]

/-- C92. Evaluation with these rules, in any order, keeps the value. -/
theorem C92_eval_with_shipped_rules_partial (V : Interp) (hS : V.Standard) (A : AlgParams) (hT : TruthOk V A.truth) (hL : LocalsOk A.locals) (D : Table) (hD : StdTable V D)
    (ho : ∀ l, (A.order l).Perm l) (n : Nat) (st st' : EState) (e e' : Ex) (hst : Running D st) (he : Frag (· ∈ stdHeads) e)
    (h : eval ((algCtx A).guard (Clean A D lhsHeads) ImagClean) n st e = .ok (st', e')) :
    eval (algCtx A) n st e = .ok (st', e') ∧ Running D st' ∧ Frag (· ∈ stdHeads) e' ∧ ∀ v, V.Denotes e v → V.Denotes e' v :=
  C91_eval_keeps_value_partial V A D _ _ (stdTable_sound hS hT hD hL) ho n st st' e e' hst he h

/-- Some values for the symbols, and the usual functions. -/
noncomputable def stdInterp (val : String → Option ℂ) : Interp where
  sym := fun s => if s = "System`E" then some (Complex.exp 1) else if s = "System`Pi" then some (Real.pi : ℂ) else if s = "System`I" then some Complex.I else val s
  fn := fun s l => open Classical in match l with
    | [z] =>
      if s = "System`Log" then (if z = 0 then none else some (Complex.log z))
      else if s = "System`Sqrt" then powValue z (1 / 2)
      else if s = "System`Sin" then some (Complex.sin z)
      else if s = "System`Cos" then some (Complex.cos z)
      else if s = "System`Tan" then (if Complex.cos z = 0 then none else some (Complex.tan z))
      else if s = "System`Cot" then (if Complex.sin z = 0 then none else some (Complex.cos z / Complex.sin z))
      else if s = "System`Sec" then (if Complex.cos z = 0 then none else some (1 / Complex.cos z))
      else if s = "System`Csc" then (if Complex.sin z = 0 then none else some (1 / Complex.sin z))
      else if s = "System`Sinh" then some (Complex.sinh z)
      else if s = "System`Cosh" then some (Complex.cosh z)
      else if s = "System`Coth" then (if Complex.sinh z = 0 then none else some (Complex.cosh z / Complex.sinh z))
      else if s = "System`Csch" then (if Complex.sinh z = 0 then none else some (1 / Complex.sinh z))
      else if s = "System`ArcTan" then (if z = Complex.I ∨ z = -Complex.I then none else some (Complex.arctan z))
      else none
    | _ => none

theorem stdInterp_standard (val : String → Option ℂ) : (stdInterp val).Standard := by
  constructor <;> intros <;> rfl

/-- Tests and conditions decided without evaluation. -/
def stdTruth : Nat → Ex → Bool
  | 0, _ => false
  | n + 1, .expr [.sym s, a] =>
    if s = "System`Not" then (match a with | .expr [.sym t, .sym _] => t == "System`NumberQ" | _ => false)
    else match a with
      | .int k => if s = "System`Negative" then decide (k < 0) else if s = "System`Positive" then decide (0 < k) else if s = "System`EvenQ" then decide (k % 2 = 0)
        else if s = "System`OddQ" then decide (k % 2 = 1) else false
      | _ => false
  | n + 1, .expr (.sym s :: a :: b :: l) =>
    if s = "System`And" ∧ l = [] then stdTruth n a && stdTruth n b else if s = "System`Or" then stdTruth n a || stdTruth n b || l.any (stdTruth n)
    else if s = "System`Equal" ∧ l = [] then decide (a = b) else false
  | _, _ => false

theorem stdTruth_mono : ∀ (n : Nat) (e : Ex), stdTruth n e = true → stdTruth (n + 1) e = true := by
  intro n
  induction n with
  | zero => intro e h; simp [stdTruth] at h
  | succ n ih =>
    intro e h
    unfold stdTruth at h ⊢
    split at h
    · cases h
    · rename_i heq; simp only [Nat.succ.injEq, Nat.add_right_cancel_iff] at heq; exact h
    · rename_i heq
      simp only [Nat.succ.injEq, Nat.add_right_cancel_iff] at heq
      subst heq
      split at h
      · rename_i hs; simp only [if_pos hs]
        simp only [Bool.and_eq_true] at h ⊢; exact ⟨ih _ h.1, ih _ h.2⟩
      · rename_i hs
        simp only [if_neg hs]
        split at h
        · rename_i hs2; simp only [if_pos hs2]
          simp only [Bool.or_eq_true, List.any_eq_true] at h ⊢
          rcases h with (h | h) | ⟨x, h1, h2⟩
          · exact .inl (.inl (ih _ h))
          · exact .inl (.inr (ih _ h))
          · exact .inr ⟨x, h1, ih _ h2⟩
        · rename_i hs2; simp only [if_neg hs2]; exact h
    · cases h

theorem stdTruth_ok (V : Interp) : TruthOk V (stdTruth 9) where
  negative := by intro n h; simpa [stdTruth, S] using h
  positiveInt := by intro n h; simpa [stdTruth, S] using h
  positive := by
    intro e v h hv
    cases e <;> simp [stdTruth, S] at h
    rename_i n
    rw [val_int] at hv
    cases hv
    exact ⟨(n : ℝ), by simp, by exact_mod_cast h⟩
  even := by intro n h; rw [Int.even_iff]; simpa [stdTruth, S] using h
  odd := by intro n h; rw [Int.odd_iff]; simpa [stdTruth, S] using h
  both := by
    intro a b h
    have : stdTruth 8 a = true ∧ stdTruth 8 b = true := by
      unfold stdTruth at h
      simpa [S] using h
    exact ⟨stdTruth_mono 8 a this.1, stdTruth_mono 8 b this.2⟩
  equal := by
    intro a b v w h hv hw
    have : a = b := by
      unfold stdTruth at h
      simpa [S] using h
    subst this
    rw [hv] at hw
    cases hw; rfl

/-- All rules of `Shipped.rulesFor`. -/
def shippedTable : Table := fun s =>
  let dvs : List DV := (rulesFor s).map (fun r => { lhs := r.1, rhs := r.2 })
  if s = "System`Plus" then some { downvalues := dvs, attrs := { flat := true, orderless := true, oneIdentity := true, listable := true }, dflt := some (.int 0), builtin := true }
  else if s = "System`Times" then some { downvalues := dvs, attrs := { flat := true, orderless := true, oneIdentity := true, listable := true }, dflt := some (.int 1), builtin := true }
  else if s = "System`Power" then some { downvalues := dvs, attrs := { oneIdentity := true, listable := true }, dflt := some (.int 1), builtin := true }
  else if s = "System`Rational" ∨ s = "System`Complex" then some { downvalues := dvs, builtin := true }
  else if dvs = [] then none else some { downvalues := dvs }

theorem shippedTable_rules {s : String} {d : DefM} (h : shippedTable s = some d) : d.downvalues = (rulesFor s).map (fun r => { lhs := r.1, rhs := r.2 }) ∧
    (d.attrs = {} ∧ d.dflt = none ∨ s ∈ ["System`Plus", "System`Times", "System`Power"] ∧ ∀ x, d.dflt = some x → noReal x = true) := by
  simp only [shippedTable] at h
  split at h
  · rename_i hs; cases h; exact ⟨rfl, .inr ⟨by simp [hs], by intro x hx; cases hx; rfl⟩⟩
  split at h
  · rename_i hs; cases h; exact ⟨rfl, .inr ⟨by simp [hs], by intro x hx; cases hx; rfl⟩⟩
  split at h
  · rename_i hs; cases h; exact ⟨rfl, .inr ⟨by simp [hs], by intro x hx; cases hx; rfl⟩⟩
  split at h
  · cases h; exact ⟨rfl, .inl ⟨rfl, rfl⟩⟩
  split at h
  · cases h
  · cases h; exact ⟨rfl, .inl ⟨rfl, rfl⟩⟩

theorem shippedTable_std (V : Interp) : StdTable V shippedTable where
  plus := ⟨_, rfl, rfl, rfl, rfl, rfl⟩
  times := ⟨_, rfl, rfl, rfl, rfl, rfl⟩
  power := ⟨_, rfl, rfl, rfl, rfl, rfl⟩
  others := by
    intro s _ hs d hd
    rcases (shippedTable_rules hd).2 with ⟨h1, h2⟩ | ⟨h, _⟩
    · rw [h1, h2]; exact ⟨rfl, rfl, rfl, rfl⟩
    · exact absurd h hs
  dflt := by
    intro s d x hd hx
    rcases (shippedTable_rules hd).2 with ⟨_, h2⟩ | ⟨_, h⟩
    · rw [h2] at hx; cases hx
    · exact h x hx
  rules := by
    intro s d dv hd hdv
    rw [(shippedTable_rules hd).1] at hdv
    obtain ⟨r, hr, rfl⟩ := List.mem_map.1 hdv
    exact .inl hr

/-- The interpreter with the shipped rules. -/
def shippedParams : AlgParams := { truth := stdTruth 9 }

/-- Evaluates with the shipped rules and all checks. -/
def shippedEval (n : Nat) (e : Ex) : Option Ex :=
  match eval ((algCtx shippedParams).checked (cleanB shippedParams shippedTable lhsHeads) imagB) n { defs := shippedTable } e with
  | .ok r => some r.2
  | _ => none

/-- Whatever it gives has the same value. -/
theorem shippedEval_keeps (val : String → Option ℂ) {n : Nat} {e e' : Ex} (he : Frag (· ∈ stdHeads) e) (h : shippedEval n e = some e') (v : ℂ)
    (hv : (stdInterp val).Denotes e v) : (stdInterp val).Denotes e' v := by
  unfold shippedEval at h
  split at h
  · rename_i r hr
    cases h
    obtain ⟨_, _, _, h4⟩ := C92_eval_with_shipped_rules_partial (stdInterp val) (stdInterp_standard val) shippedParams (stdTruth_ok _) (fun _ _ _ => rfl) shippedTable
      (shippedTable_std _) (fun _ => .refl _) n _ r.1 e r.2 ⟨rfl, rfl, rfl⟩ he (checked_guard _ _ _ hr)
    exact h4 v hv
  · cases h

/-- Checks the result of an evaluation. -/
def shippedGives (n : Nat) (e e' : Ex) : Bool := decide (shippedEval n e = some e')

theorem shippedGives_keeps {n : Nat} {e e' : Ex} (h : shippedGives n e e' = true) (he : Frag (· ∈ stdHeads) e) (val : String → Option ℂ) (v : ℂ)
    (hv : (stdInterp val).Denotes e v) : (stdInterp val).Denotes e' v :=
  shippedEval_keeps val he (of_decide_eq_true h) v hv

/-- `x x^2` evaluates to `x^3` without an accident. -/
theorem shipped_cube : shippedGives 30 (mul [.sym "x", pow (.sym "x") (.int 2)]) (pow (.sym "x") (.int 3)) = true := by decide +kernel

/-- `Sin[x] / Cos[x]` evaluates to `Tan[x]`. -/
theorem shipped_tan : shippedGives 30 (mul [call "Sin" [.sym "x"], pow (call "Cos" [.sym "x"]) (.int (-1))]) (call "Tan" [.sym "x"]) = true := by decide +kernel

/-- `Log[-3]` evaluates to `I Pi + Log[3]`. -/
theorem shipped_log : shippedGives 30 (call "Log" [.int (-3)]) (add [mul [iNum, pi], call "Log" [.int 3]]) = true := by decide +kernel

/-- The rule for `Sin[-x]` applies to `Sin[-(y^2)]`, and the conditions of the theorem on rules are met. -/
example : let e := call "Sin" [mul [.int (-1), pow (.sym "y") (.int 2)]]
    let r : Ex × Ex := def_ (call "Sin" [mul [.int (-1), any "x"]]) (neg (call "Sin" [var "x"]))
    r ∈ rulesFor "System`Sin" ∧ hasHead "System`Sequence" e = false ∧ clashFreeAll (envOf { defs := shippedTable } (stdTruth 9)) lhsHeads 60 r.1 e = true ∧
      replace (envOf { defs := shippedTable } (stdTruth 9)) (fun _ => none) 60 60 r.1 r.2 e = some (some (neg (call "Sin" [pow (.sym "y") (.int 2)]))) := by
  refine ⟨?_, ?_, ?_, ?_⟩ <;> decide +kernel

/-- The sides of the examples do have values. -/
example (z : ℂ) (hz : Complex.cos z ≠ 0) : (stdInterp (fun _ => some z)).Denotes (mul [call "Sin" [.sym "x"], pow (call "Cos" [.sym "x"]) (.int (-1))]) (Complex.sin z * (Complex.cos z)⁻¹) := by
  have hx : (stdInterp (fun _ => some z)).meaning.val (.sym "x") = some z := by rw [val_sym]; rfl
  have hS := stdInterp_standard (fun _ => some z)
  unfold Interp.Denotes
  simp only [mul, pow, call, S, String.reduceAppend]
  rule_goal [hx, hS.op_sin, hS.op_cos, powValue_neg_one_some hz]

end Expreduce
