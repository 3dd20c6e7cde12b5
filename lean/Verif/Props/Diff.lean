import Verif.Proofs.DiffEval
import Verif.Props.Shipped

/-! Property C94: `D` computes the derivative. -/

namespace Expreduce
open Ex Shipped Filter Topology

/-- C94. If `f` has a value for all values of `x` in an open dense set of complex numbers, and `D[f, x]` evaluates to an expression `g` without `D`, then
on an open dense set `f` has values `F z`, the function `F` is differentiable, and `g` has the value of its derivative. (`f` is built from numbers,
symbols, arithmetic and elementary functions. The rules of `D` are those of `Shipped.diffRules`, in any order, and the other rules those of
`Shipped.rulesFor`. As in C91, no machine reals, no coincidence of fingerprints. When a rule of `D` is applied to a power, its base is not
constantly 0; no function is called on a derivative that was not computed.) -/
theorem C94_derivative_partial (V : Interp) (A : AlgParams) (T : Table) (x : String) (hS : DiffSetup V A T x) (ho : ∀ l, (A.order l).Perm l) (n : Nat) (st st' : EState) (f g : Ex)
    (hst : Running T st) (hf : Frag (· ∈ stdHeads) f) (hq : hasHead "System`Sequence" f = false) (U : Set ℂ) (hU : IsOpen U) (hUd : Dense U)
    (hv : ∀ z ∈ U, ∃ v, (V.put x z).Denotes f v) (hg : noDiff g = true)
    (h : eval ((algCtx A).guard (fun s e => Clean A T ("System`D" :: lhsHeads) s e ∧ DiffCall V x s e) ImagClean) n st (.expr [S "D", f, .sym x]) = .ok (st', g)) :
    eval (algCtx A) n st (.expr [S "D", f, .sym x]) = .ok (st', g) ∧ Running T st' ∧
    ∃ (F : ℂ → ℂ) (W : Set ℂ), IsOpen W ∧ Dense W ∧ ∀ z ∈ W, (V.put x z).Denotes f (F z) ∧ ∃ d, HasDerivAt F d z ∧ (V.put x z).Denotes g d := by
  refine ⟨eval_le (guard_le (alg_le A) _ _) n n (Nat.le_refl n) st _ _ h, ?_⟩
  have hfrag : Frag DStd (.expr [S "D", f, .sym x]) := by
    refine .app (s := "System`D") (.inr rfl) ?_
    intro a ha
    simp only [List.mem_cons, List.not_mem_nil, or_false] at ha
    rcases ha with rfl | rfl
    · exact frag_dstd hf
    · exact .sym _
  obtain ⟨h1, h2, h3, _⟩ := eval_meaning (diff_respects hS ho) n st _ st' g hst hfrag h
  refine ⟨h1, ?_⟩
  have hval : ∀ᶠ z in mostly, ((V.put x z).meaning.val f).isSome = true := by
    refine Filter.mem_of_superset (x := U) ?_ fun z hz => ?_
    · rw [mem_mostly, hU.interior_eq]; exact hUd
    · obtain ⟨v, hv⟩ := hv z hz
      unfold Interp.Denotes at hv
      rw [Meaning.argVals_one _ hq] at hv
      simp only [List.cons.injEq, and_true] at hv
      simp only [Set.mem_setOf_eq, hv]
      rfl
  obtain ⟨F, hF, hgen, hFv⟩ := fun_of_val (x := x) hS.elem hf hq hval
  have hD : (funMeaning V x).argVals (.expr [S "D", f, .sym x]) = [some (deriv F)] := by
    have e : (funMeaning V x).argVals (.expr [.sym "System`D", f, .sym x]) = [some (deriv F)] := by
      rw [Meaning.argVals_app (by decide), Meaning.vals_cons, Meaning.vals_cons, Meaning.vals_nil, Meaning.argVals_one _ hq, Meaning.argVals_one _ (by rfl), List.append_nil,
        List.singleton_append, val_variable hS.var, hF]
      simp [funMeaning, allSome, funOp, diffOp]
    exact e
  unfold Related at h3
  rw [hD] at h3
  obtain ⟨gs, k1, k2⟩ := link_args (V := V) (x := x) g hg
  generalize (funMeaning V x).argVals g = ys at h3 k2
  cases h3 with
  | cons hb ht =>
    cases ht
    obtain ⟨G, rfl, hG⟩ := hb _ rfl
    cases k2 with
    | @cons _ γ _ _ hl hn =>
      cases hn
      have hlast : ∀ᶠ z in mostly, (V.put x z).Denotes f (F z) ∧ ∃ d, HasDerivAt F d z ∧ (V.put x z).Denotes g d := by
        filter_upwards [hFv, hgen, hG, hl.1 G rfl] with z m1 m2 m3 m4
        refine ⟨?_, deriv F z, m2.differentiableAt.hasDerivAt, ?_⟩
        · unfold Interp.Denotes; rw [Meaning.argVals_one _ hq, m1]
        · unfold Interp.Denotes; rw [k1, m3]; simp [m4]
      exact ⟨F, _, isOpen_interior, hlast, fun z hz => interior_subset (s := {z | (V.put x z).Denotes f (F z) ∧ ∃ d, HasDerivAt F d z ∧ (V.put x z).Denotes g d}) hz⟩

/-- C94, on a set. If moreover `f` has the values `φ z` on an open set, and `g` has values `γ z` there that depend continuously on `z`, then `φ` is differentiable there and
`γ` is its derivative, if `φ` is continuous. -/
theorem C94_derivative_on_partial (V : Interp) (A : AlgParams) (T : Table) (x : String) (hS : DiffSetup V A T x) (ho : ∀ l, (A.order l).Perm l) (n : Nat) (st st' : EState) (f g : Ex)
    (hst : Running T st) (hf : Frag (· ∈ stdHeads) f) (hq : hasHead "System`Sequence" f = false) (U : Set ℂ) (hU : IsOpen U) (hUd : Dense U)
    (hv : ∀ z ∈ U, ∃ v, (V.put x z).Denotes f v) (hg : noDiff g = true)
    (h : eval ((algCtx A).guard (fun s e => Clean A T ("System`D" :: lhsHeads) s e ∧ DiffCall V x s e) ImagClean) n st (.expr [S "D", f, .sym x]) = .ok (st', g))
    (O : Set ℂ) (hO : IsOpen O) (φ γ : ℂ → ℂ) (hφ : ∀ z ∈ O, (V.put x z).Denotes f (φ z)) (hd : DifferentiableOn ℂ φ O)
    (hγ : ∀ z ∈ O, (V.put x z).Denotes g (γ z)) (hc : ContinuousOn γ O) : ∀ z ∈ O, HasDerivAt φ (γ z) z := by
  obtain ⟨_, _, F, W, hW, hWd, hFW⟩ := C94_derivative_partial V A T x hS ho n st st' f g hst hf hq U hU hUd hv hg h
  have hdet : ∀ {z : ℂ} {e : Ex} {a b : ℂ}, (V.put x z).Denotes e a → (V.put x z).Denotes e b → a = b := by
    intro z e a b h1 h2
    unfold Interp.Denotes at h1 h2
    rw [h1] at h2
    simpa using h2
  have hon : ∀ z ∈ O ∩ W, deriv φ z = γ z := by
    rintro z ⟨h1, h2⟩
    obtain ⟨_, d, k2, k3⟩ := hFW z h2
    have e : φ =ᶠ[𝓝 z] F := by
      filter_upwards [(hO.inter hW).mem_nhds ⟨h1, h2⟩] with w hw
      exact hdet (hφ w hw.1) (hFW w hw.2).1
    rw [e.deriv_eq, k2.deriv]
    exact hdet k3 (hγ z h1)
  intro z hz
  have hdz := (hd.differentiableAt (hO.mem_nhds hz)).hasDerivAt
  have hcd : ContinuousOn (deriv φ) O := (hd.deriv hO).continuousOn
  have heq : Set.EqOn (deriv φ) γ O := by
    have hsub : O ⊆ closure (O ∩ W) := hWd.open_subset_closure_inter hO
    have := Set.EqOn.of_subset_closure (s := O ∩ W) (t := O) hon hcd hc Set.inter_subset_left hsub
    exact this
  rw [← heq hz]
  exact hdz

/-! ### An interpreter with these rules -/

/-- `FreeQ` and `UnsameQ`. -/
def freeTruth : Ex → Bool
  | .expr [.sym s, a, b] => (s == "System`FreeQ" && !(pieces a).contains b) || (s == "System`UnsameQ" && decide (a ≠ b))
  | _ => false

/-- The condition of a rule of `D`. -/
def bothTruth : Ex → Bool
  | .expr [.sym s, a, b] => s == "System`And" && freeTruth a && freeTruth b
  | _ => false

/-- Tests and conditions decided without evaluation. -/
def diffTruth (e : Ex) : Bool := stdTruth 9 e || freeTruth e || bothTruth e

theorem diffTruth_ok (V : Interp) : TruthOk V diffTruth := by
  have hT := stdTruth_ok V
  have h1 : ∀ s, s ≠ "System`FreeQ" → s ≠ "System`UnsameQ" → s ≠ "System`And" → ∀ l, diffTruth (.expr (.sym s :: l)) = true → stdTruth 9 (.expr (.sym s :: l)) = true := by
    intro s k1 k2 k3 l h
    rcases l with _ | ⟨a, _ | ⟨b, _ | ⟨c, l⟩⟩⟩ <;> simpa [diffTruth, freeTruth, bothTruth, k1, k2, k3] using h
  refine ⟨?_, ?_, ?_, ?_, ?_, ?_, ?_⟩
  · exact fun n h => hT.negative n (h1 _ (by decide) (by decide) (by decide) _ h)
  · exact fun n h => hT.positiveInt n (h1 _ (by decide) (by decide) (by decide) _ h)
  · exact fun e v h hv => hT.positive e v (h1 _ (by decide) (by decide) (by decide) _ h) hv
  · exact fun n h => hT.even n (h1 _ (by decide) (by decide) (by decide) _ h)
  · exact fun n h => hT.odd n (h1 _ (by decide) (by decide) (by decide) _ h)
  · intro a b h
    simp only [diffTruth, Bool.or_eq_true] at h
    rcases h with (h | h) | h
    · obtain ⟨k1, k2⟩ := hT.both a b h
      simp [diffTruth, k1, k2]
    · simp [freeTruth, S] at h
    · simp only [bothTruth, S, Bool.and_eq_true] at h
      simp [diffTruth, h.1.2, h.2]
  · exact fun a b v w h => hT.equal a b v w (h1 _ (by decide) (by decide) (by decide) _ h)

theorem diffTruth_free (x : String) : FreeOk diffTruth x := by
  intro a h
  have : stdTruth 9 (.expr [S "FreeQ", a, .sym x]) = false := by simp [stdTruth, S]
  simp only [diffTruth, this, Bool.false_or] at h
  simp only [freeTruth, bothTruth, S] at h
  simpa using h

/-- The shipped rules, and those of `D`. -/
def diffTable : Table := fun s => if s = "System`D" then some { downvalues := diffRules.map (fun r => { lhs := r.1, rhs := r.2 }) } else shippedTable s

theorem diffTable_ok (V : Interp) (x : String) : DiffTable V x diffTable where
  std := by
    intro z
    have hs := shippedTable_std (V.put x z)
    have he : ∀ s, s ≠ "System`D" → withoutDiff diffTable s = shippedTable s := by
      intro s h
      simp [withoutDiff, diffTable, h]
    have hD : ∀ d, withoutDiff diffTable "System`D" = some d → d.downvalues = [] ∧ d.dflt = none := by
      intro d hd
      simp only [withoutDiff, diffTable, if_true, Option.map_some] at hd
      cases hd
      exact ⟨rfl, rfl⟩
    refine ⟨?_, ?_, ?_, ?_, ?_, ?_⟩
    · rw [he _ (by decide)]; exact hs.plus
    · rw [he _ (by decide)]; exact hs.times
    · rw [he _ (by decide)]; exact hs.power
    · intro s h1 h2
      have : s ≠ "System`D" := by rintro rfl; exact absurd h1 (by decide)
      rw [he s this]
      exact hs.others s h1 h2
    · intro s d v hd hv
      by_cases h : s = "System`D"
      · subst h
        rw [(hD d hd).2] at hv
        cases hv
      · rw [he s h] at hd
        exact hs.dflt s d v hd hv
    · intro s d dv hd hdv
      by_cases h : s = "System`D"
      · subst h
        rw [(hD d hd).1] at hdv
        cases hdv
      · rw [he s h] at hd
        exact hs.rules s d dv hd hdv
  plain := by
    intro d hd
    simp only [diffTable, if_true, Option.some.injEq] at hd
    subst hd
    exact ⟨rfl, rfl, rfl, rfl⟩
  rules := by
    intro d dv hd hdv
    simp only [diffTable, if_true, Option.some.injEq] at hd
    subst hd
    obtain ⟨r, hr, rfl⟩ := List.mem_map.1 hdv
    exact hr

theorem stdInterp_elementary (val : String → Option ℂ) : (stdInterp val).Elementary where
  toStandard := stdInterp_standard val
  arity := by
    intro s _ l hl
    simp only [stdInterp]
    split
    · simp at hl
    · rfl

/-- The interpreter with these rules. -/
def diffParams : AlgParams := { truth := diffTruth }

theorem diffSetup (val : String → Option ℂ) (x : String) (hx : isVariable x) : DiffSetup (stdInterp val) diffParams diffTable x where
  elem := stdInterp_elementary val
  var := hx
  table := diffTable_ok _ x
  truth := fun z => diffTruth_ok _
  free := diffTruth_free x
  locals := fun _ _ _ => rfl

/-- A check for `NotZero`. -/
def notZeroB (x : String) : Ex → Bool
  | .sym s => s == x
  | .int k => k != 0
  | _ => false

theorem notZeroB_sound {V : Interp} {x : String} (hx : isVariable x) {b : Ex} (h : notZeroB x b = true) : NotZero V x b := by
  intro O hO hz
  by_contra hne
  obtain ⟨z0, hz0⟩ := Set.nonempty_iff_ne_empty.2 hne
  cases b <;> simp only [notZeroB, Bool.false_eq_true] at h
  · rename_i s
    simp only [beq_iff_eq] at h
    have hall : ∀ z ∈ O, z = 0 := by
      intro z hzO
      have h1 := hz z hzO
      rw [h] at h1
      have hn : x ∉ noNumber := by
        intro h
        refine hx ?_
        simp only [noNumber, List.mem_cons, List.not_mem_nil, or_false] at h ⊢
        tauto
      unfold Interp.Denotes at h1
      simpa [Meaning.argVals, Interp.meaning, atomValue, hn, Interp.put] using h1
    obtain ⟨W, _, hWn, hWO, hW⟩ := mostly_open mostly_nonzero hO ⟨z0, hz0⟩
    obtain ⟨w, hw⟩ := hWn
    exact hW w hw (hall w (hWO hw))
  · have h1 := hz z0 hz0
    unfold Interp.Denotes at h1
    simp only [Meaning.argVals, Interp.meaning, atomValue, List.cons.injEq, Option.some.injEq, and_true, Int.cast_eq_zero] at h1
    simp [h1] at h

/-- A check for `DiffCall`. -/
def diffCallB (x s : String) (e : Ex) : Bool :=
  if s = "System`D" then
    match e with
    | .expr [h, a, b] => decide (h = S "D") && decide (b = .sym x) && noDiff a &&
      (match a with
        | .expr [.sym t, b, _] => t != "System`Power" || notZeroB x b
        | _ => true)
    | _ => false
  else noDiff e

theorem diffCallB_sound {V : Interp} {x s : String} {e : Ex} (hx : isVariable x) (h : diffCallB x s e = true) : DiffCall V x s e := by
  unfold diffCallB at h
  split at h
  · rename_i hs
    refine ⟨fun k => absurd hs k, fun _ => ?_⟩
    split at h
    · rename_i k a b
      simp only [Bool.and_eq_true, decide_eq_true_eq] at h
      obtain ⟨⟨⟨rfl, rfl⟩, h3⟩, h4⟩ := h
      refine ⟨a, rfl, h3, ?_⟩
      rintro b c rfl
      simp only [S, bne_self_eq_false, Bool.false_or] at h4
      exact notZeroB_sound hx (by simpa using h4)
    · cases h
  · rename_i hs
    exact ⟨fun _ => h, fun k => absurd k hs⟩

/-- Evaluates with all checks. -/
def diffEval (x : String) (n : Nat) (e : Ex) : Option Ex :=
  match eval ((algCtx diffParams).checked (fun s e => cleanB diffParams diffTable ("System`D" :: lhsHeads) s e && diffCallB x s e) imagB) n { defs := diffTable } e with
  | .ok r => some r.2
  | _ => none

/-- Checks the result. -/
def diffGives (x : String) (n : Nat) (f g : Ex) : Bool := decide (diffEval x n (.expr [S "D", f, .sym x]) = some g) && noDiff g

/-- The result is a derivative. -/
theorem diffGives_sound {x : String} {n : Nat} {f g : Ex} (h : diffGives x n f g = true) (val : String → Option ℂ) (hx : isVariable x) (hf : Frag (· ∈ stdHeads) f)
    (hq : hasHead "System`Sequence" f = false) (U : Set ℂ) (hU : IsOpen U) (hUd : Dense U) (hv : ∀ z ∈ U, ∃ v, ((stdInterp val).put x z).Denotes f v)
    (O : Set ℂ) (hO : IsOpen O) (φ γ : ℂ → ℂ) (hφ : ∀ z ∈ O, ((stdInterp val).put x z).Denotes f (φ z)) (hd : DifferentiableOn ℂ φ O)
    (hγ : ∀ z ∈ O, ((stdInterp val).put x z).Denotes g (γ z)) (hc : ContinuousOn γ O) : ∀ z ∈ O, HasDerivAt φ (γ z) z := by
  simp only [diffGives, Bool.and_eq_true, decide_eq_true_eq] at h
  obtain ⟨h1, h2⟩ := h
  unfold diffEval at h1
  split at h1
  · rename_i r hr
    cases h1
    have hg : eval ((algCtx diffParams).guard (fun s e => Clean diffParams diffTable ("System`D" :: lhsHeads) s e ∧ DiffCall (stdInterp val) x s e) ImagClean) n { defs := diffTable }
        (.expr [S "D", f, .sym x]) = .ok (r.1, r.2) :=
      eval_le (checked_le (alg_le diffParams) (fun s e he => by
        simp only [Bool.and_eq_true] at he
        exact ⟨cleanB_sound he.1, diffCallB_sound hx he.2⟩) (fun _ => imagB_sound)) n n (Nat.le_refl n) _ _ _ hr
    exact C94_derivative_on_partial _ _ _ x (diffSetup val x hx) (fun _ => .refl _) n _ _ f r.2 ⟨rfl, rfl, rfl⟩ hf hq U hU hUd hv h2 hg O hO φ γ hφ hd hγ hc
  · cases h1

end Expreduce
