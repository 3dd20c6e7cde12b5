import Verif.Spec.Interrupt
import Verif.Proofs.Sow
import Verif.Proofs.EvalPass
import Verif.Props.Eval2

/-! # Proofs about interrupts -/

namespace Expreduce
open Ex

theorem CallTree.plainPart {e : Ex} (h : CallTree e) (a : Attrs) : plainPart a e := by
  cases h with
  | call f args h1 h2 h3 _ =>
    exact ⟨.inr (.inr (by simpa [hasHead] using h1)), .inr (by simpa [hasHead] using h2), by simpa [hasHead] using h3⟩
  | _ => exact ⟨.inr (.inr rfl), .inr rfl, rfl⟩

theorem done_sym {c : Ctx} {st : EState} {s : String} (h : getSymDef st.toDState s = none) : Done c st (.sym s) :=
  ⟨1, evalSymbol_none h 0⟩

/-- A pass when the arguments have been evaluated to expressions that are not spliced. -/
theorem pass_vals {c : Ctx} (hc : c.Mono) {st : EState} {f : String} {args vs : List Ex}
    (hv : getSymDef st.toDState f = none) (ht : st.thrown = none) (hnf : (attrsOf st f).numericFunction = false)
    (hseq : EvalSeq c (holds (attrsOf st f)) 1 st args st vs) (hpl : ∀ a ∈ vs, plainPart (attrsOf st f) a) :
    ∃ N, ∀ n, N ≤ n → pass c n (eval c n) st (.sym f :: args) = symbolCase c n (eval c n) f (attrsOf st f) st (.sym f :: vs) := by
  obtain ⟨N1, h1⟩ := evalArgs_app hc hv ht (attrsOf st f) hseq
  refine ⟨N1, fun n hn => ?_⟩
  have hcond : conditional (attrsOf st f) (.sym f :: args) = none := by simp [conditional, hnf]
  simp only [pass, headAttrs, hcond, h1 n hn, Res.bind, callSym, afterArgs, Option.isSome]
  rw [spliceParts_plain _ _ _ _ (by
    intro p h
    rcases List.mem_cons.1 h with rfl | h
    · exact plain_sym _ _
    · exact hpl p h)]

/-- What follows from the rules for the end of a pass. -/
theorem symbolCase_rules {c : Ctx} {st : EState} {rules : String → Ex → Option Ex} (hp : RuleProgram c st rules) (n : Nat) (ev : Evaluator)
    (f : String) (vs : List Ex) : symbolCase c n ev f (attrsOf st f) st (.sym f :: vs) =
      .ok (st, match rules f (app f vs) with | some r => .next r true | none => .next (app f vs) false) := by
  have ha := hp.attrs f
  simp only [Attrs.noRearrange, Bool.and_eq_true, Bool.not_eq_true'] at ha
  obtain ⟨⟨⟨h1, h2⟩, h3⟩, h4⟩ := ha
  have hf := hp.find ev f (.expr (.sym f :: vs))
  simp only [symbolCase, h1, h2, h3, applyDefs, hp.noBuiltin, Res.bind, app]
  cases hq : rules f (.expr (.sym f :: vs)) <;> simp [hf, hq]

/-- The arguments of a call. -/
theorem evalSeq_trees {c : Ctx} {st : EState} (ht : st.thrown = none) (held : Nat → Prop) (args : List Ex)
    (h : ∀ a ∈ args, CallTree a ∧ ∃ v, Evals c st a st v ∧ Done c st v ∧ CallTree v) :
    ∀ i, ∃ vs, EvalSeq c held i st args st vs ∧ EvalSeq c held i st vs st vs ∧ ∀ v ∈ vs, CallTree v := by
  induction args with
  | nil => intro i; exact ⟨[], .nil, .nil, by simp⟩
  | cons a as ih =>
    intro i
    obtain ⟨vs, h1, h2, h3⟩ := ih (fun b hb => h b (by simp [hb])) (i + 1)
    obtain ⟨hca, v, hv1, hv2, hv3⟩ := h a (by simp)
    by_cases hi : held i
    · exact ⟨a :: vs, .hold hi h1, .hold hi h2, by simpa using ⟨hca, h3⟩⟩
    · exact ⟨v :: vs, .step hi hv1 ht h1, .step hi hv2 ht h2, by simpa using ⟨hv3, h3⟩⟩

theorem tree_stops {c : Ctx} (hc : c.Mono) (hs : ∀ a b, c.same a b = true ↔ a = b) {st : EState}
    {rules : String → Ex → Option Ex} (hp : RuleProgram c st rules) (hi : st.interrupted = true) (ht : st.thrown = none)
    {e : Ex} (he : CallTree e) : ∃ v, Evals c st e st v ∧ Done c st v ∧ CallTree v := by
  have hsr : ∀ e, c.same e e = true := fun e => (hs e e).2 rfl
  induction he with
  | sym s => exact ⟨.sym s, done_sym (hp.noValue s), done_sym (hp.noValue s), .sym s⟩
  | str s => exact ⟨.str s, ⟨1, rfl⟩, ⟨1, rfl⟩, .str s⟩
  | int n => exact ⟨.int n, ⟨1, rfl⟩, ⟨1, rfl⟩, .int n⟩
  | flt v => exact ⟨.flt v, ⟨1, rfl⟩, ⟨1, rfl⟩, .flt v⟩
  | call f args h1 h2 h3 hargs ih =>
    have htree : CallTree (.expr (.sym f :: args)) := .call f args h1 h2 h3 hargs
    by_cases hsk : c.skip st (.expr (.sym f :: args)) = true
    · have : Done c st (.expr (.sym f :: args)) := ⟨1, by rw [eval_expr, evalLoop_skip (by simp) hsk]⟩
      exact ⟨_, this, this, htree⟩
    have hsk : c.skip st (.expr (.sym f :: args)) = false := by simpa using hsk
    obtain ⟨vs, hseq, hseq', hvs⟩ := evalSeq_trees ht (holds (attrsOf st f)) args (fun a ha => ⟨hargs a ha, ih a ha⟩) 1
    have hnf : (attrsOf st f).numericFunction = false := by
      have ha := hp.attrs f
      simp only [Attrs.noRearrange, Bool.and_eq_true, Bool.not_eq_true'] at ha
      exact ha.2
    have hpl : ∀ a ∈ vs, plainPart (attrsOf st f) a := fun a ha => (hvs a ha).plainPart _
    obtain ⟨N1, hN1⟩ := pass_vals hc (hp.noValue f) ht hnf hseq hpl
    obtain ⟨N2, hN2⟩ := pass_vals hc (hp.noValue f) ht hnf hseq' hpl
    have hvtree : CallTree (.expr (.sym f :: vs)) := .call f vs h1 h2 h3 hvs
    cases hr : rules f (app f vs) with
    | none =>
      have hp1 : ∀ n, N1 + N2 ≤ n → pass c n (eval c n) st (.sym f :: args) = .ok (st, .next (.expr (.sym f :: vs)) false) := by
        intro n hn; rw [hN1 n (by omega), symbolCase_rules hp, hr]; rfl
      have hp2 : ∀ n, N1 + N2 ≤ n → pass c n (eval c n) st (.sym f :: vs) = .ok (st, .next (.expr (.sym f :: vs)) false) := by
        intro n hn; rw [hN2 n (by omega), symbolCase_rules hp, hr]; rfl
      refine ⟨.expr (.sym f :: vs), evals_of_two hsr hsk hp1 hp2, ?_, hvtree⟩
      by_cases hsk2 : c.skip st (.expr (.sym f :: vs)) = true
      · exact ⟨1, by rw [eval_expr, evalLoop_skip (by simp) hsk2]⟩
      · exact evals_of_two hsr (by simpa using hsk2) hp2 hp2
    | some r =>
      have hp1 : ∀ n, N1 + N2 ≤ n → pass c n (eval c n) st (.sym f :: args) = .ok (st, .next r true) := by
        intro n hn; rw [hN1 n (by omega), symbolCase_rules hp, hr]
      by_cases hre : r = .expr (.sym f :: args)
      · have : Done c st (.expr (.sym f :: args)) := by
          refine ⟨N1 + N2 + 2, ?_⟩
          rw [eval_expr, evalLoop_next rfl (by simp) hsk (hp1 _ (by omega)), hre,
            evalLoop_same (by simp [unchanged, hsr])]
        exact ⟨_, this, this, htree⟩
      · have hu : unchanged c (some (.expr (.sym f :: args))) r = false := by
          simp only [unchanged, Option.map_some, Option.getD_some]
          by_contra hcon
          exact hre ((hs _ _).1 (by simpa using hcon)).symm
        have hrest : ∀ k, evalLoop c (k + N1 + N2 + 1) (eval c (k + N1 + N2 + 1)) (k + N1 + N2 + 2) st false none (.expr (.sym f :: args)) =
            evalLoop c (k + N1 + N2 + 1) (eval c (k + N1 + N2 + 1)) (k + N1 + N2 + 1) st true (some (.expr (.sym f :: args))) r := by
          intro k
          rw [evalLoop_next rfl (by simp) hsk (hp1 _ (by omega))]; rfl
        rcases hp.result f _ r hr with ⟨ps, rfl⟩ | hatom
        · refine ⟨S "$Aborted", ⟨0 + N1 + N2 + 2, ?_⟩, done_sym (hp.noValue _), .sym _⟩
          rw [eval_expr, hrest, evalLoop, if_neg (by simp [hu])]
          simp [tryReturn, hi]
        · refine ⟨r, ⟨0 + N1 + N2 + 2, ?_⟩, ?_, ?_⟩
          · rw [eval_expr, hrest]
            unfold evalLoop
            rw [if_neg (by simp [hu])]
            rcases hatom with ⟨s, rfl⟩ | ⟨s, rfl⟩ | ⟨n, rfl⟩ | ⟨v, rfl⟩
            · exact evalSymbol_none (hp.noValue s) _
            · rfl
            · rfl
            · rfl
          · rcases hatom with ⟨s, rfl⟩ | ⟨s, rfl⟩ | ⟨n, rfl⟩ | ⟨v, rfl⟩
            · exact done_sym (hp.noValue s)
            · exact ⟨1, rfl⟩
            · exact ⟨1, rfl⟩
            · exact ⟨1, rfl⟩
          · rcases hatom with ⟨s, rfl⟩ | ⟨s, rfl⟩ | ⟨n, rfl⟩ | ⟨v, rfl⟩
            · exact .sym s
            · exact .str s
            · exact .int n
            · exact .flt v

end Expreduce
