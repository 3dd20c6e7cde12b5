import Verif.Spec.EvalMeaning
import Verif.Proofs.Meaning
import Verif.Proofs.EvalIdem
import Verif.Proofs.Arith2

/-! Evaluation keeps the meaning. -/

namespace Expreduce
open Ex

section
variable {A : Type _} {c : Ctx} {M : Meaning A} {R : A → A → Prop} {H : String → Prop} {I : EState → Prop}

theorem RespectsMeaning.relRefl (hc : RespectsMeaning c M R H I) (e : Ex) : Related M R e e :=
  List.forall₂_same.2 (fun x _ => hc.refl x)

theorem forall₂_trans {R : A → A → Prop} (ht : ∀ x y z, R x y → R y z → R x z) : ∀ {xs ys zs : List A}, List.Forall₂ R xs ys → List.Forall₂ R ys zs →
    List.Forall₂ R xs zs
  | _, _, _, .nil, .nil => .nil
  | _, _, _, .cons h1 h2, .cons h3 h4 => .cons (ht _ _ _ h1 h3) (forall₂_trans ht h2 h4)

theorem RespectsMeaning.relTrans (hc : RespectsMeaning c M R H I) {a b d : Ex} (h1 : Related M R a b) (h2 : Related M R b d) : Related M R a d :=
  forall₂_trans hc.trans h1 h2

theorem forall₂_append {R : A → A → Prop} {xs ys xs' ys' : List A} (h : List.Forall₂ R xs ys) (h' : List.Forall₂ R xs' ys') :
    List.Forall₂ R (xs ++ xs') (ys ++ ys') := List.rel_append h h'

theorem frag_args {s : String} {args : List Ex} (h : Frag H (.expr (.sym s :: args))) : H s ∧ ∀ a ∈ args, Frag H a := by
  cases h with
  | app h1 h2 => exact ⟨h1, h2⟩

theorem frag_noHead {s : String} (hs : ¬ H s) {e : Ex} (h : Frag H e) : hasHead s e = false := by
  cases h with
  | app h1 h2 =>
    simp only [hasHead, beq_eq_false_iff_ne, ne_eq]
    rintro rfl
    exact hs h1
  | _ => rfl

/-- Related arguments give related calls. -/
theorem RespectsMeaning.call (hc : RespectsMeaning c M R H I) {s : String} (hs : H s) {as bs : List Ex} (h : List.Forall₂ R (M.vals as) (M.vals bs)) :
    Related M R (.expr (.sym s :: as)) (.expr (.sym s :: bs)) := by
  unfold Related
  by_cases h1 : s = "System`Sequence"
  · subst h1
    have e : ∀ l, M.argVals (.expr (.sym "System`Sequence" :: l)) = M.vals l := fun l => Meaning.argVals_seq
    rw [e, e]
    exact h
  · rw [Meaning.argVals_app h1, Meaning.argVals_app h1]
    exact .cons (hc.mono s hs _ _ h) .nil

theorem evalArgs_meaning (hc : RespectsMeaning c M R H I) {ev : Evaluator} (hev : KeepsMeaning M R H I ev) {held : Nat → Bool} :
    ∀ {ps : List Ex} {i : Nat} {st st' : EState} {o : List Ex ⊕ Ex}, I st → (∀ p ∈ ps, Frag H p) → evalArgs ev held i st ps = .ok (st', o) →
      I st' ∧ ∃ qs, o = .inl qs ∧ (∀ q ∈ qs, Frag H q) ∧ List.Forall₂ (fun p q => Related M R p q ∧ ∀ s, p = .sym s → H s → q = .sym s) ps qs
  | [], i, st, st', o, hI, hf, h => by
    simp only [evalArgs, Res.ok.injEq, Prod.mk.injEq] at h
    obtain ⟨rfl, rfl⟩ := h
    exact ⟨hI, [], rfl, by simp, .nil⟩
  | p :: ps, i, st, st', o, hI, hf, h => by
    rw [evalArgs] at h
    split at h
    · obtain ⟨q, h1, h2⟩ := Res.bind_ok h
      obtain ⟨hI', qs, e, h3, h4⟩ := evalArgs_meaning hc hev hI (fun p hp => hf p (by simp [hp])) h1
      cases h2
      refine ⟨hI', p :: qs, by rw [e]; rfl, ?_, .cons ⟨hc.relRefl p, fun s hs _ => hs⟩ h4⟩
      intro q hq
      rcases List.mem_cons.1 hq with rfl | hq
      · exact hf _ (by simp)
      · exact h3 q hq
    · obtain ⟨r, h1, h2⟩ := Res.bind_ok h
      obtain ⟨hI1, hf1, hr1, hs1⟩ := hev _ _ _ _ hI (hf p (by simp)) h1
      rw [(hc.calm _ hI1).1] at h2
      simp only at h2
      obtain ⟨q, h3, h4⟩ := Res.bind_ok h2
      obtain ⟨hI', qs, e, h5, h6⟩ := evalArgs_meaning hc hev hI1 (fun p hp => hf p (by simp [hp])) h3
      cases h4
      refine ⟨hI', r.2 :: qs, by rw [e]; rfl, ?_, .cons ⟨hr1, hs1⟩ h6⟩
      intro q hq
      rcases List.mem_cons.1 hq with rfl | hq
      · exact hf1
      · exact h5 q hq

theorem vals_related : ∀ {ps qs : List Ex}, List.Forall₂ (fun p q => Related M R p q ∧ ∀ s, p = .sym s → H s → q = .sym s) ps qs →
    List.Forall₂ R (M.vals ps) (M.vals qs)
  | _, _, .nil => by rw [Meaning.vals_nil]; exact .nil
  | _, _, .cons h t => by
    rw [Meaning.vals_cons, Meaning.vals_cons]
    exact forall₂_append h.1 (vals_related t)

theorem argsOf_some {h : String} {e : Ex} {args : List Ex} (he : argsOf h e = some args) : e = .expr (.sym h :: args) := by
  unfold argsOf at he
  split at he
  · rename_i s as
    split at he
    · simp only [Option.some.injEq] at he
      subst he
      rename_i hs
      rw [show s = h by simpa using hs]
    · simp at he
  · simp at he

theorem appendPart_foldl (h : String) : ∀ (ps res : List Ex), ps.foldl (appendPart h) res = res ++ ps.flatMap (fun e => (argsOf h e).getD [e])
  | [], res => by simp
  | p :: ps, res => by
    rw [List.foldl_cons, appendPart_foldl h ps, List.flatMap_cons, ← List.append_assoc]
    congr 1
    unfold appendPart
    cases argsOf h p <;> rfl

theorem mergeSeq_flatMap (h : String) (ps : List Ex) : mergeSeq h ps = ps.flatMap (fun e => (argsOf h e).getD [e]) := by
  unfold mergeSeq
  split
  · rw [appendPart_foldl]; rfl
  · rename_i hn
    have : ∀ e ∈ ps, argsOf h e = none := by
      intro e he
      cases ha : argsOf h e with
      | none => rfl
      | some args =>
        exfalso
        apply hn
        rw [List.any_eq_true]
        refine ⟨e, he, ?_⟩
        rw [argsOf_some ha]
        simp [hasHead]
    clear hn
    induction ps with
    | nil => rfl
    | cons p ps ih =>
      rw [List.flatMap_cons, this p (by simp), ← ih (fun e he => this e (by simp [he]))]
      rfl

theorem mergeSeq_frag {h : String} {ps : List Ex} (hf : ∀ p ∈ ps, Frag H p) : ∀ q ∈ mergeSeq h ps, Frag H q := by
  intro q hq
  rw [mergeSeq_flatMap] at hq
  obtain ⟨p, hp, hq⟩ := List.mem_flatMap.1 hq
  cases ha : argsOf h p with
  | none => rw [ha] at hq; simp at hq; subst hq; exact hf _ hp
  | some args =>
    rw [ha] at hq
    have := hf p hp
    rw [argsOf_some ha] at this
    exact (frag_args this).2 q hq

theorem mergeSeq_id {h : String} {ps : List Ex} (hn : ∀ p ∈ ps, hasHead h p = false) : mergeSeq h ps = ps := by
  unfold mergeSeq
  rw [if_neg]
  simp only [List.any_eq_true, not_exists, not_and, Bool.not_eq_true]
  exact hn

/-- Splicing sequences keeps the values of the arguments. -/
theorem mergeSeq_vals (ps : List Ex) : M.vals (mergeSeq "System`Sequence" ps) = M.vals ps := by
  rw [mergeSeq_flatMap]
  induction ps with
  | nil => rfl
  | cons p ps ih =>
    rw [List.flatMap_cons, Meaning.vals_append, ih, Meaning.vals_cons]
    congr 1
    cases ha : argsOf "System`Sequence" p with
    | none => simp [Meaning.vals_cons, Meaning.vals_nil]
    | some args =>
      rw [argsOf_some ha]
      exact Meaning.argVals_seq.symm

theorem mergeSeq_flat {s : String} (h : ∀ xs ys zs, M.op s (xs ++ M.op s ys :: zs) = M.op s (xs ++ (ys ++ zs))) (hs : s ≠ "System`Sequence") (ps : List Ex) :
    M.op s (M.vals (mergeSeq s ps)) = M.op s (M.vals ps) := by
  rw [mergeSeq_flatMap]
  have : ∀ (ps : List Ex) (X : List A), M.op s (X ++ M.vals (ps.flatMap (fun e => (argsOf s e).getD [e]))) = M.op s (X ++ M.vals ps) := by
    intro ps
    induction ps with
    | nil => intro X; rfl
    | cons p ps ih =>
      intro X
      rw [List.flatMap_cons, Meaning.vals_append, Meaning.vals_cons, ← List.append_assoc, ih]
      cases ha : argsOf s p with
      | none => simp [Meaning.vals_cons, Meaning.vals_nil]
      | some args =>
        rw [argsOf_some ha, Meaning.argVals_app hs, Option.getD_some, List.append_assoc, List.singleton_append, h]
  exact this ps []

theorem spliceParts_meaning (hc : RespectsMeaning c M R H I) {ev : Evaluator} {isSym : Bool} {a : Attrs} {st st' : EState} {s : String} {args qs : List Ex}
    (hf : ∀ p ∈ args, Frag H p) (h : spliceParts ev isSym a st (.sym s :: args) = .ok (st', qs)) :
    st' = st ∧ ∃ args', qs = .sym s :: args' ∧ (∀ p ∈ args', Frag H p) ∧ M.vals args' = M.vals args := by
  obtain ⟨args1, e1, hf1, hv1⟩ : ∃ args', (if isSym && (a.sequenceHold || a.holdAllComplete) then Ex.sym s :: args else mergeSeq "System`Sequence" (.sym s :: args)) =
      .sym s :: args' ∧ (∀ p ∈ args', Frag H p) ∧ M.vals args' = M.vals args := by
    split
    · exact ⟨args, rfl, hf, rfl⟩
    · refine ⟨mergeSeq "System`Sequence" args, ?_, mergeSeq_frag hf, mergeSeq_vals args⟩
      rw [mergeSeq_flatMap, mergeSeq_flatMap]
      rfl
  simp only [spliceParts] at h
  rw [e1] at h
  have hno : ∀ t ∈ ["System`Return", "System`Evaluate", "System`Unevaluated", "System`ConditionalExpression"], ∀ p ∈ Ex.sym s :: args1, hasHead t p = false := by
    intro t ht p hp
    rcases List.mem_cons.1 hp with rfl | hp
    · rfl
    · exact frag_noHead (hc.plain t ht) (hf1 p hp)
  obtain ⟨r, h1, h2⟩ := Res.bind_ok h
  have hr : r = (st, Ex.sym s :: args1) := by
    split at h1
    · simp only [Res.ok.injEq] at h1; exact h1.symm
    · unfold mergeEval at h1
      rw [if_neg] at h1
      · simp only [Res.ok.injEq] at h1; exact h1.symm
      · simp only [List.any_eq_true, not_exists, not_and, Bool.not_eq_true]
        exact hno _ (by simp)
  subst hr
  rw [mergeSeq_id (hno _ (by simp))] at h2
  simp only [Res.ok.injEq, Prod.mk.injEq] at h2
  obtain ⟨rfl, rfl⟩ := h2
  exact ⟨rfl, args1, rfl, hf1, hv1⟩

/-- The outcome of a pass: an expression of the fragment with a related value. -/
def OutOk (M : Meaning A) (R : A → A → Prop) (H : String → Prop) (e : Ex) : Out → Prop
  | .ret e' => Frag H e' ∧ Related M R e e'
  | .next e' _ => Frag H e' ∧ Related M R e e'

theorem applyDefs_meaning (hc : RespectsMeaning c M R H I) {n : Nat} {ev : Evaluator} (hev : KeepsMeaning M R H I ev) {s : String} {st st' : EState}
    {args : List Ex} {curEx : Ex} {o : Out} (hI : I st) (hf : Frag H (.expr (.sym s :: args))) (hfc : Frag H curEx)
    (hr : Related M R (.expr (.sym s :: args)) curEx) {e : Ex} (he : Related M R e (.expr (.sym s :: args)))
    (h : applyDefs c n ev s st (.sym s :: args) curEx = .ok (st', o)) : I st' ∧ OutOk M R H e o := by
  unfold applyDefs at h
  obtain ⟨r, h1, h2⟩ := Res.bind_ok h
  have hr1 : I r.1 ∧ Frag H r.2.1 ∧ Related M R (.expr (.sym s :: args)) r.2.1 := by
    split at h1
    · obtain ⟨q, h3, h4⟩ := Res.bind_ok h1
      cases h4
      exact hc.fn s n ev st args q.1 q.2 hev hI hf h3
    · cases h1
      exact ⟨hI, hfc, hr⟩
  split at h2
  · obtain ⟨q, h3, h4⟩ := Res.bind_ok h2
    obtain ⟨h5, h6⟩ := hc.find s ev r.1 _ q.1 q.2 hev hr1.1 hf h3
    split at h4
    · rename_i res heq
      cases h4
      obtain ⟨h7, h8⟩ := h6 res heq
      exact ⟨h5, h7, hc.relTrans he h8⟩
    · cases h4
      exact ⟨h5, hr1.2.1, hc.relTrans he hr1.2.2⟩
  · cases h2
    exact ⟨hr1.1, hr1.2.1, hc.relTrans he hr1.2.2⟩

theorem symbolCase_meaning (hc : RespectsMeaning c M R H I) {n : Nat} {ev : Evaluator} (hev : KeepsMeaning M R H I ev) {s : String} {st0 st st' : EState}
    {args : List Ex} {o : Out} (hI0 : I st0) (hI : I st) (hf : Frag H (.expr (.sym s :: args)))
    {e : Ex} (he : Related M R e (.expr (.sym s :: args))) (h : symbolCase c n ev s (attrsOf st0 s) st (.sym s :: args) = .ok (st', o)) :
    I st' ∧ OutOk M R H e o := by
  obtain ⟨hs, hfa⟩ := frag_args hf
  -- flattening
  obtain ⟨as1, e1, hf1, hr1⟩ : ∃ as1, (if (attrsOf st0 s).flat then mergeSeq s (.sym s :: args) else .sym s :: args) = .sym s :: as1 ∧
      (∀ p ∈ as1, Frag H p) ∧ M.argVals (.expr (.sym s :: as1)) = M.argVals (.expr (.sym s :: args)) := by
    split
    · rename_i hfl
      obtain ⟨h1, h2⟩ := hc.flat st0 hI0 s hs hfl
      refine ⟨mergeSeq s args, by rw [mergeSeq_flatMap, mergeSeq_flatMap]; rfl, mergeSeq_frag hfa, ?_⟩
      rw [Meaning.argVals_app h1, Meaning.argVals_app h1, mergeSeq_flat h2 h1]
    · exact ⟨args, rfl, hfa, rfl⟩
  obtain ⟨as2, e2, hf2, hr2⟩ : ∃ as2, (if (attrsOf st0 s).orderless then sortArgs c (.sym s :: as1) else .sym s :: as1) = .sym s :: as2 ∧
      (∀ p ∈ as2, Frag H p) ∧ M.argVals (.expr (.sym s :: as2)) = M.argVals (.expr (.sym s :: args)) := by
    split
    · rename_i hfl
      obtain ⟨h1, h2⟩ := hc.orderless st0 hI0 s hs hfl
      refine ⟨c.sort as1, rfl, fun p hp => hf1 p ((hc.sort as1).mem_iff.1 hp), ?_⟩
      rw [← hr1, Meaning.argVals_app h1, Meaning.argVals_app h1, h2 _ _ (Meaning.vals_perm (hc.sort as1))]
    · exact ⟨as1, rfl, hf1, hr1⟩
  have hF2 : Frag H (.expr (.sym s :: as2)) := .app hs hf2
  have he2 : Related M R e (.expr (.sym s :: as2)) := by unfold Related at he ⊢; rw [hr2]; exact he
  simp only [symbolCase] at h
  rw [e1, e2] at h
  split at h
  · rename_i hl
    split at h
    · rename_i e' ht
      cases h
      obtain ⟨h1, h2⟩ := hc.listable st0 hI0 s as2 e' hl hF2 ht
      exact ⟨hI, h1, hc.relTrans he2 h2⟩
    · exact applyDefs_meaning hc hev hI hF2 hF2 (hc.relRefl _) he2 h
  · refine applyDefs_meaning hc hev hI hF2 ?_ ?_ he2 h
    · split
      · exact hf
      · exact hF2
    · split
      · unfold Related; rw [hr2]; exact hc.relRefl _
      · exact hc.relRefl _

theorem frag_noCond (hc : RespectsMeaning c M R H I) {e : Ex} (h : Frag H e) : condExprArgs e = none := by
  cases h with
  | @app s args h1 h2 =>
    unfold condExprArgs
    split
    · rename_i heq
      simp only [Ex.expr.injEq, List.cons.injEq, Ex.sym.injEq] at heq
      obtain ⟨rfl, _⟩ := heq
      rw [if_neg]
      rintro rfl
      exact hc.plain _ (by simp) h1
    · rfl
  | _ => rfl

theorem pass_meaning (hc : RespectsMeaning c M R H I) {n : Nat} {ev : Evaluator} (hev : KeepsMeaning M R H I ev) {st st' : EState} {ps : List Ex} {o : Out}
    (hI : I st) (hf : Frag H (.expr ps)) (h : pass c n ev st ps = .ok (st', o)) : I st' ∧ OutOk M R H (.expr ps) o := by
  cases hf with
  | @app s args hs hfa =>
    have hcond : conditional (headAttrs st (.sym s :: args)) (.sym s :: args) = none := by
      unfold conditional
      split
      · unfold propagate
        simp only
        rw [if_neg]
        simp only [List.any_eq_true, not_exists, not_and, Bool.not_eq_true]
        intro x hx
        rw [frag_noCond hc (hfa x hx)]; rfl
      · rfl
    simp only [pass] at h
    rw [hcond] at h
    simp only at h
    obtain ⟨r, h1, h2⟩ := Res.bind_ok h
    obtain ⟨hI1, qs, e1, hfq, hrq⟩ := evalArgs_meaning hc hev hI (by
      intro p hp
      rcases List.mem_cons.1 hp with rfl | hp
      · exact .sym _
      · exact hfa p hp) h1
    rw [e1] at h2
    simp only at h2
    cases hrq with
    | @cons _ q0 _ as0 g1 g2 =>
      have : q0 = .sym s := g1.2 s rfl hs
      subst this
      unfold afterArgs at h2
      obtain ⟨q, h3, h4⟩ := Res.bind_ok h2
      obtain ⟨e2, as1, e3, hf1, hv1⟩ := spliceParts_meaning hc (fun p hp => hfq p (by simp [hp])) h3
      have hrel : Related M R (.expr (.sym s :: args)) (.expr (.sym s :: as1)) := by
        refine hc.call hs ?_
        rw [hv1]
        exact vals_related g2
      rw [e3] at h4
      simp only [callSym] at h4
      rw [e2] at h4
      exact symbolCase_meaning hc hev hI hI1 (.app hs hf1) hrel h4

theorem tryReturn_none (hc : RespectsMeaning c M R H I) {st : EState} (hI : I st) {e : Ex} (hf : Frag H e) : tryReturn st e = none := by
  unfold tryReturn
  rw [(hc.calm st hI).2]
  simp only [Bool.false_eq_true, if_false]
  have : argsOf "System`Return" e = none := by
    cases ha : argsOf "System`Return" e with
    | none => rfl
    | some args =>
      rw [argsOf_some ha] at hf
      exact absurd (frag_args hf).1 (hc.plain _ (by simp))
  rw [this]

theorem evalLoop_meaning (hc : RespectsMeaning c M R H I) {n : Nat} {ev : Evaluator} (hev : KeepsMeaning M R H I ev) :
    ∀ k st b last cur st' v, I st → Frag H cur → evalLoop c n ev k st b last cur = .ok (st', v) → I st' ∧ Frag H v ∧ Related M R cur v := by
  intro k
  induction k with
  | zero => intro _ _ _ _ _ _ _ _ hw; cases hw
  | succ k ih =>
    intro st b last cur st' v hI hf hw
    unfold evalLoop at hw
    split at hw
    · cases hw; exact ⟨hI, hf, hc.relRefl _⟩
    · split at hw
      · rename_i ps
        split at hw
        · rename_i v' hret
          split at hret
          · rw [tryReturn_none hc hI hf] at hret; simp at hret
          · simp at hret
        · split at hw
          · cases hw; exact ⟨hI, hf, hc.relRefl _⟩
          · obtain ⟨q, h1, h2⟩ := Res.bind_ok hw
            obtain ⟨hI1, hout⟩ := pass_meaning hc hev hI hf h1
            unfold afterPass at h2
            split at h2
            · rename_i e heq
              rw [heq] at hout
              cases h2
              exact ⟨hI1, hout.1, hout.2⟩
            · rename_i e ins heq
              rw [heq] at hout
              obtain ⟨h3, h4, h5⟩ := ih _ _ _ _ _ _ hI1 hout.1 h2
              exact ⟨h3, h4, hc.relTrans hout.2 h5⟩
      · obtain ⟨h1, h2, h3, _⟩ := hev _ _ _ _ hI hf hw
        exact ⟨h1, h2, h3⟩

theorem evalRational_frag (n d : Int) (hd : d ≠ 0) : Frag H (evalRational n d) := by
  have := evalRational_canon n d hd
  generalize evalRational n d = e at this ⊢
  cases e <;> simp only [CanonReal] at this
  · exact .int _
  · exact .rat (by omega)

theorem evalReal_exact {e : Ex} (h : ExactReal e) : CanonReal (evalReal e) := by
  cases e <;> simp only [ExactReal] at h
  · trivial
  · exact evalRational_canon _ _ h

theorem canon_exact {e : Ex} (h : CanonReal e) : ExactReal e := by
  cases e <;> simp only [CanonReal] at h
  · trivial
  · simp only [ExactReal]; omega

theorem evalComplex_frag {re im : Ex} (h1 : ExactReal re) (h2 : ExactReal im) (h3 : imagOk im) : Frag H (evalComplex re im) := by
  have g1 := evalReal_exact h1
  have g2 := evalReal_exact h2
  unfold evalComplex
  split
  · generalize evalReal re = e at g1 ⊢
    cases e <;> simp only [CanonReal] at g1
    · exact .int _
    · exact .rat (by omega)
  · refine .cplx (canon_exact g1) (canon_exact g2) ?_
    unfold imagOk at h3 ⊢
    rw [CanonReal.evalReal_id g2]
    exact h3

theorem eval_real {c : Ctx} {e : Ex} (h : ExactReal e) {n : Nat} {st : EState} {r} (hr : eval c n st e = .ok r) : r = (st, evalReal e) := by
  cases n with
  | zero => cases hr
  | succ n =>
    unfold eval at hr
    cases e <;> simp only [ExactReal] at h <;> simp only at hr <;> cases hr <;> rfl

/-- Evaluation keeps the meaning. -/
theorem eval_meaning (hc : RespectsMeaning c M R H I) : ∀ n, KeepsMeaning M R H I (eval c n) := by
  intro n
  induction n with
  | zero => intro st e st' e' _ _ h; cases h
  | succ n ih =>
    intro st e st' e' hI hf h
    unfold eval at h
    cases hf with
    | str s => simp only at h; cases h; exact ⟨hI, .str _, hc.relRefl _, by simp⟩
    | int s => simp only at h; cases h; exact ⟨hI, .int _, hc.relRefl _, by simp⟩
    | rat hd => simp only at h; cases h; exact ⟨hI, evalRational_frag _ _ hd, hc.rational _ _ hd, by simp⟩
    | @cplx re im g1 g2 g3 =>
      simp only [evalCplx] at h
      obtain ⟨r, k1, k2⟩ := Res.bind_ok h
      obtain ⟨i, k3, k4⟩ := Res.bind_ok k2
      cases eval_real g1 k1
      cases eval_real g2 k3
      simp only [Res.ok.injEq, Prod.mk.injEq] at k4
      obtain ⟨rfl, hk⟩ := k4
      have : e' = evalComplex re im := by
        rw [← hk, evalComplex]
        by_cases h0 : evalReal im = .int 0
        · rw [if_pos h0, h0, if_pos (by decide +kernel)]
        · rw [if_neg h0, if_neg (fun hs => h0 (g3 hs))]
      subst this
      exact ⟨hI, evalComplex_frag g1 g2 g3, hc.complex _ _ g1 g2, by simp⟩
    | app h1 h2 =>
      simp only at h
      obtain ⟨g1, g2, g3⟩ := evalLoop_meaning hc ih _ _ _ _ _ _ _ hI (.app h1 h2) h
      exact ⟨g1, g2, g3, by simp⟩
    | sym s =>
      simp only at h
      unfold evalSymbol at h
      cases hd : getSymDef st.toDState s with
      | none =>
        rw [hd] at h
        cases h
        exact ⟨hI, .sym _, hc.relRefl _, fun t ht _ => ht⟩
      | some d =>
        rw [hd] at h
        obtain ⟨k1, k2⟩ := hc.values st hI s d hd
        simp only [evalDef] at h
        have hH : ∀ t, Ex.sym s = .sym t → H t → False := by
          rintro t e ht
          cases e
          rw [hc.heads st hI s ht] at hd
          simp at hd
        split at h
        · cases h
          exact ⟨hI, k1, k2, fun t e ht => absurd ht (fun ht => hH t e ht)⟩
        · obtain ⟨r, h1, h2⟩ := Res.bind_ok h
          obtain ⟨g1, g2, g3, _⟩ := ih _ _ _ _ hI k1 h1
          rw [tryReturn_none hc g1 g2] at h2
          cases h2
          exact ⟨g1, g2, hc.relTrans k2 g3, fun t e ht => absurd ht (fun ht => hH t e ht)⟩

end

end Expreduce
