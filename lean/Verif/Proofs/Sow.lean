import Verif.Spec.Sow
import Verif.Proofs.EvalFlow

/-! Proofs for `Sow` and `Reap`: relations kept by evaluation; an interpreter that avoids a function. -/

namespace Expreduce
open Ex

theorem Ctx.without_mono {c : Ctx} (hc : c.Mono) (f : String) : (c.without f).Mono := by
  refine ⟨?_, hc.find⟩
  intro s n n' ev ev' st ps hn h
  simp only [Ctx.without]
  split
  · exact .refl _
  · exact hc.fn _ _ _ _ _ _ _ hn h

theorem applyDefs_without {c : Ctx} (hc : c.Mono) (f : String) {n : Nat} {ev ev' : Evaluator} (h : EvLe ev ev') (s : String) (st : EState)
    (cur : List Ex) (e : Ex) : (applyDefs (c.without f) n ev s st cur e).Le (applyDefs c n ev' s st cur e) := by
  unfold applyDefs
  refine .bind ?_ (fun r => ?_)
  · split
    · refine .bind ?_ (fun _ => .refl _)
      simp only [Ctx.without]
      split
      · exact Or.inl rfl
      · exact hc.fn _ _ _ _ _ _ _ le_rfl h
    · exact .refl _
  · split
    · exact .bind (hc.find _ _ _ _ _ h) (fun _ => .refl _)
    · exact .refl _

theorem sortArgs_without (c : Ctx) (f : String) (ps : List Ex) : sortArgs (c.without f) ps = sortArgs c ps := by cases ps <;> rfl

theorem afterArgs_without {c : Ctx} (hc : c.Mono) (f : String) {n : Nat} {ev ev' : Evaluator} (h : EvLe ev ev') (hd : Option String)
    (a : Attrs) (st : EState) (ps : List Ex) : (afterArgs (c.without f) n ev hd a st ps).Le (afterArgs c n ev' hd a st ps) := by
  unfold afterArgs
  refine .bind (spliceParts_mono h _ _ _ _) (fun r => ?_)
  cases r.2 with
  | nil => exact .refl _
  | cons p ps =>
    cases hd with
    | none => exact .refl _
    | some s =>
      simp only [symbolCase]
      split
      · rw [sortArgs_without]
        split
        · exact .refl _
        · exact applyDefs_without hc f h _ _ _ _
      · exact applyDefs_without hc f h _ _ _ _

theorem pass_without {c : Ctx} (hc : c.Mono) (f : String) {n : Nat} {ev ev' : Evaluator} (h : EvLe ev ev') (st : EState) (ps : List Ex) :
    (pass (c.without f) n ev st ps).Le (pass c n ev' st ps) := by
  simp only [pass]
  split
  · exact .bind (h _ _) (fun _ => .refl _)
  · refine .bind (evalArgs_mono h _ _ _ _) (fun r => ?_)
    cases r.2 with
    | inr t => exact .refl _
    | inl qs => exact afterArgs_without hc f h _ _ _ _

theorem evalLoop_without {c : Ctx} (hc : c.Mono) (f : String) {n : Nat} {ev ev' : Evaluator} (h : EvLe ev ev') :
    ∀ k st b last cur, (evalLoop (c.without f) n ev k st b last cur).Le (evalLoop c n ev' k st b last cur) := by
  intro k
  induction k with
  | zero => intro _ _ _ _; exact Or.inl rfl
  | succ k ih =>
    intro st b last cur
    unfold evalLoop
    show Res.Le (if unchanged c last cur then _ else _) _
    split
    · exact .refl _
    · split
      · split
        · exact .refl _
        · show Res.Le (if c.skip st _ then _ else _) _
          split
          · exact .refl _
          · refine .bind (pass_without hc f h _ _) (fun r => ?_)
            unfold afterPass
            cases r.2 with
            | ret e => exact .refl _
            | next e ins => exact ih _ _ _ _
      · exact h _ _

theorem eval_without {c : Ctx} (hc : c.Mono) (f : String) : ∀ n, EvLe (eval (c.without f) n) (eval c n) := by
  intro n
  induction n with
  | zero => intro st e; exact Or.inl rfl
  | succ n ih =>
    intro st e
    unfold eval
    split
    · exact evalLoop_without hc f ih _ _ _ _ _
    · exact .bind (ih _ _) (fun _ => .bind (ih _ _) (fun _ => .refl _))
    · exact .refl _
    · unfold evalSymbol
      split
      · exact .refl _
      · unfold evalDef
        split
        · exact .refl _
        · exact .bind (ih _ _) (fun _ => .refl _)
    · exact .refl _

theorem Evals.of_without {c : Ctx} (hc : c.Mono) {f : String} {st e st' v} (h : Evals (c.without f) st e st' v) : Evals c st e st' v := by
  obtain ⟨n, hn⟩ := h
  exact ⟨n, (eval_without hc f n st e).ok hn⟩

/-! ### Relations kept by evaluation -/

/-- All evaluations of `ev` end in a related state. -/
def EvKeeps (R : EState → EState → Prop) (ev : Evaluator) : Prop := ∀ st e st' v, ev st e = .ok (st', v) → R st st'

section
variable {R : EState → EState → Prop} (hr : ∀ st, R st st) (htr : ∀ a b d, R a b → R b d → R a d)
include hr htr

theorem evalArgs_keeps {ev : Evaluator} (h : EvKeeps R ev) (held : Nat → Bool) (ps : List Ex) :
    ∀ i st st' w, evalArgs ev held i st ps = .ok (st', w) → R st st' := by
  induction ps with
  | nil => intro i st st' w hw; cases hw; exact hr _
  | cons p ps ih =>
    intro i st st' w hw
    unfold evalArgs at hw
    split at hw
    · obtain ⟨q, h1, h2⟩ := Res.bind_ok hw
      cases h2
      exact ih _ _ _ _ h1
    · obtain ⟨q, h1, h2⟩ := Res.bind_ok hw
      have hq := h _ _ _ _ h1
      cases ht : q.1.thrown with
      | some t => rw [ht] at h2; cases h2; exact hq
      | none =>
        rw [ht] at h2
        obtain ⟨q', h3, h4⟩ := Res.bind_ok h2
        cases h4
        exact htr _ _ _ hq (ih _ _ _ _ h3)

theorem evalAll_keeps {ev : Evaluator} (h : EvKeeps R ev) (ps : List Ex) : ∀ st st' w, evalAll ev st ps = .ok (st', w) → R st st' := by
  induction ps with
  | nil => intro st st' w hw; cases hw; exact hr _
  | cons p ps ih =>
    intro st st' w hw
    unfold evalAll at hw
    obtain ⟨q, h1, h2⟩ := Res.bind_ok hw
    obtain ⟨q', h3, h4⟩ := Res.bind_ok h2
    cases h4
    exact htr _ _ _ (h _ _ _ _ h1) (ih _ _ _ h3)

theorem mergeEval_keeps {ev : Evaluator} (h : EvKeeps R ev) (hd : String) (ps : List Ex) {st st' w} (hw : mergeEval ev hd st ps = .ok (st', w)) : R st st' := by
  unfold mergeEval at hw
  split at hw
  · revert st st' w
    rename_i hx
    clear hx
    induction ps with
    | nil => intro st st' w hw; cases hw; exact hr _
    | cons p ps ih =>
      intro st st' w hw
      unfold mergeEvalLoop at hw
      split at hw
      · obtain ⟨q, h1, h2⟩ := Res.bind_ok hw
        obtain ⟨q', h3, h4⟩ := Res.bind_ok h2
        cases h4
        exact htr _ _ _ (evalAll_keeps hr htr h _ _ _ _ h1) (ih h3)
      · obtain ⟨q', h3, h4⟩ := Res.bind_ok hw
        cases h4
        exact ih h3
  · cases hw; exact hr _

theorem applyDefs_keeps {c : Ctx} (hc : c.Keeps R) {n : Nat} {ev : Evaluator} (h : EvKeeps R ev) {s : String} {st : EState}
    {cur : List Ex} {e : Ex} {st' o} (hw : applyDefs c n ev s st cur e = .ok (st', o)) : R st st' := by
  unfold applyDefs at hw
  obtain ⟨q, h1, h2⟩ := Res.bind_ok hw
  have hq : R st q.1 := by
    split at h1
    · obtain ⟨q', h3, h4⟩ := Res.bind_ok h1
      cases h4
      exact hc.fn _ _ _ _ _ _ _ h h3
    · cases h1; exact hr _
  split at h2
  · obtain ⟨q', h3, h4⟩ := Res.bind_ok h2
    have := hc.find _ _ _ _ _ _ h h3
    split at h4 <;> · cases h4; exact htr _ _ _ hq this
  · cases h2; exact hq

theorem afterArgs_keeps {c : Ctx} (hc : c.Keeps R) {n : Nat} {ev : Evaluator} (h : EvKeeps R ev) {hd : Option String}
    {a : Attrs} {st : EState} {ps : List Ex} {st' o} (hw : afterArgs c n ev hd a st ps = .ok (st', o)) : R st st' := by
  unfold afterArgs at hw
  obtain ⟨q, h1, h2⟩ := Res.bind_ok hw
  have hq : R st q.1 := by
    unfold spliceParts at h1
    obtain ⟨q', h3, h4⟩ := Res.bind_ok h1
    cases h4
    split at h3
    · cases h3; exact hr _
    · exact mergeEval_keeps hr htr h _ _ h3
  split at h2
  · cases h2
  · split at h2
    · refine htr _ _ _ hq ?_
      simp only [symbolCase] at h2
      split at h2
      · split at h2
        · cases h2; exact hr _
        · exact applyDefs_keeps hr htr hc h h2
      · exact applyDefs_keeps hr htr hc h h2
    · refine htr _ _ _ hq ?_
      unfold functionCase at h2
      split at h2
      · cases h2
      · split at h2
        · obtain ⟨q', h3, h4⟩ := Res.bind_ok h2
          cases h4
          exact hr _
        · cases h2; exact hr _

theorem pass_keeps {c : Ctx} (hc : c.Keeps R) {n : Nat} {ev : Evaluator} (h : EvKeeps R ev) {st : EState} {ps : List Ex} {st' o}
    (hw : pass c n ev st ps = .ok (st', o)) : R st st' := by
  simp only [pass] at hw
  split at hw
  · obtain ⟨q, h1, h2⟩ := Res.bind_ok hw
    cases h2
    exact h _ _ _ _ h1
  · obtain ⟨q, h1, h2⟩ := Res.bind_ok hw
    have hq := evalArgs_keeps hr htr h _ _ _ _ _ _ h1
    split at h2
    · cases h2; exact hq
    · exact htr _ _ _ hq (afterArgs_keeps hr htr hc h h2)

theorem evalLoop_keeps {c : Ctx} (hc : c.Keeps R) {n : Nat} {ev : Evaluator} (h : EvKeeps R ev) :
    ∀ k st b last cur st' v, evalLoop c n ev k st b last cur = .ok (st', v) → R st st' := by
  intro k
  induction k with
  | zero => intro _ _ _ _ _ _ hw; cases hw
  | succ k ih =>
    intro st b last cur st' v hw
    unfold evalLoop at hw
    split at hw
    · cases hw; exact hr _
    · split at hw
      · split at hw
        · cases hw; exact hr _
        · split at hw
          · cases hw; exact hr _
          · obtain ⟨q, h1, h2⟩ := Res.bind_ok hw
            have hq := pass_keeps hr htr hc h h1
            unfold afterPass at h2
            split at h2
            · cases h2; exact hq
            · exact htr _ _ _ hq (ih _ _ _ _ _ _ h2)
      · exact h _ _ _ _ hw

/-- Evaluation ends in a related state. -/
theorem eval_keeps {c : Ctx} (hc : c.Keeps R) : ∀ n, EvKeeps R (eval c n) := by
  intro n
  induction n with
  | zero => intro st e st' v hw; cases hw
  | succ n ih =>
    intro st e st' v hw
    unfold eval at hw
    split at hw
    · exact evalLoop_keeps hr htr hc ih _ _ _ _ _ _ _ hw
    · obtain ⟨q, h1, h2⟩ := Res.bind_ok hw
      obtain ⟨q', h3, h4⟩ := Res.bind_ok h2
      cases h4
      exact htr _ _ _ (ih _ _ _ _ h1) (ih _ _ _ _ h3)
    · cases hw; exact hr _
    · unfold evalSymbol at hw
      split at hw
      · cases hw; exact hr _
      · unfold evalDef at hw
        split at hw
        · cases hw; exact hr _
        · obtain ⟨q, h1, h2⟩ := Res.bind_ok hw
          cases h2
          exact ih _ _ _ _ h1
    · cases hw; exact hr _

end

end Expreduce
