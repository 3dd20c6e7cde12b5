import Verif.Proofs.EvalIdem

/-! An interpreter whose parts give more answers gives more answers. -/

namespace Expreduce
open Ex

/-- `ev'` gives every result that `ev` gives. -/
def EvSub (ev ev' : Evaluator) : Prop := ∀ st e r, ev st e = .ok r → ev' st e = .ok r

/-- The functions of `c'` give every result that those of `c` give. -/
structure CtxLe (c c' : Ctx) : Prop where
  skip : c.skip = c'.skip
  apply : c.apply = c'.apply
  same : c.same = c'.same
  sort : c.sort = c'.sort
  fn : ∀ s n n' ev ev' st ps r, n ≤ n' → EvSub ev ev' → c.fn s n ev st ps = .ok r → c'.fn s n' ev' st ps = .ok r
  find : ∀ s ev ev' st e r, EvSub ev ev' → c.find ev st s e = .ok r → c'.find ev' st s e = .ok r

theorem bind_le {α β : Type} {x y : Res α} {f g : α → Res β} (h1 : ∀ a, x = .ok a → y = .ok a) (h2 : ∀ a b, f a = .ok b → g a = .ok b) {b : β}
    (h : x.bind f = .ok b) : y.bind g = .ok b := by
  obtain ⟨a, ha, hb⟩ := Res.bind_ok h
  rw [h1 a ha]
  exact h2 a b hb

variable {c c' : Ctx} {ev ev' : Evaluator}

theorem evalArgs_le (h : EvSub ev ev') (held : Nat → Bool) : ∀ (ps : List Ex) i st r, evalArgs ev held i st ps = .ok r → evalArgs ev' held i st ps = .ok r
  | [], _, _, _, hr => hr
  | p :: ps, i, st, r, hr => by
    unfold evalArgs at hr ⊢
    split at hr
    · rename_i hh
      rw [if_pos hh]
      exact bind_le (evalArgs_le h held ps _ _) (fun _ _ hb => hb) hr
    · rename_i hh
      rw [if_neg hh]
      refine bind_le (h st p) ?_ hr
      intro a b hb
      split at hb
      · exact hb
      · exact bind_le (evalArgs_le h held ps _ _) (fun _ _ hb => hb) hb

theorem evalAll_le (h : EvSub ev ev') : ∀ (ps : List Ex) st r, evalAll ev st ps = .ok r → evalAll ev' st ps = .ok r
  | [], _, _, hr => hr
  | p :: ps, st, r, hr => by
    unfold evalAll at hr ⊢
    exact bind_le (h st p) (fun a b hb => bind_le (evalAll_le h ps _) (fun _ _ hb => hb) hb) hr

theorem mergeEvalLoop_le (h : EvSub ev ev') (hd : String) : ∀ (ps : List Ex) st r, mergeEvalLoop ev hd st ps = .ok r → mergeEvalLoop ev' hd st ps = .ok r
  | [], _, _, hr => hr
  | p :: ps, st, r, hr => by
    unfold mergeEvalLoop at hr ⊢
    split at hr
    · rename_i args ha
      exact bind_le (evalAll_le h args _) (fun a b hb => bind_le (mergeEvalLoop_le h hd ps _) (fun _ _ hb => hb) hb) hr
    · exact bind_le (mergeEvalLoop_le h hd ps _) (fun _ _ hb => hb) hr

theorem spliceParts_le (h : EvSub ev ev') {isSym : Bool} {a : Attrs} {st : EState} {ps : List Ex} {r} (hr : spliceParts ev isSym a st ps = .ok r) :
    spliceParts ev' isSym a st ps = .ok r := by
  unfold spliceParts at hr ⊢
  simp only at hr ⊢
  generalize (if isSym && (a.sequenceHold || a.holdAllComplete) then ps else mergeSeq "System`Sequence" ps) = ps' at hr ⊢
  refine bind_le ?_ (fun _ _ hb => hb) hr
  intro b hb
  split at hb
  · rename_i hh; rw [if_pos hh]; exact hb
  · rename_i hh
    rw [if_neg hh]
    unfold mergeEval at hb ⊢
    split at hb
    · rename_i h2; rw [if_pos h2]; exact mergeEvalLoop_le h _ _ _ _ hb
    · rename_i h2; rw [if_neg h2]; exact hb

theorem applyDefs_le (hc : CtxLe c c') {n n' : Nat} (hn : n ≤ n') (h : EvSub ev ev') {s : String} {st : EState} {cur : List Ex} {curEx : Ex} {r}
    (hr : applyDefs c n ev s st cur curEx = .ok r) : applyDefs c' n' ev' s st cur curEx = .ok r := by
  unfold applyDefs at hr ⊢
  refine bind_le ?_ ?_ hr
  · intro a ha
    split at ha
    · rename_i hh
      rw [if_pos hh]
      exact bind_le (fun b hb => hc.fn s n n' ev ev' st cur b hn h hb) (fun _ _ hb => hb) ha
    · rename_i hh; rw [if_neg hh]; exact ha
  · intro a b hb
    split at hb
    · rename_i hh
      rw [if_pos hh]
      exact bind_le (fun q hq => hc.find s ev ev' _ _ q h hq) (fun _ _ hb => hb) hb
    · rename_i hh; rw [if_neg hh]; exact hb

theorem symbolCase_le (hc : CtxLe c c') {n n' : Nat} (hn : n ≤ n') (h : EvSub ev ev') {s : String} {a : Attrs} {st : EState} {ps : List Ex} {r}
    (hr : symbolCase c n ev s a st ps = .ok r) : symbolCase c' n' ev' s a st ps = .ok r := by
  have hsort : sortArgs c = sortArgs c' := by
    funext l
    cases l <;> simp [sortArgs, hc.sort]
  unfold symbolCase at hr ⊢
  rw [← hsort]
  simp only at hr ⊢
  split at hr
  · rename_i hh
    rw [if_pos hh]
    split at hr
    · exact hr
    · exact applyDefs_le hc hn h hr
  · rename_i hh
    rw [if_neg hh]
    exact applyDefs_le hc hn h hr

theorem afterArgs_le (hc : CtxLe c c') {n n' : Nat} (hn : n ≤ n') (h : EvSub ev ev') {hd : Option String} {a : Attrs} {st : EState} {ps : List Ex} {r}
    (hr : afterArgs c n ev hd a st ps = .ok r) : afterArgs c' n' ev' hd a st ps = .ok r := by
  unfold afterArgs at hr ⊢
  refine bind_le (fun _ hb => spliceParts_le h hb) ?_ hr
  intro q b hb
  split at hb
  · cases hb
  · split at hb
    · exact symbolCase_le hc hn h hb
    · unfold functionCase at hb ⊢
      rw [← hc.apply]
      exact hb

theorem pass_le (hc : CtxLe c c') {n n' : Nat} (hn : n ≤ n') (h : EvSub ev ev') {st : EState} {ps : List Ex} {r}
    (hr : pass c n ev st ps = .ok r) : pass c' n' ev' st ps = .ok r := by
  unfold pass at hr ⊢
  simp only at hr ⊢
  split at hr
  · exact bind_le (h st _) (fun _ _ hb => hb) hr
  · refine bind_le (evalArgs_le h _ _ _ _) ?_ hr
    intro q b hb
    split at hb
    · exact hb
    · exact afterArgs_le hc hn h hb

theorem evalLoop_le (hc : CtxLe c c') {n n' : Nat} (hn : n ≤ n') (h : EvSub ev ev') : ∀ k k' st b last cur r, k ≤ k' →
    evalLoop c n ev k st b last cur = .ok r → evalLoop c' n' ev' k' st b last cur = .ok r := by
  intro k
  induction k with
  | zero => intro _ _ _ _ _ _ _ hr; cases hr
  | succ k ih =>
    intro k' st b last cur r hk hr
    obtain ⟨k'', rfl⟩ : ∃ k'', k' = k'' + 1 := ⟨k' - 1, by omega⟩
    unfold evalLoop at hr ⊢
    have hu : unchanged c = unchanged c' := by funext l e; simp [unchanged, hc.same]
    rw [← hu]
    split at hr
    · rename_i hh; rw [if_pos hh]; exact hr
    · rename_i hh
      rw [if_neg hh]
      split at hr
      · split at hr
        · exact hr
        · rw [← hc.skip]
          split at hr
          · rename_i h2; rw [if_pos h2]; exact hr
          · rename_i h2
            rw [if_neg h2]
            refine bind_le (fun _ hb => pass_le hc hn h hb) ?_ hr
            intro q b' hb
            unfold afterPass at hb ⊢
            split at hb
            · exact hb
            · exact ih _ _ _ _ _ _ (by omega) hb
      · exact h _ _ _ hr

/-- More fuel and more answers of the functions give more answers of the interpreter. -/
theorem eval_le (hc : CtxLe c c') : ∀ n n', n ≤ n' → EvSub (eval c n) (eval c' n') := by
  intro n
  induction n with
  | zero => intro _ _ st e r hr; cases hr
  | succ n ih =>
    intro n' hn st e r hr
    obtain ⟨n'', rfl⟩ : ∃ n'', n' = n'' + 1 := ⟨n' - 1, by omega⟩
    have h := ih n'' (by omega)
    unfold eval at hr ⊢
    cases e with
    | expr ps => exact evalLoop_le hc (by omega) h _ _ _ _ _ _ _ hn hr
    | cplx re im =>
      simp only [evalCplx] at hr ⊢
      exact bind_le (h _ _) (fun a b hb => bind_le (h _ _) (fun _ _ hb => hb) hb) hr
    | sym s =>
      simp only [evalSymbol] at hr ⊢
      split at hr
      · exact hr
      · unfold evalDef at hr ⊢
        split at hr
        · rename_i hh; rw [if_pos hh]; exact hr
        · rename_i hh
          rw [if_neg hh]
          exact bind_le (h _ _) (fun _ _ hb => hb) hr
    | _ => exact hr

/-- An interpreter that stops (without a result) when a function is called on an expression without `Q`, or a builtin function returns an
expression without `P`. -/
noncomputable def Ctx.guard (c : Ctx) (Q : String → Ex → Prop) (P : Ex → Prop) : Ctx :=
  open Classical in
  { c with
    fn := fun s n ev st ps =>
      if Q s (.expr ps) then (c.fn s n ev st ps).bind (fun r => if P r.2 then .ok r else .stuck) else .stuck
    find := fun ev st s e => if Q s e then c.find ev st s e else .stuck }

/-- If the functions use the evaluator only for its results, the guarded interpreter gives no other results. -/
theorem guard_le (hc : CtxLe c c) (Q : String → Ex → Prop) (P : Ex → Prop) : CtxLe (c.guard Q P) c where
  skip := rfl
  apply := rfl
  same := rfl
  sort := rfl
  fn := by
    intro s n n' ev ev' st ps r hn h hr
    simp only [Ctx.guard] at hr
    split at hr
    · obtain ⟨q, h1, h2⟩ := Res.bind_ok hr
      split at h2
      · cases h2
        exact hc.fn s n n' ev ev' st ps _ hn h h1
      · cases h2
    · cases hr
  find := by
    intro s ev ev' st e r h hr
    simp only [Ctx.guard] at hr
    split at hr
    · exact hc.find s ev ev' st e r h hr
    · cases hr

end Expreduce
