import Verif.Spec.Eval

/-! Proofs about the evaluator: more fuel does not change results; one pass; splicing and threading. -/

namespace Expreduce
open Ex

namespace Res
theorem Le.refl {α : Type} (x : Res α) : x.Le x := Or.inr rfl
theorem Le.bind {α β : Type} {x y : Res α} {f g : α → Res β} (h : x.Le y) (hfg : ∀ a, (f a).Le (g a)) : (x.bind f).Le (y.bind g) := by
  rcases h with rfl | rfl
  · exact Or.inl rfl
  · cases x with
    | stuck => exact Or.inl rfl
    | panic => exact Or.inr rfl
    | ok a => exact hfg a
theorem Le.ok {α : Type} {x y : Res α} (h : x.Le y) {a : α} (hx : x = .ok a) : y = .ok a := by
  rcases h with rfl | rfl
  · cases hx
  · exact hx
theorem Le.panic {α : Type} {x y : Res α} (h : x.Le y) (hx : x = .panic) : y = .panic := by
  rcases h with rfl | rfl
  · cases hx
  · exact hx
end Res

theorem evalArgs_mono {ev ev' : Evaluator} (h : EvLe ev ev') (held : Nat → Bool) (ps : List Ex) :
    ∀ i st, (evalArgs ev held i st ps).Le (evalArgs ev' held i st ps) := by
  induction ps with
  | nil => intro i st; exact .refl _
  | cons p ps ih =>
    intro i st
    unfold evalArgs
    split
    · exact .bind (ih _ _) (fun _ => .refl _)
    · refine .bind (h _ _) (fun r => ?_)
      cases r.1.thrown with
      | some t => exact .refl _
      | none => exact .bind (ih _ _) (fun _ => .refl _)

theorem evalAll_mono {ev ev' : Evaluator} (h : EvLe ev ev') (ps : List Ex) : ∀ st, (evalAll ev st ps).Le (evalAll ev' st ps) := by
  induction ps with
  | nil => intro st; exact .refl _
  | cons p ps ih =>
    intro st
    unfold evalAll
    exact .bind (h _ _) (fun r => .bind (ih _) (fun _ => .refl _))

theorem mergeEvalLoop_mono {ev ev' : Evaluator} (h : EvLe ev ev') (hd : String) (ps : List Ex) :
    ∀ st, (mergeEvalLoop ev hd st ps).Le (mergeEvalLoop ev' hd st ps) := by
  induction ps with
  | nil => intro st; exact .refl _
  | cons p ps ih =>
    intro st
    unfold mergeEvalLoop
    split
    · exact .bind (evalAll_mono h _ _) (fun r => .bind (ih _) (fun _ => .refl _))
    · exact .bind (ih _) (fun _ => .refl _)

theorem mergeEval_mono {ev ev' : Evaluator} (h : EvLe ev ev') (hd : String) (st : EState) (ps : List Ex) :
    (mergeEval ev hd st ps).Le (mergeEval ev' hd st ps) := by
  unfold mergeEval
  split
  · exact mergeEvalLoop_mono h _ _ _
  · exact .refl _

theorem spliceParts_mono {ev ev' : Evaluator} (h : EvLe ev ev') (b : Bool) (a : Attrs) (st : EState) (ps : List Ex) :
    (spliceParts ev b a st ps).Le (spliceParts ev' b a st ps) := by
  unfold spliceParts
  refine .bind ?_ (fun _ => .refl _)
  split
  · exact .refl _
  · exact mergeEval_mono h _ _ _

theorem applyDefs_mono {c : Ctx} (hc : c.Mono) {n n' : Nat} (hn : n ≤ n') {ev ev' : Evaluator} (h : EvLe ev ev') (s : String) (st : EState)
    (cur : List Ex) (e : Ex) : (applyDefs c n ev s st cur e).Le (applyDefs c n' ev' s st cur e) := by
  unfold applyDefs
  refine .bind ?_ (fun r => ?_)
  · split
    · exact .bind (hc.fn _ _ _ _ _ _ _ hn h) (fun _ => .refl _)
    · exact .refl _
  · split
    · exact .bind (hc.find _ _ _ _ _ h) (fun _ => .refl _)
    · exact .refl _

theorem afterArgs_mono {c : Ctx} (hc : c.Mono) {n n' : Nat} (hn : n ≤ n') {ev ev' : Evaluator} (h : EvLe ev ev') (hd : Option String)
    (a : Attrs) (st : EState) (ps : List Ex) : (afterArgs c n ev hd a st ps).Le (afterArgs c n' ev' hd a st ps) := by
  unfold afterArgs
  refine .bind (spliceParts_mono h _ _ _ _) (fun r => ?_)
  cases r.2 with
  | nil => exact .refl _
  | cons p ps =>
    cases hd with
    | none => exact .refl _
    | some s =>
      simp only [symbolCase]
      split
      · split
        · exact .refl _
        · exact applyDefs_mono hc hn h _ _ _ _
      · exact applyDefs_mono hc hn h _ _ _ _

theorem pass_mono {c : Ctx} (hc : c.Mono) {n n' : Nat} (hn : n ≤ n') {ev ev' : Evaluator} (h : EvLe ev ev') (st : EState) (ps : List Ex) :
    (pass c n ev st ps).Le (pass c n' ev' st ps) := by
  simp only [pass]
  split
  · exact .bind (h _ _) (fun _ => .refl _)
  · refine .bind (evalArgs_mono h _ _ _ _) (fun r => ?_)
    cases r.2 with
    | inr t => exact .refl _
    | inl qs => exact afterArgs_mono hc hn h _ _ _ _

theorem evalLoop_mono {c : Ctx} (hc : c.Mono) {n n' : Nat} (hn : n ≤ n') {ev ev' : Evaluator} (h : EvLe ev ev') :
    ∀ k k', k ≤ k' → ∀ st b last cur, (evalLoop c n ev k st b last cur).Le (evalLoop c n' ev' k' st b last cur) := by
  intro k
  induction k with
  | zero => intro _ _ _ _ _ _; exact Or.inl rfl
  | succ k ih =>
    intro k' hk st b last cur
    obtain ⟨k', rfl⟩ : ∃ j, k' = j + 1 := ⟨k' - 1, by omega⟩
    unfold evalLoop
    split
    · exact .refl _
    · split
      · split
        · exact .refl _
        · split
          · exact .refl _
          · refine .bind (pass_mono hc hn h _ _) (fun r => ?_)
            unfold afterPass
            cases r.2 with
            | ret e => exact .refl _
            | next e ins => exact ih _ (by omega) _ _ _ _
      · exact h _ _

theorem eval_mono_succ {c : Ctx} (hc : c.Mono) : ∀ n, EvLe (eval c n) (eval c (n + 1)) := by
  intro n
  induction n with
  | zero => intro st e; exact Or.inl rfl
  | succ n ih =>
    intro st e
    unfold eval
    split
    · exact evalLoop_mono hc (by omega) ih _ _ (by omega) _ _ _ _
    · exact .bind (ih _ _) (fun _ => .bind (ih _ _) (fun _ => .refl _))
    · exact .refl _
    · unfold evalSymbol
      split
      · exact .refl _
      · unfold evalDef
        split
        · exact .refl _
        · exact .bind (ih _ _) (fun _ => .refl _)
    · exact .refl _

theorem EvLe.trans {a b d : Evaluator} (h : EvLe a b) (h' : EvLe b d) : EvLe a d := by
  intro st e
  rcases h st e with h1 | h1
  · exact Or.inl h1
  · rw [h1]; exact h' st e

theorem eval_mono {c : Ctx} (hc : c.Mono) {n m : Nat} (h : n ≤ m) : EvLe (eval c n) (eval c m) := by
  induction h with
  | refl => intro st e; exact .refl _
  | step _ ih => exact ih.trans (eval_mono_succ hc _)

/-- The outcome does not depend on the amount of fuel. -/
theorem Evals.unique {c : Ctx} (hc : c.Mono) {st e s1 v1 s2 v2} (h1 : Evals c st e s1 v1) (h2 : Evals c st e s2 v2) : s1 = s2 ∧ v1 = v2 := by
  obtain ⟨n, h1⟩ := h1
  obtain ⟨m, h2⟩ := h2
  have a := (eval_mono hc (Nat.le_max_left n m) st e).ok h1
  have b := (eval_mono hc (Nat.le_max_right n m) st e).ok h2
  rw [a] at b
  simpa using b

theorem Evals.not_panics {c : Ctx} (hc : c.Mono) {st e s1 v1} (h1 : Evals c st e s1 v1) : ¬ Panics c st e := by
  rintro ⟨m, h2⟩
  obtain ⟨n, h1⟩ := h1
  have a := (eval_mono hc (Nat.le_max_left n m) st e).ok h1
  have b := (eval_mono hc (Nat.le_max_right n m) st e).panic h2
  rw [a] at b
  cases b

theorem Evals.at {c : Ctx} (hc : c.Mono) {st e s1 v1} (h1 : Evals c st e s1 v1) : ∃ N, ∀ n, N ≤ n → eval c n st e = .ok (s1, v1) := by
  obtain ⟨n, h1⟩ := h1
  exact ⟨n, fun m hm => (eval_mono hc hm st e).ok h1⟩

/-! ### Splicing -/

theorem foldl_splice (h : String) (ps acc : List Ex) :
    ps.foldl (appendPart h) acc = acc ++ splice h ps := by
  induction ps generalizing acc with
  | nil => simp [splice]
  | cons p ps ih =>
    simp only [List.foldl_cons]
    rw [ih]
    cases hp : argsOf h p <;> simp [splice, appendPart, hp]

theorem hasHead_iff (h : String) (p : Ex) : hasHead h p = true ↔ ∃ args, argsOf h p = some args := by
  unfold hasHead argsOf
  split <;> simp

theorem argsOf_noneE (h : String) (p : Ex) : argsOf h p = none ↔ hasHead h p = false := by
  have := hasHead_iff h p
  cases hb : hasHead h p <;> cases ha : argsOf h p <;> simp_all

theorem splice_none (h : String) (ps : List Ex) (hn : ps.any (hasHead h) = false) : splice h ps = ps := by
  induction ps with
  | nil => rfl
  | cons p ps ih =>
    simp only [List.any_cons, Bool.or_eq_false_iff] at hn
    have := ih hn.2
    have hp := (argsOf_noneE h p).2 hn.1
    simp only [splice] at this
    simp [splice, hp, this]

theorem mergeSeq_eq (h : String) (ps : List Ex) : mergeSeq h ps = splice h ps := by
  unfold mergeSeq
  split
  · rw [foldl_splice]; rfl
  · rename_i hn
    exact (splice_none h ps (by simpa using hn)).symm

end Expreduce
