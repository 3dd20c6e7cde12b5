import Verif.Proofs.Trace

/-!
# A trace only grows
-/

namespace Expreduce
open Ex

/-- An entry of a trace: a step, or the list of the at least two entries of an argument. -/
inductive Entry : Ex → Prop where
  | step (e : Ex) : Entry (.expr [S "HoldForm", e])
  | part {l : List Ex} : 2 ≤ l.length → (∀ x ∈ l, Entry x) → Entry (.expr (S "List" :: l))

/-- Nothing was thrown, and the state is not frozen (in the code it never is). -/
def Calm (st : EState) : Prop := st.thrown = none ∧ st.frozen = false

/-- A program that throws nothing: if the calls it makes throw nothing. -/
inductive BProg.Calm {α : Type} : BProg α → Prop where
  | stuck : BProg.Calm (.done .stuck)
  | panic : BProg.Calm (.done .panic)
  | ok {st : EState} (v : α) : Expreduce.Calm st → BProg.Calm (.done (.ok (st, v)))
  | call {st : EState} (e : Ex) {k : EState → Ex → BProg α} : Expreduce.Calm st → (∀ st' v, Expreduce.Calm st' → BProg.Calm (k st' v)) → BProg.Calm (.call st e k)

/-- All programs of the interpreter are so, and `Trace` is not among them. -/
structure TCtx.Calm (c : TCtx) : Prop where
  fn : ∀ s n st ps, Expreduce.Calm st → (c.fn s n st ps).Calm
  find : ∀ st s e, Expreduce.Calm st → (c.find st s e).Calm
  trace : c.traceFn = false

/-- The trace after a run: what was there, and entries. -/
def Grows {α : Type} (l : List Ex) (x : Res (EState × Trace × α)) : Prop :=
  ∀ st tr v, x = .ok (st, tr, v) → Calm st ∧ ∃ l', tr = some (l ++ l') ∧ ∀ y ∈ l', Entry y

theorem Grows.ok {α : Type} {l : List Ex} {st : EState} (h : Calm st) (v : α) : Grows l (.ok (st, some l, v)) := by
  intro st' tr w e
  simp only [Res.ok.injEq, Prod.mk.injEq] at e
  obtain ⟨rfl, rfl, rfl⟩ := e
  exact ⟨h, [], by simp, by simp⟩

theorem Grows.add {α : Type} {l l' : List Ex} {st : EState} (h : Calm st) (hl : ∀ y ∈ l', Entry y) (v : α) : Grows l (.ok (st, some (l ++ l'), v)) := by
  intro st' tr w e
  simp only [Res.ok.injEq, Prod.mk.injEq] at e
  obtain ⟨rfl, rfl, rfl⟩ := e
  exact ⟨h, l', rfl, hl⟩

theorem Grows.stuck {α : Type} {l : List Ex} : Grows l (.stuck : Res (EState × Trace × α)) := by intro _ _ _ e; cases e
theorem Grows.panic {α : Type} {l : List Ex} : Grows l (.panic : Res (EState × Trace × α)) := by intro _ _ _ e; cases e

theorem Grows.bind {α β : Type} {l : List Ex} {x : Res (EState × Trace × α)} {f : EState × Trace × α → Res (EState × Trace × β)} (h : Grows l x)
    (hf : ∀ st l' v, Calm st → (∀ y ∈ l', Entry y) → Grows (l ++ l') (f (st, some (l ++ l'), v))) : Grows l (x.bind f) := by
  cases x with
  | stuck => exact Grows.stuck
  | panic => exact Grows.panic
  | ok q =>
    obtain ⟨st, tr, v⟩ := q
    obtain ⟨hc, l', rfl, hl⟩ := h st tr v rfl
    intro st' tr' w e
    obtain ⟨hc', l'', rfl, hl'⟩ := hf st l' v hc hl st' tr' w e
    refine ⟨hc', l' ++ l'', by simp, ?_⟩
    intro y hy
    rcases List.mem_append.1 hy with hy | hy
    · exact hl y hy
    · exact hl' y hy

/-- The end of a run with a fixed trace. -/
theorem Grows.ret {α β : Type} {l : List Ex} {x : Res (EState × Trace × α)} (h : Grows l x) (f : EState × α → β) :
    Grows l (x.bind (fun r => .ok (r.1, r.2.1, f (r.1, r.2.2)))) :=
  h.bind (fun _ _ _ hc _ => Grows.ok hc _)

/-- The evaluator behaves so. -/
def GrowEv (ev : TEvaluator) : Prop := ∀ st l e, Calm st → Grows l (ev st (some l) e)

section
variable {ev : TEvaluator}

theorem evalArgsT_grows (h : GrowEv ev) (held : Nat → Bool) : ∀ (ps : List Ex) (i : Nat) (st : EState) (l : List Ex), Calm st →
    Grows l (evalArgsT ev held i st (some l) ps)
  | [], i, st, l, hc => Grows.ok hc _
  | p :: ps, i, st, l, hc => by
    rw [evalArgsT]
    split
    · exact (evalArgsT_grows h held ps (i + 1) st l hc).ret (fun r => r.2.map (p :: ·) id)
    · have e1 : (if tracing st (some l) then (some [] : Trace) else some l) = some [] := by simp [tracing, hc.2]
      rw [e1]
      have h1 := h st [] p hc
      intro st' tr' w e
      cases hx : ev st (some []) p with
      | stuck => rw [hx] at e; cases e
      | panic => rw [hx] at e; cases e
      | ok q =>
        obtain ⟨st1, tr1, v⟩ := q
        obtain ⟨hc1, l', rfl, hl⟩ := h1 st1 tr1 v hx
        rw [hx] at e
        simp only [Res.bind, hc1.1, List.nil_append, closeArg, hc1.2, Bool.false_eq_true, if_false] at e
        split at e
        · cases e
        · rename_i tr2 h2
          have h3 : ∃ m, tr2 = some (l ++ m) ∧ ∀ y ∈ m, Entry y := by
            split at h2
            · rename_i h4
              simp only [Option.some.injEq] at h2
              refine ⟨_, h2.symm, ?_⟩
              intro y hy
              simp only [List.mem_singleton] at hy
              subst hy
              exact .part h4 hl
            · simp only [Option.some.injEq] at h2
              exact ⟨[], by simp [h2], by simp⟩
          obtain ⟨m, rfl, hm⟩ := h3
          have h5 := (evalArgsT_grows h held ps (i + 1) st1 (l ++ m) hc1).ret (fun r => r.2.map (v :: ·) id)
          obtain ⟨hc', l'', e2, hl''⟩ := h5 st' tr' w e
          refine ⟨hc', m ++ l'', by simp [e2], ?_⟩
          intro y hy
          rcases List.mem_append.1 hy with hy | hy
          · exact hm y hy
          · exact hl'' y hy

theorem evalAllT_grows (h : GrowEv ev) : ∀ (ps : List Ex) (st : EState) (l : List Ex), Calm st → Grows l (evalAllT ev st (some l) ps)
  | [], st, l, hc => Grows.ok hc _
  | p :: ps, st, l, hc => by
    rw [evalAllT]
    refine (h st l p hc).bind ?_
    intro st' l' v hc' _
    exact (evalAllT_grows h ps st' _ hc').ret (fun r => v :: r.2)

theorem mergeEvalLoopT_grows (h : GrowEv ev) (s : String) : ∀ (ps : List Ex) (st : EState) (l : List Ex), Calm st →
    Grows l (mergeEvalLoopT ev s st (some l) ps)
  | [], st, l, hc => Grows.ok hc _
  | p :: ps, st, l, hc => by
    rw [mergeEvalLoopT]
    split
    · refine (evalAllT_grows h _ st l hc).bind ?_
      intro st' l' v hc' _
      exact (mergeEvalLoopT_grows h s ps st' _ hc').ret (fun r => v ++ r.2)
    · exact (mergeEvalLoopT_grows h s ps st l hc).ret (fun r => p :: r.2)

theorem splicePartsT_grows (h : GrowEv ev) (isSym : Bool) (a : Attrs) (st : EState) (l : List Ex) (ps : List Ex) (hc : Calm st) :
    Grows l (splicePartsT ev isSym a st (some l) ps) := by
  unfold splicePartsT
  generalize (if isSym && (a.sequenceHold || a.holdAllComplete) then ps else mergeSeq "System`Sequence" ps) = qs
  refine Grows.ret ?_ (fun r => mergeSeq "System`Unevaluated" r.2)
  split
  · exact Grows.ok hc _
  · unfold mergeEvalT
    split
    · exact mergeEvalLoopT_grows h _ _ _ _ hc
    · exact Grows.ok hc _

theorem runT_grows {α : Type} (h : GrowEv ev) {p : BProg α} (hp : p.Calm) : ∀ l, Grows l (p.runT ev (some l)) := by
  induction hp with
  | stuck => intro l; exact Grows.stuck
  | panic => intro l; exact Grows.panic
  | ok v hc => intro l; exact Grows.ok hc _
  | call e hc hk ih =>
    intro l
    rw [BProg.runT]
    refine (h _ l e hc).bind ?_
    intro st' l' v hc' _
    exact ih st' v hc' _

theorem applyDefsT_grows {c : TCtx} (hc : c.Calm) (n : Nat) (h : GrowEv ev) (s : String) (st : EState) (l : List Ex) (cur : List Ex) (curEx : Ex)
    (hs : Calm st) : Grows l (applyDefsT c n ev s st (some l) cur curEx) := by
  unfold applyDefsT
  refine Grows.bind (l := l) ?_ ?_
  · split
    · unfold TCtx.fnT
      rw [hc.trace]
      simp only [Bool.false_and, Bool.false_eq_true, if_false]
      exact (runT_grows h (hc.fn s n st cur hs) l).ret (fun r => (r.2, isSameQ r.2 (.expr cur)))
    · exact Grows.ok hs _
  · intro st' l' v hs' _
    simp only
    split
    · refine (runT_grows h (hc.find st' s _ hs') _).bind ?_
      intro st'' l'' w hs'' _
      cases w with
      | some r => exact Grows.ok hs'' _
      | none => exact Grows.ok hs'' _
    · exact Grows.ok hs' _

theorem symbolCaseT_grows {c : TCtx} (hc : c.Calm) (n : Nat) (h : GrowEv ev) (s : String) (a : Attrs) (st : EState) (l : List Ex) (ps : List Ex)
    (hs : Calm st) : Grows l (symbolCaseT c n ev s a st (some l) ps) := by
  unfold symbolCaseT
  simp only
  generalize (if a.orderless then sortArgs c.plain (if a.flat then mergeSeq s ps else ps) else if a.flat then mergeSeq s ps else ps) = sorted
  split
  · split
    · exact Grows.ok hs _
    · exact applyDefsT_grows hc n h s st l _ _ hs
  · exact applyDefsT_grows hc n h s st l _ _ hs

theorem afterArgsT_grows {c : TCtx} (hc : c.Calm) (n : Nat) (h : GrowEv ev) (head : Option String) (a : Attrs) (st : EState) (l : List Ex)
    (ps : List Ex) (hs : Calm st) : Grows l (afterArgsT c n ev head a st (some l) ps) := by
  unfold afterArgsT
  refine (splicePartsT_grows h _ a st l ps hs).bind ?_
  intro st' l' v hs' _
  cases v with
  | nil => exact Grows.panic
  | cons v vs =>
    cases head with
    | some s => exact symbolCaseT_grows hc n h s a st' _ _ hs'
    | none =>
      simp only
      cases hf : functionCase c.plain st' (v :: vs) with
      | stuck => exact Grows.stuck
      | panic => exact Grows.panic
      | ok q =>
        have : q.1 = st' := by
          unfold functionCase at hf
          simp only at hf
          split at hf
          · cases ha : c.plain.apply st' _ vs with
            | stuck => rw [ha] at hf; cases hf
            | panic => rw [ha] at hf; cases hf
            | ok e => rw [ha] at hf; cases hf; rfl
          · cases hf; rfl
        simp only [Res.bind, this]
        exact Grows.ok hs' _

theorem noteCall_grows (st : EState) (l : List Ex) (e : Ex) : ∃ m, noteCall st (some l) e = some (l ++ m) ∧ ∀ y ∈ m, Entry y := by
  unfold noteCall
  split
  · exact ⟨[], by simp, by simp⟩
  · simp only [Option.map_some]
    split
    · exact ⟨[], by simp, by simp⟩
    · refine ⟨_, rfl, ?_⟩
      intro y hy
      simp only [List.mem_singleton] at hy
      subst hy
      exact .step e

theorem Grows.from {α : Type} {l m : List Ex} {x : Res (EState × Trace × α)} (h : Grows (l ++ m) x) (hm : ∀ y ∈ m, Entry y) : Grows l x := by
  intro st tr v e
  obtain ⟨hc, l', h1, h2⟩ := h st tr v e
  refine ⟨hc, m ++ l', by simp [h1], ?_⟩
  intro y hy
  rcases List.mem_append.1 hy with hy | hy
  · exact hm y hy
  · exact h2 y hy

theorem passT_grows {c : TCtx} (hc : c.Calm) (n : Nat) (h : GrowEv ev) (st : EState) (l : List Ex) (ps : List Ex) (hs : Calm st) :
    Grows l (passT c n ev st (some l) ps) := by
  unfold passT
  simp only
  split
  · exact (h st l _ hs).ret (fun r => Out.ret r.2)
  · refine (evalArgsT_grows h _ ps 0 st l hs).bind ?_
    intro st' l' v hs' _
    cases v with
    | inr t => exact Grows.ok hs' _
    | inl qs =>
      simp only
      obtain ⟨m, h1, h2⟩ := noteCall_grows st' (l ++ l') (.expr qs)
      rw [h1]
      exact (afterArgsT_grows hc n h _ _ st' _ qs hs').from h2

theorem noteValue_grows (st : EState) (l : List Ex) (e : Ex) : ∃ m, noteValue st (some l) e = some (l ++ m) ∧ ∀ y ∈ m, Entry y := by
  unfold noteValue
  split
  · exact ⟨[], by simp, by simp⟩
  · refine ⟨_, rfl, ?_⟩
    intro y hy
    simp only [List.mem_singleton] at hy
    subst hy
    exact .step e

theorem evalLoopT_grows {c : TCtx} (hc : c.Calm) (n : Nat) (h : GrowEv ev) : ∀ (k : Nat) (st : EState) (l : List Ex) (inside : Bool)
    (last : Option Ex) (cur : Ex), Calm st → Grows l (evalLoopT c n ev k st (some l) inside last cur)
  | 0, _, _, _, _, _, _ => Grows.stuck
  | k + 1, st, l, inside, last, cur, hs => by
    have hv : Grows l ((ev st (some l) cur).bind (fun r => .ok (r.1, noteValue r.1 r.2.1 r.2.2, r.2.2))) := by
      refine (h st l cur hs).bind ?_
      intro st' l' v hs' _
      simp only
      obtain ⟨m, h1, h2⟩ := noteValue_grows st' (l ++ l') v
      rw [h1]
      exact Grows.add hs' h2 _
    unfold evalLoopT
    by_cases hu : unchanged c.plain last cur = true
    · rw [if_pos hu]
      exact Grows.ok hs _
    · rw [if_neg hu]
      cases cur with
      | expr ps =>
        simp only
        split
        · exact Grows.ok hs _
        · split
          · exact Grows.ok hs _
          · refine (passT_grows hc n h st l _ hs).bind ?_
            intro st' l' v hs' _
            cases v with
            | ret e => exact Grows.ok hs' _
            | next e ins => exact evalLoopT_grows hc n h k st' _ _ _ e hs'
      | _ => exact hv

end

theorem evalT_grows {c : TCtx} (hc : c.Calm) : ∀ n : Nat, GrowEv (evalT c n)
  | 0, _, _, _, _ => Grows.stuck
  | n + 1, st, l, e, hs => by
    have h := evalT_grows hc n
    cases e with
    | expr ps => exact evalLoopT_grows hc n h _ st l _ _ _ hs
    | cplx re im =>
      simp only [evalT, evalCplxT]
      refine (h st l re hs).bind ?_
      intro st' l' v hs' _
      exact (h st' _ im hs').ret (fun r => if isSameQ r.2 (.int 0) then v else .cplx v r.2)
    | sym s =>
      simp only [evalT, evalSymbolT]
      split
      · exact Grows.ok hs _
      · unfold evalDefT
        split
        · exact Grows.ok hs _
        · exact (h st l _ hs).ret (fun r => (tryReturn r.1 r.2).getD r.2)
    | _ => exact Grows.ok hs _

end Expreduce
