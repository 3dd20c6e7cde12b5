import Verif.Proofs.Algebra4
import Verif.Props.Meaning

/-! Checks for the conditions of C91, and the interpreter that stops when a check fails. -/

namespace Expreduce
open Ex

/-- The interpreter with checks that can be computed. -/
def Ctx.checked (c : Ctx) (Q : String → Ex → Bool) (P : Ex → Bool) : Ctx :=
  { c with
    fn := fun s n ev st ps => if Q s (.expr ps) then (c.fn s n ev st ps).bind (fun r => if P r.2 then .ok r else .stuck) else .stuck
    find := fun ev st s e => if Q s e then c.find ev st s e else .stuck }

theorem checked_le {c : Ctx} (hc : CtxLe c c) {Q : String → Ex → Bool} {P : Ex → Bool} {Q' : String → Ex → Prop} {P' : Ex → Prop}
    (hQ : ∀ s e, Q s e = true → Q' s e) (hP : ∀ e, P e = true → P' e) : CtxLe (c.checked Q P) (c.guard Q' P') where
  skip := rfl
  apply := rfl
  same := rfl
  sort := rfl
  fn := by
    intro s n n' ev ev' st ps r hn h hr
    simp only [Ctx.checked] at hr
    simp only [Ctx.guard]
    split at hr
    · rename_i hq
      obtain ⟨q, h1, h2⟩ := Res.bind_ok hr
      split at h2
      · rename_i hp
        cases h2
        rw [if_pos (hQ _ _ hq), hc.fn s n n' ev ev' st ps _ hn h h1]
        rw [Res.bind]
        exact if_pos (hP _ hp)
      · cases h2
    · cases hr
  find := by
    intro s ev ev' st e r h hr
    simp only [Ctx.checked] at hr
    simp only [Ctx.guard]
    split at hr
    · rename_i hq
      rw [if_pos (hQ _ _ hq)]
      exact hc.find s ev ev' st e r h hr
    · cases hr

theorem powerFn_mono {n n' : Nat} (hn : n ≤ n') {order : List (Nat × Int) → List (Nat × Int)} {args : List Ex} {r : Ex} (h : powerFn n order args = some r) :
    powerFn n' order args = some r := by
  unfold powerFn at h ⊢
  split at h
  · exact h
  · exact h
  · split at h
    · rename_i hd; simp only [hd, if_true]; exact powerIntRat_mono' hn h
    · rename_i hd; simp only [hd, if_false]; exact h
  · exact h

/-- The functions of the algebraic core do not depend on the evaluator. -/
theorem alg_le (A : AlgParams) : CtxLe (algCtx A) (algCtx A) where
  skip := rfl
  apply := rfl
  same := rfl
  sort := rfl
  fn := by
    intro s n n' ev ev' st ps r hn _ hr
    simp only [algCtx] at hr ⊢
    unfold algFn at hr ⊢
    split at hr
    · exact hr
    · split at hr
      · rename_i h; rw [if_pos h]; exact hr
      rename_i h1
      rw [if_neg h1]
      split at hr
      · rename_i h; rw [if_pos h]; exact hr
      rename_i h2
      rw [if_neg h2]
      split at hr
      · rename_i h; rw [if_pos h]; exact hr
      rename_i h3
      rw [if_neg h3]
      split at hr
      · rename_i h; rw [if_pos h]; exact hr
      rename_i h4
      rw [if_neg h4]
      split at hr
      · rename_i h
        rw [if_pos h]
        split at hr
        · cases hr
        · rename_i e he
          rw [powerFn_mono hn he]
          exact hr
      · rename_i h5; rw [if_neg h5]; exact hr
  find := fun _ _ _ _ _ _ _ hr => hr

/-- A check for `TermsDistinct`. -/
def termsB : Ex → Bool
  | .expr (.sym _ :: args) => args.all (fun a => args.all (fun b =>
      match splitTerm a, splitTerm b with
      | some (_, u), some (_, v) => hash u != hash v || decide (u = v)
      | _, _ => true))
  | _ => true

theorem termsB_sound {e : Ex} (h : termsB e = true) : TermsDistinct e := by
  intro s args he a ha b hb c d u v h1 h2 h3
  subst he
  simp only [termsB, List.all_eq_true] at h
  have := h a ha b hb
  rw [h1, h2] at this
  simpa [h3] using this

/-- A check for `PowerOk`. -/
def powerB : Ex → Bool
  | .expr [_, .int b, .rat m d] => decide (1 < d) && decide (Int.gcd m d = 1) && (decide (0 ≤ b) || decide (m = 1) || decide (m = -1))
  | _ => true

theorem powerB_sound {e : Ex} (h : powerB e = true) : PowerOk e := by
  unfold powerB at h
  unfold PowerOk
  split at h
  · simp only [Bool.and_eq_true, Bool.or_eq_true, decide_eq_true_eq] at h
    obtain ⟨⟨h1, h2⟩, h3⟩ := h
    exact ⟨⟨h1, h2⟩, by tauto⟩
  · rename_i hne
    split
    · rename_i b m d; exact absurd rfl (hne _ b m d)
    · trivial

/-- A check for `Clean`. -/
def cleanB (A : AlgParams) (D : Table) (heads : List String) (s : String) (e : Ex) : Bool :=
  (s == "System`Sequence" || (pieces e).all (fun a => !hasHead "System`Sequence" a)) &&
  (match D s with
    | none => true
    | some d => d.downvalues.all (fun dv => clashFreeAll (envOf { defs := D } A.truth) heads A.bound dv.lhs e)) &&
  (s != "System`Plus" || termsB e) && (s != "System`Power" || powerB e)

theorem cleanB_sound {A : AlgParams} {D : Table} {heads : List String} {s : String} {e : Ex} (h : cleanB A D heads s e = true) : Clean A D heads s e := by
  simp only [cleanB, Bool.and_eq_true] at h
  obtain ⟨⟨⟨h1, h2⟩, h3⟩, h4⟩ := h
  refine ⟨?_, ?_, ?_, ?_⟩
  · intro hs a ha
    simp only [Bool.or_eq_true, beq_iff_eq, hs, false_or, List.all_eq_true, Bool.not_eq_true'] at h1
    exact h1 a ha
  · intro d dv hd hdv
    rw [hd] at h2
    simp only [List.all_eq_true] at h2
    exact clashFreeAll_sound (h2 dv hdv)
  · intro hs
    simp only [hs, bne_self_eq_false, Bool.false_or] at h3
    exact termsB_sound h3
  · intro hs
    simp only [hs, bne_self_eq_false, Bool.false_or] at h4
    exact powerB_sound h4

/-- A check for `imagOk` at one piece. -/
def imagPiece : Ex → Bool
  | .cplx _ im => !isSameQ (evalReal im) (.int 0) || decide (evalReal im = .int 0)
  | _ => true

/-- A check for `ImagClean`. -/
def imagB (e : Ex) : Bool := (pieces e).all imagPiece

theorem imagB_sound {e : Ex} (h : imagB e = true) : ImagClean e := by
  intro re im hm
  unfold imagB at h
  rw [List.all_eq_true] at h
  have := h _ hm
  simp only [imagPiece, Bool.or_eq_true, Bool.not_eq_true', decide_eq_true_eq] at this
  intro hs
  rcases this with h | h
  · rw [hs] at h; cases h
  · exact h

theorem checked_guard (A : AlgParams) (D : Table) (heads : List String) {n : Nat} {st : EState} {e : Ex} {r}
    (h : eval ((algCtx A).checked (cleanB A D heads) imagB) n st e = .ok r) : eval ((algCtx A).guard (Clean A D heads) ImagClean) n st e = .ok r :=
  eval_le (checked_le (alg_le A) (fun _ _ => cleanB_sound) (fun _ => imagB_sound)) n n (Nat.le_refl n) st e r h

end Expreduce
