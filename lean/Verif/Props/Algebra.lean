import Verif.Proofs.Checked

/-! Property C91: evaluation keeps the mathematical value. -/

namespace Expreduce
open Ex

/-- C91. Evaluation keeps the value: whatever complex numbers the symbols stand for, if the expression has a value, the result has the
same value. (Exact arithmetic, a table of sound rules, and every function called in the evaluation is called without an accident: that
is what the guard says. The interpreter without the guard gives the same result.) -/
theorem C91_eval_keeps_value_partial (V : Interp) (A : AlgParams) (D : Table) (H : String → Prop) (heads : List String) (hT : SoundTable V A D H heads)
    (ho : ∀ l, (A.order l).Perm l) (n : Nat) (st st' : EState) (e e' : Ex) (hst : Running D st) (he : Frag H e)
    (h : eval ((algCtx A).guard (Clean A D heads) ImagClean) n st e = .ok (st', e')) :
    eval (algCtx A) n st e = .ok (st', e') ∧ Running D st' ∧ Frag H e' ∧ ∀ v, V.Denotes e v → V.Denotes e' v := by
  refine ⟨eval_le (guard_le (alg_le A) _ _) n n (Nat.le_refl n) st e _ h, ?_⟩
  obtain ⟨h1, h2, h3, _⟩ := eval_meaning (table_respects hT ho) n st e st' e' hst he h
  refine ⟨h1, h2, fun v hv => ?_⟩
  unfold Related at h3
  unfold Interp.Denotes at hv ⊢
  rw [hv] at h3
  generalize V.meaning.argVals e' = l at h3 ⊢
  cases h3 with
  | cons h t =>
    cases t
    rw [h v rfl]

/-- Sums and products, without rules. -/
def sumsTable : Table := fun s =>
  if s = "System`Plus" ∨ s = "System`Times" then some { attrs := { flat := true, orderless := true }, builtin := true }
  else if s = "System`Power" then some { builtin := true } else none

theorem sumsTable_some {s : String} {d : DefM} (h : sumsTable s = some d) : d.downvalues = [] := by
  simp only [sumsTable] at h
  split at h
  · cases h; rfl
  · split at h <;> cases h
    rfl

theorem sumsTable_sound (V : Interp) (H : String → Prop) (h1 : ∀ s ∈ ["System`Return", "System`Evaluate", "System`Unevaluated", "System`ConditionalExpression", "System`List"], ¬ H s)
    (h2 : ∀ s ∈ ["System`Plus", "System`Times", "System`Power", "System`Rational", "System`Complex"], H s) : SoundTable V {} sumsTable H [] where
  plain := h1
  arith := h2
  lawful := by intro s hs; cases hs
  flat := by
    intro s d _ hd ha
    simp only [sumsTable] at hd
    split at hd
    · simpa using ‹_›
    · split at hd <;> cases hd
      cases ha
  orderless := by
    intro s d _ hd ha
    simp only [sumsTable] at hd
    split at hd
    · simpa using ‹_›
    · split at hd <;> cases hd
      cases ha
  sequence := fun d hd => sumsTable_some hd
  dflt := ⟨by
    intro s d hd
    simp only [envOf, sumsTable] at hd
    split at hd
    · cases hd
    · split at hd <;> cases hd⟩
  noValue := by
    intro s _
    simp only [getSymDef]
    split
    · rfl
    · rename_i d hd; rw [sumsTable_some hd]; rfl
  values := by
    intro s v hv
    simp only [getSymDef] at hv
    split at hv
    · cases hv
    · rename_i d hd; rw [sumsTable_some hd] at hv; cases hv
  rules := by
    intro s d dv hd hdv
    rw [sumsTable_some hd] at hdv
    cases hdv

/-- `x + 2x + (1/3 + 2^(1/2) 3^2)` evaluates without an accident to `1/3 + 9 2^(1/2) + 3x` in this order of arguments. -/
example : let e : Ex := .expr [S "Plus", .sym "x", .expr [S "Times", .int 2, .sym "x"], .expr [S "Plus", .rat 1 3, .expr [S "Times", .expr [S "Power", .int 2, .rat 1 2],
      .expr [S "Power", .int 3, .int 2]]]]
    (match eval ((algCtx {}).checked (cleanB {} sumsTable []) imagB) 30 { defs := sumsTable } e with
      | .ok r => decide (r.2 = .expr [S "Plus", .rat 1 3, .expr [S "Times", .int 9, .expr [S "Power", .int 2, .rat 1 2]], .expr [S "Times", .int 3, .sym "x"]])
      | _ => false) = true := by
  decide +kernel

end Expreduce
