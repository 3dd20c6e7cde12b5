import Verif.Proofs.RuleArgs

/-! From the values of both sides to the soundness of a rule. -/

namespace Expreduce
open Ex Shipped

/-- A rule that the table may contain. -/
def SoundPair (V : Interp) (A : AlgParams) (D : Table) (r : Ex × Ex) : Prop :=
  EPat r.1 ∧ FPat (tabEnv A D) (· ∈ lhsHeads) r.1 ∧
    ∀ ρ res, (∀ t ∈ namedArgs r.1, Taken (tabEnv A D) (Frag Std) ρ t.1 t.2.1 t.2.2) → OnlyNames ρ r.1 →
      Yields (tabEnv A D) A.locals (subst ρ r.2) res → Frag Std res ∧ Related V.meaning Refines (fill ρ r.1) res

/-- Names that are no variables. -/
def constNames : List String := stdHeads ++ ["System`E", "System`Pi", "System`I", "System`Infinity", "System`ComplexInfinity", "System`Indeterminate",
  "System`Condition", "System`And", "System`Equal"]

/-- They are not bound. -/
def Unbound (ρ : String → Option Ex) : Prop :=
  (ρ "System`Plus" = none ∧ ρ "System`Times" = none ∧ ρ "System`Power" = none ∧ ρ "System`Rational" = none ∧ ρ "System`Complex" = none ∧
    ρ "System`Sequence" = none ∧ ρ "System`Log" = none ∧ ρ "System`Sqrt" = none ∧ ρ "System`Sin" = none ∧ ρ "System`Cos" = none ∧
    ρ "System`Tan" = none ∧ ρ "System`Cot" = none ∧ ρ "System`Sec" = none ∧ ρ "System`Csc" = none ∧ ρ "System`Sinh" = none ∧
    ρ "System`Cosh" = none ∧ ρ "System`Coth" = none ∧ ρ "System`Csch" = none ∧ ρ "System`ArcTan" = none) ∧
  ρ "System`E" = none ∧ ρ "System`Pi" = none ∧ ρ "System`I" = none ∧ ρ "System`Infinity" = none ∧ ρ "System`ComplexInfinity" = none ∧
    ρ "System`Indeterminate" = none ∧ ρ "System`Condition" = none ∧ ρ "System`And" = none ∧ ρ "System`Equal" = none

/-- A check of the left side. -/
def ruleB (lhs : Ex) : Bool := epatB 9 (held lhs) && fpatB bareEnv lhsHeads 9 (held lhs) && constNames.all (fun s => !(patNames (held lhs)).contains s)

theorem unbound_of {ρ : String → Option Ex} {lhs : Ex} (h : constNames.all (fun s => !(patNames lhs).contains s) = true) (ho : OnlyNames ρ lhs) : Unbound ρ := by
  have : ∀ s ∈ constNames, ρ s = none := by
    intro s hs
    rw [List.all_eq_true] at h
    have := h s hs
    exact ho.none (by simpa using this)
  refine ⟨⟨?_, ?_, ?_, ?_, ?_, ?_, ?_, ?_, ?_, ?_, ?_, ?_, ?_, ?_, ?_, ?_, ?_, ?_, ?_⟩, ?_, ?_, ?_, ?_, ?_, ?_, ?_, ?_, ?_⟩ <;>
    exact this _ (by decide)

section
variable {V : Interp} {A : AlgParams} {D : Table}

theorem yields_frag (hL : LocalsOk A.locals) {e res : Ex} (he : Frag Std e) (h : Yields (tabEnv A D) A.locals e res) : res = e :=
  h.self (frag_noHead (by decide) he) (hL e (frag_noHead (by decide) he) (frag_noHead (by decide) he))

/-- What is to be shown for a rule: with the variables replaced, both sides are in the fragment, and have the same value. -/
def SameValue (V : Interp) (e e' : Ex) : Prop :=
  Frag Std e' ∧ hasHead "System`Sequence" e' = false ∧ hasHead "System`Sequence" e = false ∧ ∀ v, V.meaning.val e = some v → V.meaning.val e' = some v

theorem sound_plain (hL : LocalsOk A.locals) {lhs rhs : Ex} (h1 : ruleB lhs = true)
    (h : ∀ ρ, (∀ t ∈ namedArgs (held lhs), Taken (tabEnv A D) (Frag Std) ρ t.1 t.2.1 t.2.2) → Unbound ρ →
      SameValue V (fill ρ (held lhs)) (subst ρ rhs)) : SoundPair V A D (def_ lhs rhs) := by
  simp only [ruleB, Bool.and_eq_true] at h1
  refine ⟨epatB_sound h1.1.1, fpat_of h1.1.2, fun ρ res ht ho hy => ?_⟩
  obtain ⟨h3, h4, h5, h6⟩ := h ρ ht (unbound_of h1.2 ho)
  obtain rfl := yields_frag hL h3 hy
  exact ⟨h3, related_of V h5 h4 h6⟩

theorem sound_cond (hL : LocalsOk A.locals) {lhs rhs c : Ex} (h1 : ruleB lhs = true)
    (h : ∀ ρ, (∀ t ∈ namedArgs (held lhs), Taken (tabEnv A D) (Frag Std) ρ t.1 t.2.1 t.2.2) → Unbound ρ →
      Frag Std (subst ρ rhs) ∧ (A.truth (subst ρ c) = true → SameValue V (fill ρ (held lhs)) (subst ρ rhs))) :
    SoundPair V A D (def_ lhs (Shipped.cond rhs c)) := by
  simp only [ruleB, Bool.and_eq_true] at h1
  refine ⟨epatB_sound h1.1.1, fpat_of h1.1.2, fun ρ res ht ho hy => ?_⟩
  have hu := unbound_of h1.2 ho
  obtain ⟨h3, h6⟩ := h ρ ht hu
  have hs : subst ρ (Shipped.cond rhs c) = .expr [.sym "System`Condition", subst ρ rhs, subst ρ c] := by
    simp [Shipped.cond, call, S, subst, substL, hu.2.2.2.2.2.2.2.1]
  simp only [def_] at hy
  rw [hs] at hy
  generalize hq : Ex.expr [.sym "System`Condition", subst ρ rhs, subst ρ c] = q at hy
  cases hy with
  | plain hc => subst hq; simp [hasHead] at hc
  | inner hc => subst hq; simp [hasHead] at hc
  | cond hc hy =>
    simp only [S, Ex.expr.injEq, List.cons.injEq] at hq
    obtain ⟨_, rfl, rfl, _⟩ := hq
    obtain rfl := yields_frag hL h3 hy
    obtain ⟨_, h4, h5, h6⟩ := h6 hc
    exact ⟨h3, related_of V h5 h4 h6⟩

theorem sound_always (hL : LocalsOk A.locals) {lhs rhs c : Ex} (h1 : ruleB lhs = true)
    (h : ∀ ρ, (∀ t ∈ namedArgs (held lhs), Taken (tabEnv A D) (Frag Std) ρ t.1 t.2.1 t.2.2) → Unbound ρ →
      SameValue V (fill ρ (held lhs)) (subst ρ rhs)) : SoundPair V A D (def_ lhs (Shipped.cond rhs c)) :=
  sound_cond hL h1 (fun ρ ht hu => ⟨(h ρ ht hu).1, fun _ => h ρ ht hu⟩)

theorem frag_call {s : String} {args : List Ex} : Frag Std (.expr (.sym s :: args)) ↔ s ∈ stdHeads ∧ ∀ a ∈ args, Frag Std a :=
  ⟨fun h => frag_args h, fun h => .app h.1 h.2⟩

theorem sameValue_call {s : String} {args : List Ex} {e : Ex} (hs : s ≠ "System`Sequence") (hf : Frag Std e) (hq : hasHead "System`Sequence" e = false)
    (h : ∀ v, V.meaning.op s (V.meaning.vals args) = some v → V.meaning.val e = some v) : SameValue V (.expr (.sym s :: args)) e := by
  refine ⟨hf, hq, by simp [hasHead, hs], fun v hv => h v ?_⟩
  rw [Meaning.val_app] at hv
  exact hv

end
end Expreduce
