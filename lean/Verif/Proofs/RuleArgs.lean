import Verif.Proofs.RuleAlg

/-! What the variables of the shipped rules are bound to. -/

namespace Expreduce
open Ex Shipped

theorem FPat.mono {env env' : MEnv} {L : String → Prop} (h : ∀ s, env.orderless s = true → env'.orderless s = true) {p : Ex} (hp : FPat env L p) : FPat env' L p := by
  induction hp with
  | atom h => exact .atom h
  | named x h => exact .named x h
  | test t _ ih => exact .test t ih
  | hold _ ih => exact .hold ih
  | app h1 h2 h3 h4 _ h6 ih => exact .app h1 h2 h3 h4 ih (h6.imp (h _) id)
  | verb h1 h2 h3 h4 _ h6 ih => exact .verb h1 h2 h3 h4 ih h6

/-- No attributes. -/
def bareEnv : MEnv := { flat := fun _ => false, orderless := fun _ => false, oneIdentity := fun _ => false, dflt := fun _ => none, isTrue := fun _ => false }

theorem fpat_of {env : MEnv} {heads : List String} {n : Nat} {p : Ex} (h : fpatB bareEnv heads n p = true) : FPat env (· ∈ heads) p :=
  (fpatB_sound h).mono (fun _ h => by cases h)

/-- The attributes and default values of the table. -/
abbrev tabEnv (A : AlgParams) (D : Table) : MEnv := envOf { defs := D } A.truth

/-- The functions considered. -/
abbrev Std (s : String) : Prop := s ∈ stdHeads

section
variable {V : Interp} {A : AlgParams} {D : Table} (hD : StdTable V D)
include hD

theorem env_plus : (tabEnv A D).flat "System`Plus" = true ∧ (tabEnv A D).orderless "System`Plus" = true ∧ (tabEnv A D).oneIdentity "System`Plus" = true ∧
    (tabEnv A D).dflt "System`Plus" = some (.int 0) := by
  obtain ⟨d, h, h1, h2, h3, h4⟩ := hD.plus
  simp only [tabEnv, envOf, attrsOf, h, Option.map_some, Option.getD_some, Option.bind_some]
  exact ⟨h1, h2, h3, h4⟩

theorem env_times : (tabEnv A D).flat "System`Times" = true ∧ (tabEnv A D).orderless "System`Times" = true ∧ (tabEnv A D).oneIdentity "System`Times" = true ∧
    (tabEnv A D).dflt "System`Times" = some (.int 1) := by
  obtain ⟨d, h, h1, h2, h3, h4⟩ := hD.times
  simp only [tabEnv, envOf, attrsOf, h, Option.map_some, Option.getD_some, Option.bind_some]
  exact ⟨h1, h2, h3, h4⟩

theorem env_power : (tabEnv A D).flat "System`Power" = false ∧ (tabEnv A D).orderless "System`Power" = false ∧ (tabEnv A D).oneIdentity "System`Power" = true ∧
    (tabEnv A D).dflt "System`Power" = some (.int 1) := by
  obtain ⟨d, h, h1, h2, h3, h4⟩ := hD.power
  simp only [tabEnv, envOf, attrsOf, h, Option.map_some, Option.getD_some, Option.bind_some]
  exact ⟨h1, h2, h3, h4⟩

theorem env_other {s : String} (hs : s ∈ stdHeads) (h3 : s ∉ ["System`Plus", "System`Times", "System`Power"]) :
    (tabEnv A D).flat s = false ∧ (tabEnv A D).orderless s = false ∧ (tabEnv A D).oneIdentity s = false ∧ (tabEnv A D).dflt s = none := by
  simp only [tabEnv, envOf, attrsOf]
  cases hd : D s with
  | none => exact ⟨rfl, rfl, rfl, rfl⟩
  | some d => exact hD.others s hs h3 d hd

/-- A `Flat` function of those considered is `OneIdentity`. -/
theorem flat_one {s : String} (hs : s ∈ stdHeads) (hf : (tabEnv A D).flat s = true) : (tabEnv A D).oneIdentity s = true := by
  by_cases h1 : s = "System`Plus"
  · subst h1; exact (env_plus hD).2.2.1
  by_cases h2 : s = "System`Times"
  · subst h2; exact (env_times hD).2.2.1
  by_cases h3 : s = "System`Power"
  · subst h3; exact (env_power hD).2.2.1
  · have := (env_other (A := A) hD hs (by simp [h1, h2, h3])).1
    rw [hf] at this; cases this

variable {ρ : String → Option Ex} {v : Bool} {s x : String}

/-- `x_` -/
theorem taken_any (hs : s ∈ stdHeads) (hq : s ≠ "System`Sequence") (h : Taken (tabEnv A D) (Frag Std) ρ v s (any x)) :
    ∃ w, ρ ("Private`" ++ x) = some w ∧ Frag Std w ∧ hasHead "System`Sequence" w = false := by
  have hshape : callShape (tabEnv A D) v s (any x) = { bodyShape ((tabEnv A D).flat s && !v) s (.expr [S "Blank"]) with name := some ("Private`" ++ x) } := by
    simp [callShape, shape, any, var, S, testShape, namedShape]
  by_cases hf : ((tabEnv A D).flat s && !v) = true
  · rw [hf] at hshape
    obtain ⟨w, h1, h2, h3⟩ := h.flatArg (x := "Private`" ++ x) (by simp [any, var, S, argName, testName, coreName]) (by rw [hshape]; simp [bodyShape, S]) hq
      (by rw [hshape]; simp [bodyShape, S])
    refine ⟨w, h1, ?_, h2⟩
    rcases h3 with h3 | ⟨cs, rfl, _, h4⟩
    · exact h3.prop
    · exact .app hs (fun a ha => (h4 a ha).prop)
  · rw [Bool.not_eq_true] at hf
    rw [hf] at hshape
    obtain ⟨w, h1, h2⟩ := h.one (x := "Private`" ++ x) (by simp [any, var, S, argName, testName, coreName]) (by rw [hshape]; simp [bodyShape, S])
      (by rw [hshape]; simp [bodyShape, S]) (by rw [hshape]; simp [bodyShape, S])
    exact ⟨w, h1, h2.prop, h2.noSeq⟩

/-- `x_h` -/
theorem taken_anyOf {h : String} (hs : s ∈ stdHeads) (hne : "System`" ++ h ≠ s) (ht : Taken (tabEnv A D) (Frag Std) ρ v s (anyOf x h)) :
    ∃ w, ρ ("Private`" ++ x) = some w ∧ Frag Std w ∧ hasHead "System`Sequence" w = false ∧ headOf w = S h := by
  have hshape : callShape (tabEnv A D) v s (anyOf x h) = { bodyShape ((tabEnv A D).flat s && !v) s (.expr [S "Blank", S h]) with name := some ("Private`" ++ x) } := by
    simp [callShape, shape, anyOf, var, S, testShape, namedShape]
  have hb : bodyShape ((tabEnv A D).flat s && !v) s (.expr [S "Blank", S h]) =
      ⟨1, 1, .expr [S "Blank", S h], none, !((tabEnv A D).flat s && !v), if ((tabEnv A D).flat s && !v) then .sym s else S "Sequence", none⟩ := by
    cases ((tabEnv A D).flat s && !v) <;> simp [bodyShape, S, hne]
  rw [hb] at hshape
  obtain ⟨w, h1, h2⟩ := ht.one (x := "Private`" ++ x) (by simp [anyOf, var, S, argName, testName, coreName]) (by rw [hshape])
    (by rw [hshape]) (by
      rw [hshape]
      cases hf : (tabEnv A D).flat s
      · simp
      · simp [flat_one hD hs hf])
  refine ⟨w, h1, h2.prop, h2.noSeq, h2.head _ ?_⟩
  rw [hshape]
  simp [blankHead, S]

/-- `x_h ? t` -/
theorem taken_tested {h t : String} (hs : s ∈ stdHeads) (hne : "System`" ++ h ≠ s) (htn : "System`" ++ t ≠ "System`NumberQ")
    (ht : Taken (tabEnv A D) (Frag Std) ρ v s (tested (anyOf x h) t)) :
    ∃ w, ρ ("Private`" ++ x) = some w ∧ Frag Std w ∧ hasHead "System`Sequence" w = false ∧ headOf w = S h ∧ A.truth (.expr [S t, w]) = true := by
  have hshape : callShape (tabEnv A D) v s (tested (anyOf x h) t) = { bodyShape ((tabEnv A D).flat s && !v) s (.expr [S "Blank", S h]) with
      name := some ("Private`" ++ x), elem := .expr [S "PatternTest", (bodyShape ((tabEnv A D).flat s && !v) s (.expr [S "Blank", S h])).elem, S t] } := by
    simp [callShape, shape, tested, anyOf, var, S, testShape, namedShape]
  have hb : bodyShape ((tabEnv A D).flat s && !v) s (.expr [S "Blank", S h]) =
      ⟨1, 1, .expr [S "Blank", S h], none, !((tabEnv A D).flat s && !v), if ((tabEnv A D).flat s && !v) then .sym s else S "Sequence", none⟩ := by
    cases ((tabEnv A D).flat s && !v) <;> simp [bodyShape, S, hne]
  rw [hb] at hshape
  obtain ⟨w, h1, h2⟩ := ht.one (x := "Private`" ++ x) (by simp [tested, anyOf, var, S, argName, testName, coreName]) (by rw [hshape])
    (by rw [hshape]) (by
      rw [hshape]
      cases hf : (tabEnv A D).flat s
      · simp
      · simp [flat_one hD hs hf])
  refine ⟨w, h1, h2.prop, h2.noSeq, h2.head _ ?_, ?_⟩
  · rw [hshape]
    simp [blankHead, S]
  · have hm := h2.matched
    rw [hshape] at hm
    simp only at hm
    generalize hp : Ex.expr [S "PatternTest", Ex.expr [S "Blank", S h], S t] = p at hm
    cases hm with
    | test _ hT =>
      simp only [Ex.expr.injEq, List.cons.injEq, and_true, true_and] at hp
      obtain ⟨_, rfl⟩ := hp
      unfold TestHolds at hT
      rw [if_neg (by simpa [S] using htn)] at hT
      exact hT
    | lit h => subst hp; cases h
    | blank h => simp [S] at hp; obtain ⟨rfl, _⟩ := hp; simp [blankHeads] at h
    | named h => simp [S] at hp
    | same A h => simp [S] at hp; obtain ⟨rfl, _⟩ := hp; simp [specialHeads] at h
    | diff A h => simp at hp; subst hp; exact absurd (h "System`PatternTest" rfl) (by simp [specialHeads])
    | clash _ _ h => simp at hp; subst hp; exact absurd (h "System`PatternTest" rfl) (by simp [specialHeads])
    | assumed h => simp [S] at hp; obtain ⟨rfl, _⟩ := hp; simp [specialHeads] at h
    | verb => simp [S] at hp
    | verbClash => simp [S] at hp
    | alt => simp [S] at hp
    | hold => simp [S] at hp

/-- `x_ ? t`, not under a `Flat` function -/
theorem taken_testedAny {t : Ex} (hnf : (tabEnv A D).flat s = false) (htn : t ≠ S "NumberQ")
    (ht : Taken (tabEnv A D) (Frag Std) ρ v s (.expr [S "PatternTest", any x, t])) :
    ∃ w, ρ ("Private`" ++ x) = some w ∧ Frag Std w ∧ hasHead "System`Sequence" w = false ∧ A.truth (.expr [t, w]) = true := by
  have hshape : callShape (tabEnv A D) v s (.expr [S "PatternTest", any x, t]) =
      ⟨1, 1, .expr [S "PatternTest", .expr [S "Blank"], t], some ("Private`" ++ x), true, S "Sequence", none⟩ := by
    simp [callShape, shape, tested, any, var, S, testShape, namedShape, bodyShape, hnf]
  obtain ⟨w, h1, h2⟩ := ht.one (x := "Private`" ++ x) (by simp [tested, any, var, S, argName, testName, coreName]) (by rw [hshape])
    (by rw [hshape]) (by rw [hshape]; rfl)
  refine ⟨w, h1, h2.prop, h2.noSeq, ?_⟩
  have hm := h2.matched
  rw [hshape] at hm
  simp only at hm
  generalize hp : Ex.expr [S "PatternTest", Ex.expr [S "Blank"], t] = p at hm
  cases hm with
  | test _ hT =>
    simp only [Ex.expr.injEq, List.cons.injEq, and_true, true_and] at hp
    obtain ⟨_, rfl⟩ := hp
    unfold TestHolds at hT
    rw [if_neg htn] at hT
    exact hT
  | lit h => subst hp; cases h
  | blank h => simp [S] at hp; obtain ⟨rfl, _⟩ := hp; simp [blankHeads] at h
  | named h => simp [S] at hp
  | same A h => simp [S] at hp; obtain ⟨rfl, _⟩ := hp; simp [specialHeads] at h
  | diff A h => simp at hp; subst hp; exact absurd (h "System`PatternTest" rfl) (by simp [specialHeads])
  | clash _ _ h => simp at hp; subst hp; exact absurd (h "System`PatternTest" rfl) (by simp [specialHeads])
  | assumed h => simp [S] at hp; obtain ⟨rfl, _⟩ := hp; simp [specialHeads] at h
  | verb => simp [S] at hp
  | verbClash => simp [S] at hp
  | alt => simp [S] at hp
  | hold => simp [S] at hp

/-- `x___` -/
theorem taken_many (ht : Taken (tabEnv A D) (Frag Std) ρ v s (many x)) : ∃ w, ρ ("Private`" ++ x) = some w ∧ Frag Std w := by
  obtain ⟨y, cs, h1, h2, h3, h4, h5⟩ := ht
  have hx : argName (many x) = some ("Private`" ++ x) := by simp [many, var, S, argName, testName, coreName]
  rw [hx] at h1
  cases h1
  refine ⟨_, h2, ?_⟩
  have hw : (callShape (tabEnv A D) v s (many x)).wrap = .sym "System`Sequence" ∧ (callShape (tabEnv A D) v s (many x)).absent = none := by
    simp [callShape, shape, many, var, S, testShape, namedShape, bodyShape]
  have hseq : Std "System`Sequence" := by decide
  rw [Shape.value.eq_def]
  split
  · rw [hw.2, hw.1]; exact .app hseq (by simp)
  · rename_i c
    split
    · exact (h5 c (by simp)).1
    · rw [hw.1]; exact .app hseq (by simpa using (h5 c (by simp)).1)
  · rw [hw.1]; exact .app hseq (fun a ha => (h5 a ha).1)

/-- `x_.` as an exponent -/
theorem taken_opt (ht : Taken (tabEnv A D) (Frag Std) ρ v "System`Power" (opt (any x))) :
    ∃ w, ρ ("Private`" ++ x) = some w ∧ Frag Std w ∧ hasHead "System`Sequence" w = false := by
  have hshape : callShape (tabEnv A D) v "System`Power" (opt (any x)) =
      ⟨0, 1, .expr [S "Blank"], some ("Private`" ++ x), true, S "Sequence", some (.int 1)⟩ := by
    have h := env_power (A := A) hD
    simp [callShape, shape, opt, any, var, S, optShape, optNamed, optBody, h]
  obtain ⟨w, h1, h2, h3⟩ := ht.optArg (x := "Private`" ++ x) (d := .int 1) (by simp [opt, any, var, S, argName, testName, coreName]) (by rw [hshape])
    rfl (by rw [hshape]) (.inr (by rw [hshape]))
  refine ⟨w, h1, ?_, h2⟩
  rcases h3 with rfl | h3 | ⟨h4, _⟩
  · exact .int 1
  · exact h3.prop
  · rw [hshape] at h4; simp [S] at h4

end

theorem frag_integer {w : Ex} (h : Frag Std w) (hh : headOf w = S "Integer") : ∃ k, w = .int k := by
  cases h <;> simp [headOf, S] at hh
  · exact ⟨_, rfl⟩
  · subst hh; exact absurd ‹Std _› (by decide)

theorem frag_symbol {w : Ex} (h : Frag Std w) (hh : headOf w = S "Symbol") : ∃ k, w = .sym k := by
  cases h <;> simp [headOf, S] at hh
  · exact ⟨_, rfl⟩
  · subst hh; exact absurd ‹Std _› (by decide)

end Expreduce
