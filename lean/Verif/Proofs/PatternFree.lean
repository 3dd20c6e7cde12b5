import Verif.Props.Replace
import Verif.Proofs.InverseRules

/-! Expressions without patterns, used as patterns: they match themselves only. -/

namespace Expreduce
open Ex

/-- An expression in which nothing is special for the matcher: no reals, no pattern heads, no heads that are `Flat` or `Orderless`, no empty calls, and no
heads that may stand for something left out. -/
inductive PatternFree (env : MEnv) : Ex → Prop
  | atom {p} : isAtom p = true → noReal p = true → wellFormed p = true → PatternFree env p
  | app {s ps} : s ∉ specialHeads → env.flat s = false → env.orderless s = false → ps ≠ [] → plainHead (.sym s :: ps) = true →
      (∀ p ∈ ps, PatternFree env p) → PatternFree env (.expr (.sym s :: ps))

section
variable {env : MEnv}

theorem PatternFree.plain {p : Ex} (h : PatternFree env p) : Plain env p := by
  induction h with
  | atom h _ _ => exact .atom h
  | app h1 h2 h3 h4 _ _ ih => exact .app h1 h2 h3 h4 ih

theorem noRealL_of {ps : List Ex} (h : ∀ p ∈ ps, noReal p = true) : noRealL ps = true := by
  induction ps with
  | nil => rfl
  | cons a l ih => simp only [noRealL, Bool.and_eq_true]; exact ⟨h a (by simp), ih (fun p hp => h p (by simp [hp]))⟩

theorem wellFormedL_of {ps : List Ex} (h : ∀ p ∈ ps, wellFormed p = true) : wellFormedL ps = true := by
  induction ps with
  | nil => rfl
  | cons a l ih => simp only [wellFormedL, Bool.and_eq_true]; exact ⟨h a (by simp), ih (fun p hp => h p (by simp [hp]))⟩

theorem plainHeadsL_of {ps : List Ex} (h : ∀ p ∈ ps, plainHeads p = true) : plainHeadsL ps = true := by
  induction ps with
  | nil => rfl
  | cons a l ih => simp only [plainHeadsL, Bool.and_eq_true]; exact ⟨h a (by simp), ih (fun p hp => h p (by simp [hp]))⟩

theorem committedL_of {ps : List Ex} (h : ∀ p ∈ ps, committed p = true) : committedL ps = true := by
  induction ps with
  | nil => rfl
  | cons a l ih => simp only [committedL, Bool.and_eq_true]; exact ⟨h a (by simp), ih (fun p hp => h p (by simp [hp]))⟩

theorem patNamesL_of {ps : List Ex} (h : ∀ p ∈ ps, patNames p = []) : patNamesL ps = [] := by
  induction ps with
  | nil => rfl
  | cons a l ih => simp only [patNamesL, h a (by simp), ih (fun p hp => h p (by simp [hp])), List.append_nil]

theorem instL_of {ρ : String → Option Ex} {ps : List Ex} (h : ∀ p ∈ ps, inst ρ p = p) : instL ρ ps = ps := by
  induction ps with
  | nil => rfl
  | cons a l ih => simp only [instL, h a (by simp), ih (fun p hp => h p (by simp [hp]))]

theorem PatternFree.noReal {p : Ex} (h : PatternFree env p) : noReal p = true := by
  induction h with
  | atom _ h _ => exact h
  | app _ _ _ _ _ _ ih =>
    simp only [Expreduce.noReal, noRealL, Bool.true_and]
    exact noRealL_of ih

theorem PatternFree.wellFormed {p : Ex} (h : PatternFree env p) : wellFormed p = true := by
  induction h with
  | atom _ _ h => exact h
  | app _ _ _ _ _ _ ih =>
    simp only [Expreduce.wellFormed, wellFormedL, Bool.true_and]
    simpa using wellFormedL_of ih

theorem PatternFree.plainHeads {p : Ex} (h : PatternFree env p) : plainHeads p = true := by
  induction h with
  | @atom p h _ _ => cases p <;> simp_all [isAtom, Expreduce.plainHeads]
  | app _ _ _ _ hp _ ih =>
    simp only [Expreduce.plainHeads, plainHeadsL, Bool.true_and, hp]
    exact plainHeadsL_of ih

theorem PatternFree.committed {p : Ex} (h : PatternFree env p) : committed p = true := by
  induction h with
  | @atom p h _ _ => cases p <;> simp_all [isAtom, Expreduce.committed]
  | @app s ps hs _ _ _ _ _ ih =>
    simp only [Expreduce.committed, committedL, Bool.true_and, Bool.and_eq_true]
    refine ⟨?_, committedL_of ih⟩
    simp only [committedHere]
    rw [if_neg (special_ne hs (by decide)), if_neg (special_ne hs (by decide))]

theorem patName_free {s : String} (hs : s ∉ specialHeads) (ps : List Ex) : patName (.sym s :: ps) = none := by
  unfold patName
  split
  · rename_i h
    simp only [List.cons.injEq, Ex.sym.injEq] at h
    rw [if_neg]
    rw [← h.1]; exact special_ne hs (by decide)
  · rfl

theorem PatternFree.names {p : Ex} (h : PatternFree env p) : patNames p = [] := by
  induction h with
  | @atom p h _ _ => cases p <;> simp_all [isAtom, patNames]
  | @app s ps hs _ _ _ _ _ ih =>
    simp only [patNames, patName_free hs, patNamesL, patNamesL_of ih]
    rfl

theorem PatternFree.inst {p : Ex} (ρ : String → Option Ex) (h : PatternFree env p) : inst ρ p = p := by
  induction h with
  | @atom p h _ _ => cases p <;> simp_all [isAtom, Expreduce.inst]
  | @app s ps hs _ _ _ _ _ ih =>
    rw [Expreduce.inst, patName_free hs]
    simp only [instL, instL_of ih, Expreduce.inst]

theorem shape_atom {p : Ex} (h : isAtom p = true) (d : Option Ex) (flat : Bool) (s : String) : shape d flat s p = ⟨1, 1, p, none, false, S "Sequence", none⟩ := by
  cases p <;> simp_all [isAtom, shape, testShape, namedShape, bodyShape]

theorem PatternFree.shape {p : Ex} (h : PatternFree env p) (d : Option Ex) (flat : Bool) (s : String) :
    shape d flat s p = ⟨1, 1, p, none, false, S "Sequence", none⟩ := by
  cases h with
  | atom h _ _ => exact shape_atom h d flat s
  | app hs => exact shape_plain hs _ d flat s

/-- It matches itself. -/
theorem PatternFree.self {p : Ex} (ρ : String → Option Ex) (h : PatternFree env p) : Matches env ρ p p := by
  induction h with
  | @atom p h hn _ =>
    refine .lit h ?_ ?_
    · cases p <;> simp_all [isAtom, partsOf]
    · rw [isSameQ_lit]
      · simp
      · exact noReal_notFlt hn
  | @app s ps hs hf ho hne hp hps ih =>
    refine .same ((List.range ps.length).map (fun k => [k])) hs rfl (by simp) ?_ ?_ ?_ ?_
    · rw [ho]
      simp only [Layout, Bool.false_eq_true, if_false]
      generalize List.range ps.length = l
      induction l with
      | nil => rfl
      | cons a l ih => simp [ih]
    · intro j p js hp hj
      rw [List.getElem?_map, Option.map_eq_some_iff] at hj
      obtain ⟨t, ht, rfl⟩ := hj
      rw [(hps p (List.mem_of_getElem? hp)).shape]
      simp
    · intro j p js i c hp hj hi hc
      rw [List.getElem?_map, Option.map_eq_some_iff] at hj
      obtain ⟨t, ht, rfl⟩ := hj
      rw [(hps p (List.mem_of_getElem? hp)).shape]
      simp only [List.mem_singleton] at hi
      subst hi
      have hji : i = j := by
        rw [List.getElem?_eq_some_iff] at ht
        obtain ⟨_, ht⟩ := ht
        simpa using ht.symm
      subst hji
      rw [hc] at hp
      cases hp
      exact ih _ (List.mem_of_getElem? hc)
    · intro j p js x hp hj hx
      rw [(hps p (List.mem_of_getElem? hp)).shape] at hx
      simp at hx

/-- **It matches itself only** (up to collisions of fingerprints). -/
theorem PatternFree.isMatchQ [env.Exact] {m : Nat} {p a : Ex} (h : PatternFree env p) (ha : Expreduce.noReal a = true) (hw : Expreduce.wellFormed a = true)
    (hm : 2 * size p + 1 ≤ m) (hcl : ∀ q ∈ subexprs p, ∀ c ∈ subexprs a, hash c = hash q → c = q) :
    ∃ r, isMatchQ env m a p [] = some (decide (a = p), r) := by
  have hfuel : matchFuel a p ≤ m := le_trans (matchFuel_le _ _) hm
  obtain ⟨v, r, hr⟩ := C20_returns env m a p [] h.plain.epat hw hfuel
  refine ⟨r, ?_⟩
  rw [hr]
  cases v with
  | true =>
    have := C20_reproduces env m a p r h.plain ha ?_ (.inl h.plainHeads) hr
    · rw [h.inst, isSameQ_notFlt (noReal_notFlt ha)] at this
      have := hcl p (subexprs_self _) a (subexprs_self _) this.symm
      simp [this]
    · intro q hq c hc hat hpc hh
      have := hcl q hq c hc hh
      subst this
      cases c <;> simp_all [isAtom, partsOf]
  | false =>
    have : a ≠ p := by
      rintro rfl
      obtain ⟨r', hr'⟩ := (C20_decides env m a a h.plain.epat h.committed (.inl h.plainHeads) ha hw hfuel).2 ⟨fun _ => none, h.self _⟩
      rw [hr'] at hr
      simp at hr
    simp [this]

end

end Expreduce
