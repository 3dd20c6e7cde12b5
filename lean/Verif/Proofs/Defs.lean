import Verif.Spec.Defs
import Verif.Proofs.Match
import Mathlib.Data.List.Induction

/-! Lemmas on the table of definitions. -/

namespace Expreduce
open Ex

theorem mask_notFlt : ∀ (n : Nat) (e m : Ex), maskNonConditional n e = some m → notFlt m = true
  | 0, e, m, h => by simp [maskNonConditional] at h
  | n + 1, e, m, h => by
    unfold maskNonConditional at h
    split at h
    · split at h
      · split at h
        · simp only [Option.map_eq_some_iff] at h
          obtain ⟨_, _, rfl⟩ := h; rfl
        · simp at h
      · split at h
        · split at h
          · split at h
            · simp only [Option.map_eq_some_iff] at h
              obtain ⟨_, _, rfl⟩ := h; rfl
            · simp only [Option.some.injEq] at h; subst h; rfl
          · simp only [Option.some.injEq] at h; subst h; rfl
        · simp only [Option.some.injEq] at h; subst h; rfl
    · simp only [Option.some.injEq] at h; subst h; rfl

theorem overwrite_spec {l rhs : Ex} (hm : MaskOk rhs) : ∀ {dvs : List DV}, (∀ dv ∈ dvs, MaskOk dv.rhs) →
    (overwrite (held l) rhs dvs = some none ∧ ∀ dv ∈ dvs, ruleKey dv ≠ defKey l rhs) ∨
    (∃ a dv b, dvs = a ++ dv :: b ∧ (∀ d ∈ a, ruleKey d ≠ defKey l rhs) ∧ ruleKey dv = defKey l rhs ∧
      overwrite (held l) rhs dvs = some (some (a ++ { dv with rhs := rhs } :: b)))
  | [], _ => Or.inl ⟨rfl, by simp⟩
  | dv :: dvs, hall => by
    obtain ⟨m', hm'⟩ := Option.ne_none_iff_exists'.1 hm
    obtain ⟨m, hmd⟩ := Option.ne_none_iff_exists'.1 (hall dv (by simp))
    have hsame : isSameQ m m' = true ↔ hash m = hash m' := isSameQ_notFlt (mask_notFlt _ _ _ hm')
    have hlhs : isSameQ dv.lhs (held l) = true ↔ hash dv.lhs = hash (held l) := isSameQ_notFlt rfl
    have hkey : ruleKey dv = defKey l rhs ↔ isSameQ dv.lhs (held l) = true ∧ isSameQ m m' = true := by
      simp only [ruleKey, defKey, hmd, hm', Option.map_some, Prod.mk.injEq, Option.some.injEq, hsame, hlhs]
    have hrec : ruleKey dv ≠ defKey l rhs → overwrite (held l) rhs (dv :: dvs) = (overwrite (held l) rhs dvs).map (Option.map (dv :: ·)) := by
      intro hne
      rw [overwrite]
      split
      · rename_i h1
        simp only [hmd, hm']
        rw [if_neg]
        intro h2; exact hne (hkey.2 ⟨h1, h2⟩)
      · rfl
    by_cases hk : ruleKey dv = defKey l rhs
    · refine Or.inr ⟨[], dv, dvs, rfl, by simp, hk, ?_⟩
      have := hkey.1 hk
      rw [overwrite]
      simp only [this.1, if_true, hmd, hm', this.2, List.nil_append]
    · rw [hrec hk]
      rcases overwrite_spec hm (fun d hd => hall d (by simp [hd])) (l := l) (rhs := rhs) (dvs := dvs) with ⟨h1, h2⟩ | ⟨a, d, b, rfl, h2, h3, h4⟩
      · left
        rw [h1]
        refine ⟨rfl, ?_⟩
        intro d hd
        rcases List.mem_cons.1 hd with rfl | hd
        · exact hk
        · exact h2 d hd
      · right
        refine ⟨dv :: a, d, b, rfl, ?_, h3, ?_⟩
        · intro d' hd'
          rcases List.mem_cons.1 hd' with rfl | hd'
          · exact hk
          · exact h2 d' hd'
        · rw [h4]; rfl

/-- The left sides that `Define` stores. -/
def HeldLhs (dv : DV) : Prop := ∃ l, dv.lhs = held l

theorem ruleSpecificity_held (strLen : Ex → Nat) (l rhs : Ex) (name : String) : ∃ s, ruleSpecificity strLen (held l) rhs name = some s := by
  unfold ruleSpecificity held
  split
  · exact ⟨_, rfl⟩
  · simp only
    split
    · exact ⟨_, rfl⟩
    · split <;> exact ⟨_, rfl⟩

theorem specOf_held {strLen : Ex → Nat} {name : String} {dv : DV} (h : HeldLhs dv) : ∃ s, specOf strLen name dv = some s := by
  obtain ⟨l, h⟩ := h
  unfold specOf
  split
  · rw [h]; exact ruleSpecificity_held _ _ _ _
  · exact ⟨_, rfl⟩

theorem insertRule_spec {strLen : Ex → Nat} {name : String} {hl rhs : Ex} {new : Int} : ∀ {dvs : List DV}, (∀ dv ∈ dvs, HeldLhs dv) →
    ∃ a b sp, dvs = a ++ b ∧ (sp = 0 ∨ sp = new) ∧ insertRule strLen name hl rhs new dvs = some (a ++ { lhs := hl, rhs := rhs, spec := sp } :: b) ∧
      (∀ dv ∈ a, ∀ s, specOf strLen name dv = some s → new ≤ s) ∧ (∀ dv, b.head? = some dv → ∀ s, specOf strLen name dv = some s → s < new)
  | [], _ => ⟨[], [], 0, rfl, Or.inl rfl, rfl, by simp, by simp⟩
  | dv :: dvs, hall => by
    obtain ⟨s, hs⟩ := specOf_held (strLen := strLen) (name := name) (hall dv (by simp))
    by_cases hlt : s < new
    · refine ⟨[], dv :: dvs, new, rfl, Or.inr rfl, by rw [insertRule, hs]; simp [hlt], by simp, ?_⟩
      intro d hd s' hs'
      simp only [List.head?_cons, Option.some.injEq] at hd
      subst hd
      rw [hs] at hs'
      simp only [Option.some.injEq] at hs'
      omega
    · obtain ⟨a, b, sp, rfl, hsp, hi, h1, h2⟩ := insertRule_spec (fun d hd => hall d (by simp [hd])) (dvs := dvs) (strLen := strLen) (name := name)
        (hl := hl) (rhs := rhs) (new := new)
      refine ⟨dv :: a, b, sp, rfl, hsp, by rw [insertRule, hs]; simp [hlt, hi], ?_, h2⟩
      intro d hd s' hs'
      rcases List.mem_cons.1 hd with rfl | hd
      · rw [hs] at hs'
        simp only [Option.some.injEq] at hs'
        omega
      · exact h1 d hd s' hs'

/-- What `Define` does to the rules of a name. -/
theorem defineRule_spec {strLen : Ex → Nat} {name : String} {l rhs : Ex} {dvs : List DV} (hm : MaskOk rhs)
    (hall : ∀ dv ∈ dvs, MaskOk dv.rhs ∧ HeldLhs dv) :
    (∃ a dv b, dvs = a ++ dv :: b ∧ (∀ d ∈ a, ruleKey d ≠ defKey l rhs) ∧ ruleKey dv = defKey l rhs ∧
      defineRule strLen name (held l) rhs dvs = some (a ++ { dv with rhs := rhs } :: b)) ∨
    ((∀ dv ∈ dvs, ruleKey dv ≠ defKey l rhs) ∧ ∃ new, ruleSpecificity strLen (held l) rhs name = some new ∧
      ∃ a b sp, dvs = a ++ b ∧ (sp = 0 ∨ sp = new) ∧
        defineRule strLen name (held l) rhs dvs = some (a ++ { lhs := held l, rhs := rhs, spec := sp } :: b) ∧
        (∀ dv ∈ a, ∀ s, specOf strLen name dv = some s → new ≤ s) ∧ (∀ dv, b.head? = some dv → ∀ s, specOf strLen name dv = some s → s < new)) := by
  unfold defineRule
  rcases overwrite_spec hm (fun d hd => (hall d hd).1) (l := l) with ⟨h1, h2⟩ | ⟨a, dv, b, rfl, h2, h3, h4⟩
  · right
    obtain ⟨new, hnew⟩ := ruleSpecificity_held strLen l rhs name
    obtain ⟨a, b, sp, rfl, hsp, hi, h3, h4⟩ := insertRule_spec (fun d hd => (hall d hd).2) (strLen := strLen) (name := name) (hl := held l) (rhs := rhs) (new := new)
    refine ⟨h2, new, hnew, a, b, sp, rfl, hsp, ?_, h3, h4⟩
    rw [h1, hnew]
    exact hi
  · left
    refine ⟨a, dv, b, rfl, h2, h3, ?_⟩
    rw [h4]

theorem runDefs_append (strLen : Ex → Nat) : ∀ (h1 h2 : List (Ex × Ex)) (st : DState),
    runDefs strLen st (h1 ++ h2) = (runDefs strLen st h1).bind (fun st' => runDefs strLen st' h2)
  | [], h2, st => rfl
  | d :: h1, h2, st => by
    simp only [List.cons_append, runDefs]
    cases define strLen st d.1 d.2 with
    | none => rfl
    | some st' => simp only [Option.bind_some]; exact runDefs_append strLen h1 h2 st'

theorem targetName_eq {l : Ex} {s : String} (h : targetName l = some s) : targetOf l = .rule s := by
  unfold targetName at h
  split at h
  · simp only [Option.some.injEq] at h; rename_i h1; rw [h1, h]
  · simp at h

/-- What holds of the rules of one name after the history `h`. -/
structure RulesInv (h : List (Ex × Ex)) (name : String) (rs : List DV) : Prop where
  lhs : ∀ dv ∈ rs, ∃ d ∈ h, targetName d.1 = some name ∧ dv.lhs = held d.1
  rhs : ∀ dv ∈ rs, ∃ d ∈ h, targetName d.1 = some name ∧ dv.rhs = d.2
  key : ∀ dv ∈ rs, ∃ d ∈ h, targetName d.1 = some name ∧ ruleKey dv = defKey d.1 d.2
  nodup : (rs.map ruleKey).Nodup
  last : ∀ k, storedRhs rs k = latest h name k

theorem latest_snoc (h : List (Ex × Ex)) (d : Ex × Ex) (name : String) (k) :
    latest (h ++ [d]) name k = if targetName d.1 = some name ∧ defKey d.1 d.2 = k then some d.2 else latest h name k := by
  unfold latest
  simp only [List.reverse_append, List.reverse_cons, List.reverse_nil, List.nil_append, List.singleton_append, List.find?_cons]
  by_cases hc : targetName d.1 = some name ∧ defKey d.1 d.2 = k
  · rw [if_pos hc]
    simp [hc.1, hc.2]
  · rw [if_neg hc]
    have : (targetName d.1 == some name && defKey d.1 d.2 == k) = false := by
      simp only [Bool.and_eq_false_iff, beq_eq_false_iff_ne]
      by_cases h1 : targetName d.1 = some name
      · exact Or.inr (fun h2 => hc ⟨h1, h2⟩)
      · exact Or.inl h1
    rw [this]

theorem storedRhs_append (a b : List DV) (k) : storedRhs (a ++ b) k = (storedRhs a k).orElse (fun _ => storedRhs b k) := by
  unfold storedRhs
  rw [List.find?_append]
  cases List.find? (fun dv => ruleKey dv == k) a <;> rfl

theorem storedRhs_cons (dv : DV) (b : List DV) (k) : storedRhs (dv :: b) k = if ruleKey dv = k then some dv.rhs else storedRhs b k := by
  unfold storedRhs
  rw [List.find?_cons]
  by_cases h : ruleKey dv = k
  · simp [h]
  · rw [if_neg h]
    have : (ruleKey dv == k) = false := by simpa using h
    rw [this]

theorem storedRhs_none {a : List DV} {k} (h : ∀ d ∈ a, ruleKey d ≠ k) : storedRhs a k = none := by
  unfold storedRhs
  rw [List.find?_eq_none.2]
  · rfl
  · intro d hd; simpa using h d hd

/-- The key of a rule after its right side was replaced by one with the same mask. -/
theorem ruleKey_overwrite {dv : DV} {l rhs : Ex} (h : ruleKey dv = defKey l rhs) : ruleKey { dv with rhs := rhs } = defKey l rhs := by
  simp only [ruleKey, defKey, Prod.mk.injEq] at h ⊢
  exact ⟨h.1, trivial⟩

theorem rulesInv_step {strLen : Ex → Nat} {h : List (Ex × Ex)} {name : String} {rs : List DV} {l rhs : Ex} (hI : RulesInv h name rs)
    (hmh : ∀ d ∈ h, MaskOk d.2) (hm : MaskOk rhs) (ht : targetName l = some name) :
    ∃ rs', defineRule strLen name (held l) rhs rs = some rs' ∧ RulesInv (h ++ [(l, rhs)]) name rs' := by
  have hall : ∀ dv ∈ rs, MaskOk dv.rhs ∧ HeldLhs dv := by
    intro dv hdv
    obtain ⟨d, hd, _, e⟩ := hI.rhs dv hdv
    obtain ⟨d', _, _, e'⟩ := hI.lhs dv hdv
    exact ⟨by rw [e]; exact hmh d hd, d'.1, e'⟩
  have old : ∀ {P : Ex × Ex → Prop}, (∃ d ∈ h, P d) → ∃ d ∈ h ++ [(l, rhs)], P d := by
    rintro P ⟨d, hd, hp⟩; exact ⟨d, by simp [hd], hp⟩
  have new : ∀ {P : Ex × Ex → Prop}, P (l, rhs) → ∃ d ∈ h ++ [(l, rhs)], P d := fun hp => ⟨(l, rhs), by simp, hp⟩
  have hold := hI.last
  rcases defineRule_spec (strLen := strLen) (name := name) (l := l) hm hall with ⟨a, dv, b, rfl, h2, h3, h4⟩ | ⟨h1, s, hs, a, b, sp, rfl, hsp, h4, _, _⟩
  · refine ⟨_, h4, ?_, ?_, ?_, ?_, ?_⟩
    · intro d hd
      simp only [List.mem_append, List.mem_cons] at hd
      rcases hd with hd | rfl | hd
      · exact old (hI.lhs d (by simp [hd]))
      · exact old (hI.lhs dv (by simp))
      · exact old (hI.lhs d (by simp [hd]))
    · intro d hd
      simp only [List.mem_append, List.mem_cons] at hd
      rcases hd with hd | rfl | hd
      · exact old (hI.rhs d (by simp [hd]))
      · exact new ⟨ht, rfl⟩
      · exact old (hI.rhs d (by simp [hd]))
    · intro d hd
      simp only [List.mem_append, List.mem_cons] at hd
      rcases hd with hd | rfl | hd
      · exact old (hI.key d (by simp [hd]))
      · exact new ⟨ht, ruleKey_overwrite h3⟩
      · exact old (hI.key d (by simp [hd]))
    · have := hI.nodup
      simp only [List.map_append, List.map_cons] at this ⊢
      rw [ruleKey_overwrite h3, ← h3]
      exact this
    · intro k
      rw [latest_snoc, ← hold k, storedRhs_append, storedRhs_append, storedRhs_cons, storedRhs_cons, ruleKey_overwrite h3, h3]
      simp only [ht, true_and]
      by_cases hk : defKey l rhs = k
      · subst hk
        rw [storedRhs_none h2]
        simp
      · simp [hk]
  · refine ⟨_, h4, ?_, ?_, ?_, ?_, ?_⟩
    · intro d hd
      simp only [List.mem_append, List.mem_cons] at hd
      rcases hd with hd | rfl | hd
      · exact old (hI.lhs d (by simp [hd]))
      · exact new ⟨ht, rfl⟩
      · exact old (hI.lhs d (by simp [hd]))
    · intro d hd
      simp only [List.mem_append, List.mem_cons] at hd
      rcases hd with hd | rfl | hd
      · exact old (hI.rhs d (by simp [hd]))
      · exact new ⟨ht, rfl⟩
      · exact old (hI.rhs d (by simp [hd]))
    · intro d hd
      simp only [List.mem_append, List.mem_cons] at hd
      rcases hd with hd | rfl | hd
      · exact old (hI.key d (by simp [hd]))
      · exact new ⟨ht, rfl⟩
      · exact old (hI.key d (by simp [hd]))
    · have := hI.nodup
      have hk : ruleKey { lhs := held l, rhs := rhs, spec := sp } = defKey l rhs := rfl
      simp only [List.map_append, List.map_cons] at this ⊢
      rw [hk, List.nodup_middle, List.nodup_cons]
      refine ⟨?_, this⟩
      rw [← List.map_append]
      intro hc
      obtain ⟨d, hd, e⟩ := List.mem_map.1 hc
      exact h1 d hd e
    · intro k
      have hkey : ruleKey { lhs := held l, rhs := rhs, spec := sp } = defKey l rhs := rfl
      rw [latest_snoc, ← hold k, storedRhs_append, storedRhs_append, storedRhs_cons, hkey]
      simp only [ht, true_and]
      by_cases hk : defKey l rhs = k
      · subst hk
        rw [storedRhs_none (fun d hd => h1 d (by simp [hd]))]
        simp
      · simp [hk]

theorem rulesInv_skip {h : List (Ex × Ex)} {name : String} {rs : List DV} {d : Ex × Ex} (hI : RulesInv h name rs) (ht : targetName d.1 ≠ some name) :
    RulesInv (h ++ [d]) name rs := by
  have old : ∀ {P : Ex × Ex → Prop}, (∃ d ∈ h, P d) → ∃ d' ∈ h ++ [d], P d' := by
    rintro P ⟨d, hd, hp⟩; exact ⟨d, by simp [hd], hp⟩
  refine ⟨fun dv hdv => old (hI.lhs dv hdv), fun dv hdv => old (hI.rhs dv hdv), fun dv hdv => old (hI.key dv hdv), hI.nodup, ?_⟩
  intro k
  rw [latest_snoc, if_neg (fun hc => ht hc.1)]
  exact hI.last k

/-- The invariant of a whole history. -/
structure DefsInv (h : List (Ex × Ex)) (st : DState) : Prop where
  live : st.frozen = false
  rules : ∀ name, RulesInv h name (rulesFor st name)

theorem rulesFor_set (st : DState) (name : String) (d : DefM) (n : String) :
    rulesFor { st with defs := st.defs.set name d } n = if n = name then d.downvalues else rulesFor st n := by
  unfold rulesFor Table.set
  simp only
  split <;> simp

theorem defsInv_step {strLen : Ex → Nat} {h : List (Ex × Ex)} {st : DState} {d : Ex × Ex} (hI : DefsInv h st) (hmh : ∀ d ∈ h, MaskOk d.2)
    (hm : MaskOk d.2) (ht : targetName d.1 ≠ none) : ∃ st', define strLen st d.1 d.2 = some st' ∧ DefsInv (h ++ [d]) st' := by
  obtain ⟨name, hn⟩ := Option.ne_none_iff_exists'.1 ht
  have htg := targetName_eq hn
  obtain ⟨rs', hrs, hI'⟩ := rulesInv_step (strLen := strLen) (l := d.1) (rhs := d.2) (hI.rules name) hmh hm hn
  have fin : ∀ st' : DState, st'.frozen = false → (∀ n, rulesFor st' n = if n = name then rs' else rulesFor st n) → DefsInv (h ++ [d]) st' := by
    intro st' hf hr
    refine ⟨hf, ?_⟩
    intro n
    rw [hr n]
    split
    · rename_i e; subst e; exact hI'
    · rename_i e
      refine rulesInv_skip (hI.rules n) ?_
      rw [hn]; intro hc; exact e (by simpa using hc.symm)
  unfold define
  rw [if_neg (by simp [hI.live]), htg]
  simp only
  cases hd : st.defs name with
  | none =>
    have hrf : rulesFor st name = [] := by simp [rulesFor, hd]
    rw [hrf] at hrs
    obtain ⟨s, hs⟩ := ruleSpecificity_held strLen d.1 d.2 name
    simp only [defineRule, overwrite, hs, insertRule, Option.some.injEq] at hrs
    refine ⟨_, rfl, fin _ hI.live ?_⟩
    intro n
    rw [rulesFor_set, hrs]
  | some df =>
    have hrf : rulesFor st name = df.downvalues := by simp [rulesFor, hd]
    rw [hrf] at hrs
    simp only [hrs, Option.map_some]
    refine ⟨_, rfl, fin _ hI.live ?_⟩
    intro n
    rw [rulesFor_set]

/-- The state without definitions. -/
def emptyState : DState := { defs := fun _ => none }

theorem defsInv_run (strLen : Ex → Nat) (h : List (Ex × Ex)) (hm : ∀ d ∈ h, MaskOk d.2) (ht : ∀ d ∈ h, targetName d.1 ≠ none) :
    ∃ st, runDefs strLen emptyState h = some st ∧ DefsInv h st := by
  induction h using List.reverseRecOn with
  | nil =>
    refine ⟨_, rfl, rfl, ?_⟩
    intro name
    exact ⟨by simp [rulesFor, emptyState], by simp [rulesFor, emptyState], by simp [rulesFor, emptyState], by simp [rulesFor, emptyState],
      by intro k; rfl⟩
  | append_singleton h d ih =>
    obtain ⟨st, hst, hI⟩ := ih (fun d hd => hm d (by simp [hd])) (fun d hd => ht d (by simp [hd]))
    obtain ⟨st', hst', hI'⟩ := defsInv_step (strLen := strLen) hI (fun d hd => hm d (by simp [hd])) (hm d (by simp)) (ht d (by simp))
    refine ⟨st', ?_, hI'⟩
    rw [runDefs_append, hst]
    simp [runDefs, hst']

end Expreduce
