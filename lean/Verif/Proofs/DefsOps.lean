import Verif.Proofs.Defs

/-! Histories of definitions, `Clear` and first mentions. -/

namespace Expreduce
open Ex

theorem sinceClear_snoc (name : String) (h : List Op) (o : Op) :
    sinceClear name (h ++ [o]) = match o with
      | .define l r => sinceClear name h ++ [(l, r)]
      | .clear s => if s = name then [] else sinceClear name h
      | .seen _ => sinceClear name h := by
  unfold sinceClear
  rw [List.foldl_append]
  cases o <;> rfl

theorem runOps_append (strLen : Ex → Nat) : ∀ (h1 h2 : List Op) (st : DState),
    runOps strLen st (h1 ++ h2) = (runOps strLen st h1).bind (fun st' => runOps strLen st' h2)
  | [], h2, st => rfl
  | d :: h1, h2, st => by
    simp only [List.cons_append, runOps]
    cases runOp strLen st d with
    | none => rfl
    | some st' => simp only [Option.bind_some]; exact runOps_append strLen h1 h2 st'

/-- The invariant of a history of operations. -/
structure OpsInv (h : List Op) (st : DState) : Prop where
  live : st.frozen = false
  rules : ∀ name, RulesInv (sinceClear name h) name (rulesFor st name)

theorem rulesInv_nil (name : String) : RulesInv [] name [] :=
  ⟨by simp, by simp, by simp, by simp, by intro k; rfl⟩

theorem sinceClear_mem {name : String} {h : List Op} {d : Ex × Ex} (hd : d ∈ sinceClear name h) : Op.define d.1 d.2 ∈ h := by
  induction h using List.reverseRecOn with
  | nil => simp [sinceClear] at hd
  | append_singleton h o ih =>
    rw [sinceClear_snoc] at hd
    cases o with
    | define l r =>
      simp only [List.mem_append, List.mem_singleton] at hd
      rcases hd with hd | rfl
      · simp [ih hd]
      · simp
    | clear s =>
      simp only at hd
      split at hd
      · simp at hd
      · simp [ih hd]
    | seen s => simp [ih hd]

theorem define_rule {strLen : Ex → Nat} {st : DState} {l r : Ex} {name : String} {rs' : List DV} (hf : st.frozen = false) (ht : targetOf l = .rule name)
    (hr : defineRule strLen name (held l) r (rulesFor st name) = some rs') :
    ∃ st', define strLen st l r = some st' ∧ st'.frozen = false ∧ (∀ n, rulesFor st' n = if n = name then rs' else rulesFor st n) ∧
      (∀ n, n ≠ name → st'.defs n = st.defs n) ∧ (st'.defs name).map (fun d => { d with downvalues := [] }) =
        some (((st.defs name).map (fun d => { d with downvalues := [] })).getD {}) := by
  unfold define
  rw [if_neg (by simp [hf]), ht]
  simp only
  cases hd : st.defs name with
  | none =>
    have hrf : rulesFor st name = [] := by simp [rulesFor, hd]
    rw [hrf] at hr
    obtain ⟨s, hs⟩ := ruleSpecificity_held strLen l r name
    simp only [defineRule, overwrite, hs, insertRule, Option.some.injEq] at hr
    refine ⟨_, rfl, hf, ?_, ?_, ?_⟩
    · intro n
      rw [rulesFor_set, hr]
    · intro n hn; simp [Table.set, hn]
    · simp [Table.set]
  | some df =>
    have hrf : rulesFor st name = df.downvalues := by simp [rulesFor, hd]
    rw [hrf] at hr
    simp only [hr, Option.map_some]
    refine ⟨_, rfl, hf, ?_, ?_, ?_⟩
    · intro n
      rw [rulesFor_set]
    · intro n hn; simp [Table.set, hn]
    · simp [Table.set]

theorem rulesFor_defineAttrs (st : DState) (s : String) (rhs : Ex) (n : String) :
    rulesFor { st with defs := defineAttrs st.defs s rhs } n = rulesFor st n := by
  unfold defineAttrs
  split
  · rfl
  · split
    · rfl
    · rw [rulesFor_set]
      split
      · rename_i e; subst e
        unfold rulesFor
        cases st.defs n <;> rfl
      · rfl

theorem rulesFor_clear (st : DState) (s n : String) : rulesFor (clear st s) n = if n = s then [] else rulesFor st n := by
  unfold clear
  cases h : st.defs s with
  | none =>
    simp only
    split
    · rename_i e; subst e; simp [rulesFor, h]
    · rfl
  | some d =>
    simp only
    rw [rulesFor_set]

theorem rulesFor_markSeen (st : DState) (s n : String) : rulesFor (markSeen st s) n = rulesFor st n := by
  unfold markSeen
  cases h : st.defs s with
  | none =>
    simp only
    rw [rulesFor_set]
    split
    · rename_i e; subst e; simp [rulesFor, h]
    · rfl
  | some d => rfl

theorem opsInv_step {strLen : Ex → Nat} {h : List Op} {st : DState} {o : Op} (hI : OpsInv h st) (hh : ∀ o ∈ h, OpOk o) (ho : OpOk o) :
    ∃ st', runOp strLen st o = some st' ∧ OpsInv (h ++ [o]) st' := by
  cases o with
  | clear s =>
    refine ⟨_, rfl, ?_, ?_⟩
    · have := hI.live
      unfold clear
      split <;> exact this
    · intro name
      rw [sinceClear_snoc, rulesFor_clear]
      by_cases e : name = s
      · subst e; simp only [if_true]; exact rulesInv_nil _
      · simp only [e, Ne.symm e, if_false]; exact hI.rules name
  | seen s =>
    refine ⟨_, rfl, ?_, ?_⟩
    · have := hI.live
      unfold markSeen
      split <;> exact this
    · intro name
      rw [sinceClear_snoc, rulesFor_markSeen]
      exact hI.rules name
  | define l r =>
    obtain ⟨hm, hdv, hfa⟩ := ho
    cases ht : targetOf l with
    | fatal => exact absurd ht hfa
    | downValues s => exact absurd ht (hdv s)
    | ignore =>
      refine ⟨st, by simp [runOp, define, hI.live, ht], hI.live, ?_⟩
      intro name
      rw [sinceClear_snoc]
      exact rulesInv_skip (hI.rules name) (by simp [targetName, ht])
    | attrs s =>
      refine ⟨{ st with defs := defineAttrs st.defs s r }, by simp [runOp, define, hI.live, ht], hI.live, ?_⟩
      intro name
      rw [sinceClear_snoc, rulesFor_defineAttrs]
      exact rulesInv_skip (hI.rules name) (by simp [targetName, ht])
    | rule name =>
      have hn : targetName l = some name := by simp [targetName, ht]
      obtain ⟨rs', hrs, hI'⟩ := rulesInv_step (strLen := strLen) (l := l) (rhs := r) (hI.rules name)
        (fun d hd => (hh _ (sinceClear_mem hd)).1) hm hn
      obtain ⟨st', h1, h2, h3, _⟩ := define_rule hI.live ht hrs
      refine ⟨st', h1, h2, ?_⟩
      intro n
      rw [h3 n, sinceClear_snoc]
      simp only
      split
      · rename_i e; subst e; exact hI'
      · rename_i e
        refine rulesInv_skip (hI.rules n) ?_
        rw [hn]; intro hc; exact e (by simpa using hc.symm)

theorem opsInv_run (strLen : Ex → Nat) (h : List Op) (hh : ∀ o ∈ h, OpOk o) : ∃ st, runOps strLen emptyState h = some st ∧ OpsInv h st := by
  induction h using List.reverseRecOn with
  | nil => exact ⟨_, rfl, rfl, fun name => rulesInv_nil name⟩
  | append_singleton h d ih =>
    obtain ⟨st, hst, hI⟩ := ih (fun d hd => hh d (by simp [hd]))
    obtain ⟨st', hst', hI'⟩ := opsInv_step (strLen := strLen) hI (fun d hd => hh d (by simp [hd])) (hh d (by simp))
    refine ⟨st', ?_, hI'⟩
    rw [runOps_append, hst]
    simp [runOps, hst']

/-! ### Symbol values -/

theorem mask_unconditional {rhs : Ex} (h : Unconditional rhs) : maskOf rhs = some (S "ExpreduceNonConditional") := by
  unfold maskOf
  generalize size rhs = n
  unfold maskNonConditional
  split
  · rename_i s args
    have h1 := h.1
    split
    · rename_i e; subst e; simp [hasHead] at h1
    · split
      · rename_i e
        split
        · rename_i vars body
          rw [h.2 s vars body rfl e]
          simp
        · rfl
      · rfl
  · rfl

theorem targetOf_sym {l : Ex} {x y : String} (hx : targetName l = some x) (hy : l = .sym y) : y = x := by
  subst hy
  have h := targetName_eq hx
  simp only [targetOf] at h
  split at h
  · simp at h
  · simpa using h

theorem isSymbolRule_held (l : Ex) : isSymbolRule (held l) = true ↔ ∃ y, l = .sym y := by
  unfold isSymbolRule held
  cases l <;> simp [S]

theorem find_of_mem_nodup {rs : List DV} {k : UInt64 × Option UInt64} {dv : DV} (hn : (rs.map ruleKey).Nodup) (hm : dv ∈ rs) (hk : ruleKey dv = k) :
    storedRhs rs k = some dv.rhs := by
  induction rs with
  | nil => simp at hm
  | cons a rs ih =>
    rw [storedRhs_cons]
    simp only [List.map_cons, List.nodup_cons] at hn
    rcases List.mem_cons.1 hm with rfl | hm
    · simp [hk]
    · rw [if_neg, ih hn.2 hm]
      intro e
      exact hn.1 (List.mem_map.2 ⟨dv, hm, by rw [hk, e]⟩)

theorem getSymDef_last {h : List (Ex × Ex)} {x : String} {rs : List DV} (hI : RulesInv h x rs) (hx : x ≠ "")
    (hu : ∀ d ∈ h, d.1 = .sym x → Unconditional d.2) (hc : ∀ d ∈ h, hash (held d.1) = hash (held (.sym x)) → d.1 = .sym x) :
    (rs.find? (fun dv => isSymbolRule dv.lhs)).map DV.rhs = lastValue h x := by
  have hxt : targetName (.sym x) = some x := by simp [targetName, targetOf, hx]
  generalize hk : (hash (held (.sym x)), some (hash (S "ExpreduceNonConditional"))) = k
  have hkey : ∀ d ∈ h, d.1 = .sym x → defKey d.1 d.2 = k := by
    intro d hd e
    rw [← hk, defKey, mask_unconditional (hu d hd e), e]; rfl
  have hkey' : ∀ d ∈ h, defKey d.1 d.2 = k → d.1 = .sym x := by
    intro d hd e
    rw [← hk] at e
    simp only [defKey, Prod.mk.injEq] at e
    exact hc d hd e.1
  have hlast : latest h x k = lastValue h x := by
    unfold latest lastValue
    congr 1
    have : ∀ d ∈ h.reverse, (targetName d.1 == some x && defKey d.1 d.2 == k) = (d.1 == .sym x) := by
      intro d hd
      have hd' := List.mem_reverse.1 hd
      by_cases e : d.1 = .sym x
      · simp [e, hxt, ← hkey d hd' e]
      · have h1 : (d.1 == Ex.sym x) = false := by simpa using e
        rw [h1]
        simp only [Bool.and_eq_false_iff, beq_eq_false_iff_ne]
        exact Or.inr (fun h2 => e (hkey' d hd' h2))
    generalize h.reverse = l at this
    induction l with
    | nil => rfl
    | cons a l ih =>
      rw [List.find?_cons, List.find?_cons, this a (by simp), ih (fun d hd => this d (by simp [hd]))]
  rw [← hlast, ← hI.last k]
  cases hf : rs.find? (fun dv => isSymbolRule dv.lhs) with
  | none =>
    rw [storedRhs_none]
    · rfl
    · intro dv hdv e
      obtain ⟨d, hd, ht, hkd⟩ := hI.key dv hdv
      have e1 := hkey' d hd (by rw [← hkd, e])
      -- the left side of the rule
      obtain ⟨d', hd', ht', hl'⟩ := hI.lhs dv hdv
      have : hash (held d'.1) = hash (held (.sym x)) := by
        rw [← hl']
        rw [← hk] at e
        simp only [ruleKey, Prod.mk.injEq] at e
        exact e.1
      have e2 := hc d' hd' this
      have := List.find?_eq_none.1 hf dv hdv
      rw [hl', e2] at this
      exact this ((isSymbolRule_held _).2 ⟨x, rfl⟩)
  | some dv =>
    have hmem := List.mem_of_find?_eq_some hf
    have hs := List.find?_some hf
    obtain ⟨d', hd', ht', hl'⟩ := hI.lhs dv hmem
    simp only [hl', isSymbolRule_held] at hs
    obtain ⟨y, hy⟩ := hs
    have hyx := targetOf_sym ht' hy
    subst hyx
    obtain ⟨d, hd, ht, hkd⟩ := hI.key dv hmem
    have h1 : hash dv.lhs = hash (held d.1) := congrArg Prod.fst hkd
    rw [hl', hy] at h1
    have h2 := hc d hd h1.symm
    rw [find_of_mem_nodup hI.nodup hmem (k := k) (by rw [hkd]; exact hkey d hd h2)]
    rfl

/-! ### The order of the rules -/

/-- The specRank of a rule. -/
def specRank (strLen : Ex → Nat) (name : String) (dv : DV) : Int := (ruleSpecificity strLen dv.lhs dv.rhs name).getD 0

theorem ruleSpecificity_cond {strLen : Ex → Nat} {lhs r r' : Ex} {name : String} (h : hasHead "System`Condition" r = hasHead "System`Condition" r') :
    ruleSpecificity strLen lhs r name = ruleSpecificity strLen lhs r' name := by
  unfold ruleSpecificity
  rw [h]

theorem mask_head {e m : Ex} (h : maskOf e = some m) : hasHead "System`Condition" e = hasHead "System`Condition" m := by
  unfold maskOf at h
  generalize size e = n at h
  unfold maskNonConditional at h
  split at h
  · rename_i s args
    split at h
    · rename_i hs
      split at h
      · simp only [Option.map_eq_some_iff] at h
        obtain ⟨_, _, rfl⟩ := h
        subst hs; simp [hasHead, S]
      · simp at h
    · rename_i hs
      have hc : hasHead "System`Condition" (.expr (.sym s :: args)) = false := by simpa [hasHead] using hs
      rw [hc]
      split at h
      · rename_i hw
        split at h
        · split at h
          · simp only [Option.map_eq_some_iff] at h
            obtain ⟨_, _, rfl⟩ := h
            simpa [hasHead] using hs
          · simp only [Option.some.injEq] at h; subst h; rfl
        · simp only [Option.some.injEq] at h; subst h; rfl
      · simp only [Option.some.injEq] at h; subst h; rfl
  · rename_i hne
    simp only [Option.some.injEq] at h
    subst h
    have : hasHead "System`Condition" e = false := by
      unfold hasHead
      split
      · rename_i s args; exact absurd rfl (hne s args)
      · rfl
    rw [this]; rfl

/-- The order of two rules of the table. -/
def Before (strLen : Ex → Nat) (h : List (Ex × Ex)) (name : String) (a b : DV) : Prop :=
  specRank strLen name b < specRank strLen name a ∨ (specRank strLen name a = specRank strLen name b ∧ firstDef h name (ruleKey a) < firstDef h name (ruleKey b))

/-- The order invariant. -/
structure OrdInv (strLen : Ex → Nat) (h : List (Ex × Ex)) (name : String) (rs : List DV) : Prop where
  spec : ∀ dv ∈ rs, dv.spec = 0 ∨ ruleSpecificity strLen dv.lhs dv.rhs name = some dv.spec
  sorted : rs.Pairwise (Before strLen h name)

/-- No collisions between the masks of a history. -/
def MasksApart (h : List (Ex × Ex)) : Prop :=
  ∀ d ∈ h, ∀ d' ∈ h, (maskOf d.2).map hash = (maskOf d'.2).map hash → maskOf d.2 = maskOf d'.2

theorem firstDef_snoc {h : List (Ex × Ex)} {name : String} {k : UInt64 × Option UInt64} {d : Ex × Ex}
    (hk : ∃ d ∈ h, targetName d.1 = some name ∧ k = defKey d.1 d.2) : firstDef (h ++ [d]) name k = firstDef h name k := by
  obtain ⟨d', hd', ht, e⟩ := hk
  unfold firstDef
  rw [List.findIdx_append, if_pos]
  rw [List.findIdx_lt_length]
  exact ⟨d', hd', by simp [ht, e]⟩

theorem firstDef_lt {h : List (Ex × Ex)} {name : String} {k : UInt64 × Option UInt64}
    (hk : ∃ d ∈ h, targetName d.1 = some name ∧ k = defKey d.1 d.2) : firstDef h name k < h.length := by
  obtain ⟨d', hd', ht, e⟩ := hk
  unfold firstDef
  rw [List.findIdx_lt_length]
  exact ⟨d', hd', by simp [ht, e]⟩

theorem firstDef_ge {h : List (Ex × Ex)} {name : String} {k : UInt64 × Option UInt64} {d : Ex × Ex}
    (hk : ∀ d ∈ h, targetName d.1 = some name → k ≠ defKey d.1 d.2) : h.length ≤ firstDef (h ++ [d]) name k := by
  unfold firstDef
  rw [List.findIdx_append]
  split
  · rename_i hlt
    rw [List.findIdx_lt_length] at hlt
    obtain ⟨d', hd', hp⟩ := hlt
    simp only [Bool.and_eq_true, beq_iff_eq] at hp
    exact absurd hp.2.symm (hk d' hd' hp.1)
  · omega

theorem specOf_rank {strLen : Ex → Nat} {name : String} {dv : DV} (hh : HeldLhs dv)
    (hs : dv.spec = 0 ∨ ruleSpecificity strLen dv.lhs dv.rhs name = some dv.spec) : specOf strLen name dv = some (specRank strLen name dv) := by
  obtain ⟨l, hl⟩ := hh
  obtain ⟨s, hr⟩ := ruleSpecificity_held strLen l dv.rhs name
  rw [← hl] at hr
  unfold specOf specRank
  rw [hr]
  split
  · rfl
  · rcases hs with h | h
    · rename_i hn; exact absurd h hn
    · rw [hr] at h; simp only [Option.some.injEq] at h; simp [h]

theorem before_snoc {strLen : Ex → Nat} {h : List (Ex × Ex)} {name : String} {d : Ex × Ex} {rs : List DV} (hI : RulesInv h name rs)
    (hO : rs.Pairwise (Before strLen h name)) : rs.Pairwise (Before strLen (h ++ [d]) name) := by
  refine hO.imp_of_mem ?_
  intro a b ha hb hab
  unfold Before at hab ⊢
  rw [firstDef_snoc (hI.key a ha), firstDef_snoc (hI.key b hb)]
  exact hab

theorem ordInv_skip {strLen : Ex → Nat} {h : List (Ex × Ex)} {name : String} {rs : List DV} {d : Ex × Ex} (hI : RulesInv h name rs)
    (hO : OrdInv strLen h name rs) : OrdInv strLen (h ++ [d]) name rs :=
  ⟨hO.spec, before_snoc hI hO.sorted⟩

theorem ordInv_step {strLen : Ex → Nat} {h : List (Ex × Ex)} {name : String} {rs rs' : List DV} {l rhs : Ex} (hI : RulesInv h name rs)
    (hO : OrdInv strLen h name rs) (hmh : ∀ d ∈ h, MaskOk d.2) (hm : MaskOk rhs) (hap : MasksApart (h ++ [(l, rhs)]))
    (hd : defineRule strLen name (held l) rhs rs = some rs') : OrdInv strLen (h ++ [(l, rhs)]) name rs' := by
  have hall : ∀ dv ∈ rs, MaskOk dv.rhs ∧ HeldLhs dv := by
    intro dv hdv
    obtain ⟨d, hd, _, e⟩ := hI.rhs dv hdv
    obtain ⟨d', _, _, e'⟩ := hI.lhs dv hdv
    exact ⟨by rw [e]; exact hmh d hd, d'.1, e'⟩
  have hsorted := before_snoc (d := (l, rhs)) hI hO.sorted
  rcases defineRule_spec (strLen := strLen) (name := name) (l := l) hm hall with ⟨a, dv, b, rfl, h2, h3, h4⟩ | ⟨h1, s, hs, a, b, sp, rfl, hsp, h4, h5, h6⟩
  · rw [hd] at h4
    simp only [Option.some.injEq] at h4
    subst h4
    -- same specRank
    have hcond : hasHead "System`Condition" dv.rhs = hasHead "System`Condition" rhs := by
      obtain ⟨d, hdm, _, e⟩ := hI.rhs dv (by simp)
      have hmask : (maskOf d.2).map hash = (maskOf rhs).map hash := by
        have := congrArg Prod.snd h3
        simp only [ruleKey, defKey] at this
        rw [← e]; exact this
      have := hap d (by simp [hdm]) (l, rhs) (by simp) hmask
      obtain ⟨m, hm'⟩ := Option.ne_none_iff_exists'.1 hm
      simp only at this
      rw [hm'] at this
      rw [e, mask_head this, mask_head hm']
    have hspec : ruleSpecificity strLen dv.lhs rhs name = ruleSpecificity strLen dv.lhs dv.rhs name := (ruleSpecificity_cond hcond).symm
    have hrank : specRank strLen name { dv with rhs := rhs } = specRank strLen name dv := by unfold specRank; rw [hspec]
    have hkey : ruleKey { dv with rhs := rhs } = ruleKey dv := by rw [ruleKey_overwrite h3, h3]
    refine ⟨?_, ?_⟩
    · intro d hdm
      simp only [List.mem_append, List.mem_cons] at hdm
      rcases hdm with hdm | rfl | hdm
      · exact hO.spec d (by simp [hdm])
      · simp only [hspec]; exact hO.spec dv (by simp)
      · exact hO.spec d (by simp [hdm])
    · rw [List.pairwise_append, List.pairwise_cons] at hsorted ⊢
      obtain ⟨p1, ⟨p2, p3⟩, p4⟩ := hsorted
      refine ⟨p1, ⟨?_, p3⟩, ?_⟩
      · intro x hx
        have := p2 x hx
        unfold Before at this ⊢
        rw [hrank, hkey]; exact this
      · intro x hx y hy
        rcases List.mem_cons.1 hy with rfl | hy
        · have := p4 x hx dv (by simp)
          unfold Before at this ⊢
          rw [hrank, hkey]; exact this
        · exact p4 x hx y (by simp [hy])
  · rw [hd] at h4
    simp only [Option.some.injEq] at h4
    subst h4
    have hspa : ∀ dv ∈ a ++ b, specOf strLen name dv = some (specRank strLen name dv) := fun dv hdv => specOf_rank (hall dv hdv).2 (hO.spec dv hdv)
    have hrn : specRank strLen name { lhs := held l, rhs := rhs, spec := sp } = s := by simp [specRank, hs]
    refine ⟨?_, ?_⟩
    · intro d hdm
      simp only [List.mem_append, List.mem_cons] at hdm
      rcases hdm with hdm | rfl | hdm
      · exact hO.spec d (by simp [hdm])
      · rcases hsp with rfl | rfl
        · exact Or.inl rfl
        · exact Or.inr hs
      · exact hO.spec d (by simp [hdm])
    · rw [List.pairwise_append] at hsorted ⊢
      obtain ⟨p1, p2, p3⟩ := hsorted
      have hb : ∀ y ∈ b, specRank strLen name y < s := by
        intro y hy
        cases b with
        | nil => simp at hy
        | cons b0 b =>
          have h0 := h6 b0 rfl _ (hspa b0 (by simp))
          rcases List.mem_cons.1 hy with rfl | hy
          · exact h0
          · have := (List.pairwise_cons.1 p2).1 y hy
            unfold Before at this
            omega
      refine ⟨p1, List.pairwise_cons.2 ⟨?_, p2⟩, ?_⟩
      · intro y hy
        left
        rw [hrn]; exact hb y hy
      · intro x hx y hy
        rcases List.mem_cons.1 hy with rfl | hy
        · have h7 := h5 x hx _ (hspa x (by simp [hx]))
          unfold Before
          rw [hrn]
          rcases Int.lt_or_eq_of_le h7 with h8 | h8
          · exact Or.inl h8
          · refine Or.inr ⟨h8.symm, ?_⟩
            rw [firstDef_snoc (hI.key x (by simp [hx]))]
            refine lt_of_lt_of_le (firstDef_lt (hI.key x (by simp [hx]))) (firstDef_ge ?_)
            intro d hdm ht e
            -- a definition of this key would be stored
            have hl := hI.last (defKey l rhs)
            rw [storedRhs_none h1] at hl
            unfold latest at hl
            rw [eq_comm, Option.map_eq_none_iff, List.find?_eq_none] at hl
            exact hl d (by simpa using hdm) (by simp only [Bool.and_eq_true, beq_iff_eq]; exact ⟨ht, e.symm⟩)
        · exact p3 x hx y hy

theorem ordInv_ops (strLen : Ex → Nat) (h : List Op) (hh : ∀ o ∈ h, OpOk o) (hap : ∀ l r l' r', Op.define l r ∈ h → Op.define l' r' ∈ h →
    (maskOf r).map hash = (maskOf r').map hash → maskOf r = maskOf r') :
    ∀ st, runOps strLen emptyState h = some st → ∀ name, OrdInv strLen (sinceClear name h) name (rulesFor st name) := by
  induction h using List.reverseRecOn with
  | nil =>
    intro st hst name
    simp only [runOps, Option.some.injEq] at hst
    subst hst
    exact ⟨by simp [rulesFor, emptyState], by simp [rulesFor, emptyState]⟩
  | append_singleton h o ih =>
    intro st' hst' name
    have hh' : ∀ o ∈ h, OpOk o := fun d hd => hh d (by simp [hd])
    obtain ⟨st, hst, hI⟩ := opsInv_run strLen h hh'
    have hO := ih hh' (fun l r l' r' h1 h2 => hap l r l' r' (by simp [h1]) (by simp [h2])) st hst
    rw [runOps_append, hst] at hst'
    simp only [Option.bind_some, runOps] at hst'
    rw [sinceClear_snoc]
    have ho := hh o (by simp)
    cases o with
    | clear s =>
      simp only [runOp, Option.bind_some, Option.some.injEq] at hst'
      subst hst'
      rw [rulesFor_clear]
      by_cases e : name = s
      · subst e; simp only [if_true]; exact ⟨by simp, by simp⟩
      · simp only [e, Ne.symm e, if_false]; exact hO name
    | seen s =>
      simp only [runOp, Option.bind_some, Option.some.injEq] at hst'
      subst hst'
      rw [rulesFor_markSeen]
      exact hO name
    | define l r =>
      obtain ⟨hm, hdv, hfa⟩ := ho
      cases ht : targetOf l with
      | fatal => exact absurd ht hfa
      | downValues s => exact absurd ht (hdv s)
      | ignore =>
        simp [runOp, define, hI.live, ht] at hst'
        subst hst'
        exact ordInv_skip (hI.rules name) (hO name)
      | attrs s =>
        simp [runOp, define, hI.live, ht] at hst'
        subst hst'
        have hr := rulesFor_defineAttrs st s r name
        rw [hI.live] at hr
        simp only
        rw [hr]
        exact ordInv_skip (hI.rules name) (hO name)
      | rule nm =>
        have hn : targetName l = some nm := by simp [targetName, ht]
        obtain ⟨rs', hrs, hI'⟩ := rulesInv_step (strLen := strLen) (l := l) (rhs := r) (hI.rules nm)
          (fun d hd => (hh' _ (sinceClear_mem hd)).1) hm hn
        obtain ⟨st'', h1, h2, h3, _⟩ := define_rule hI.live ht hrs
        simp only [runOp, h1, Option.bind_some, Option.some.injEq] at hst'
        subst hst'
        simp only
        rw [h3 name]
        split
        · rename_i e; subst e
          refine ordInv_step (hI.rules name) (hO name) (fun d hd => (hh' _ (sinceClear_mem hd)).1) hm ?_ hrs
          have mem : ∀ d ∈ sinceClear name h ++ [(l, r)], Op.define d.1 d.2 ∈ h ++ [Op.define l r] := by
            intro d hd
            simp only [List.mem_append, List.mem_singleton] at hd ⊢
            rcases hd with hd | rfl
            · exact Or.inl (sinceClear_mem hd)
            · exact Or.inr rfl
          intro d hd d' hd' e
          exact hap _ _ _ _ (mem d hd) (mem d' hd') e
        · exact ordInv_skip (hI.rules name) (hO name)

end Expreduce
