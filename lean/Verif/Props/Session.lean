import Verif.Model.Session
import Verif.Proofs.DefsOps
import Verif.Proofs.EvalIdem

/-!
# The history of a session (C111)
-/

namespace Expreduce
open Ex

/-- The rules of a name whose definitions have different fingerprints are these definitions. -/
theorem rules_iff {h : List (Ex × Ex)} {name : String} {rs : List DV} (hI : RulesInv h name rs) (ht : ∀ d ∈ h, targetName d.1 = some name)
    (hF : ∀ d ∈ h, ∀ d' ∈ h, hash (held d.1) = hash (held d'.1) → d = d') (l r : Ex) :
    (∃ dv ∈ rs, dv.lhs = l ∧ dv.rhs = r) ↔ ∃ d ∈ h, l = held d.1 ∧ r = d.2 := by
  have hlat : ∀ k x, latest h name k = some x → ∃ d ∈ h, defKey d.1 d.2 = k ∧ x = d.2 := by
    intro k x hx
    simp only [latest, Option.map_eq_some_iff] at hx
    obtain ⟨d, hd, rfl⟩ := hx
    have h1 := List.mem_of_find?_eq_some hd
    have h2 := List.find?_some hd
    simp only [Bool.and_eq_true, beq_iff_eq] at h2
    exact ⟨d, List.mem_reverse.1 h1, h2.2, rfl⟩
  constructor
  · rintro ⟨dv, hdv, rfl, rfl⟩
    obtain ⟨d, hd, _, hk⟩ := hI.key dv hdv
    obtain ⟨d', hd', _, hl⟩ := hI.lhs dv hdv
    have hst : storedRhs rs (ruleKey dv) = some dv.rhs := by
      exact find_of_mem_nodup hI.nodup hdv rfl
    rw [hI.last] at hst
    obtain ⟨d2, hd2, hk2, hr⟩ := hlat _ _ hst
    have e1 : d = d' := hF d hd d' hd' (by
      have := congrArg Prod.fst hk
      simp only [ruleKey, defKey] at this
      rw [← this, hl])
    have e2 : d2 = d := hF d2 hd2 d hd (by
      have := congrArg Prod.fst (hk2.trans hk)
      simpa only [defKey] using this)
    subst e1
    subst e2
    exact ⟨d2, hd2, hl, hr⟩
  · rintro ⟨d, hd, rfl, rfl⟩
    have hsome : ∃ x, latest h name (defKey d.1 d.2) = some x := by
      cases hq : latest h name (defKey d.1 d.2) with
      | some x => exact ⟨x, rfl⟩
      | none =>
        simp only [latest, Option.map_eq_none_iff, List.find?_eq_none] at hq
        have := hq d (List.mem_reverse.2 hd)
        simp [ht d hd] at this
    obtain ⟨x, hx⟩ := hsome
    obtain ⟨d2, hd2, hk2, rfl⟩ := hlat _ _ hx
    have e2 : d2 = d := hF d2 hd2 d hd (by
      have := congrArg Prod.fst hk2
      simpa only [defKey] using this)
    subst e2
    rw [← hI.last] at hx
    simp only [storedRhs, Option.map_eq_some_iff] at hx
    obtain ⟨dv, hdv, hr⟩ := hx
    have hm := List.mem_of_find?_eq_some hdv
    have hk := List.find?_some hdv
    simp only [beq_iff_eq] at hk
    obtain ⟨d', hd', _, hl⟩ := hI.lhs dv hm
    have e3 : d' = d2 := hF d' hd' d2 hd2 (by
      have := congrArg Prod.fst hk
      simp only [ruleKey, defKey] at this
      rw [← this, hl])
    subst e3
    exact ⟨dv, hm, hl, hr⟩

/-- `In[n]`, `Out[n]` -/
def inOf (n : Nat) : Ex := .expr [S "In", .int n]
def outOf (n : Nat) : Ex := .expr [S "Out", .int n]

/-- The assignments made for inputs, from line `n` on. -/
def inDefs : Nat → List Ex → List (Ex × Ex)
  | _, [] => []
  | n, e :: es => (inOf n, e) :: (inOf n, e) :: inDefs (n + 1) es

def outDefs : Nat → List Ex → List (Ex × Ex)
  | _, [] => []
  | n, e :: es => (outOf n, e) :: outDefs (n + 1) es

def lineDefs (n : Nat) : List (Ex × Ex) := (List.range n).map (fun i => (S "$Line", .int ((i + 1 : Nat) : Int)))

theorem inDefs_snoc (e : Ex) : ∀ (es : List Ex) (n : Nat), inDefs n (es ++ [e]) = inDefs n es ++ [(inOf (n + es.length), e)] ++ [(inOf (n + es.length), e)]
  | [], n => by simp [inDefs]
  | x :: es, n => by
    simp only [List.cons_append, inDefs, inDefs_snoc e es (n + 1), List.length_cons]
    have : n + 1 + es.length = n + (es.length + 1) := by omega
    rw [this]

theorem outDefs_snoc (e : Ex) : ∀ (es : List Ex) (n : Nat), outDefs n (es ++ [e]) = outDefs n es ++ [(outOf (n + es.length), e)]
  | [], n => by simp [outDefs]
  | x :: es, n => by
    simp only [List.cons_append, outDefs, outDefs_snoc e es (n + 1), List.length_cons]
    have : n + 1 + es.length = n + (es.length + 1) := by omega
    rw [this]

theorem inDefs_mem {l r : Ex} : ∀ {es : List Ex} {n : Nat}, (l, r) ∈ inDefs n es ↔ ∃ i, ∃ h : i < es.length, l = inOf (n + i) ∧ r = es[i]
  | [], n => by simp [inDefs]
  | e :: es, n => by
    simp only [inDefs, List.mem_cons, Prod.mk.injEq, inDefs_mem (es := es) (n := n + 1)]
    constructor
    · rintro (h | h | ⟨i, h, h1, h2⟩)
      · exact ⟨0, by simp, by simpa using h⟩
      · exact ⟨0, by simp, by simpa using h⟩
      · exact ⟨i + 1, by simpa using h, by rw [h1]; congr 1; omega, by simpa using h2⟩
    · rintro ⟨i, h, h1, h2⟩
      cases i with
      | zero => exact Or.inl ⟨by simpa using h1, by simpa using h2⟩
      | succ i => exact Or.inr (Or.inr ⟨i, by simpa using h, by rw [h1]; congr 1; omega, by simpa using h2⟩)

theorem outDefs_mem {l r : Ex} : ∀ {es : List Ex} {n : Nat}, (l, r) ∈ outDefs n es ↔ ∃ i, ∃ h : i < es.length, l = outOf (n + i) ∧ r = es[i]
  | [], n => by simp [outDefs]
  | e :: es, n => by
    simp only [outDefs, List.mem_cons, Prod.mk.injEq, outDefs_mem (es := es) (n := n + 1)]
    constructor
    · rintro (h | ⟨i, h, h1, h2⟩)
      · exact ⟨0, by simp, by simpa using h⟩
      · exact ⟨i + 1, by simpa using h, by rw [h1]; congr 1; omega, by simpa using h2⟩
    · rintro ⟨i, h, h1, h2⟩
      cases i with
      | zero => exact Or.inl ⟨by simpa using h1, by simpa using h2⟩
      | succ i => exact Or.inr ⟨i, by simpa using h, by rw [h1]; congr 1; omega, by simpa using h2⟩

theorem lineDefs_succ (n : Nat) : lineDefs (n + 1) = lineDefs n ++ [(S "$Line", .int ((n + 1 : Nat) : Int))] := by
  simp [lineDefs, List.range_succ]

theorem lineDefs_last (n : Nat) : lastValue (lineDefs (n + 1)) "System`$Line" = some (.int ((n + 1 : Nat) : Int)) := by
  rw [lineDefs_succ]
  simp [lastValue, S]

/-- The state of a session in which the inputs `ins` have been evaluated to `outs`. -/
structure History (st : EState) (ins outs : List Ex) : Prop where
  frozen : st.frozen = false
  inRules : RulesInv (inDefs 1 ins) "System`In" (rulesFor st.toDState "System`In")
  outRules : RulesInv (outDefs 1 outs) "System`Out" (rulesFor st.toDState "System`Out")
  line : RulesInv (lineDefs (ins.length + 1)) "System`$Line" (rulesFor st.toDState "System`$Line")
  print : getSymDef st.toDState "System`$PrePrint" = none
  len : outs.length = ins.length
  inOk : ∀ e ∈ ins, MaskOk e
  outOk : ∀ e ∈ outs, MaskOk e

/-- What the evaluator must leave alone: the symbols `In`, `Out`, `$Line` and `$PrePrint`. -/
def Untouched (st st' : EState) : Prop := st'.frozen = st.frozen ∧ ∀ n ∈ ["System`In", "System`Out", "System`$Line", "System`$PrePrint"], st'.defs n = st.defs n

theorem History.move {st st' : EState} {ins outs : List Ex} (h : History st ins outs) (hu : Untouched st st') : History st' ins outs := by
  obtain ⟨hf, hn⟩ := hu
  have e : ∀ n ∈ ["System`In", "System`Out", "System`$Line", "System`$PrePrint"], rulesFor st'.toDState n = rulesFor st.toDState n := by
    intro n h
    simp only [rulesFor, hn n h]
  refine ⟨by rw [hf]; exact h.frozen, ?_, ?_, ?_, ?_, h.len, h.inOk, h.outOk⟩
  · rw [e _ (by simp)]; exact h.inRules
  · rw [e _ (by simp)]; exact h.outRules
  · rw [e _ (by simp)]; exact h.line
  · simp only [getSymDef, hn "System`$PrePrint" (by simp)]
    exact h.print

theorem line_target : targetName (S "$Line") = some "System`$Line" := by decide +kernel

theorem History.lineValue {st : EState} {ins outs : List Ex} (h : History st ins outs) :
    getSymDef st.toDState "System`$Line" = some (.int ((ins.length + 1 : Nat) : Int)) := by
  have hall : ∀ d ∈ lineDefs (ins.length + 1), d.1 = S "$Line" ∧ Unconditional d.2 := by
    intro d hd
    simp only [lineDefs, List.mem_map] at hd
    obtain ⟨i, _, rfl⟩ := hd
    refine ⟨rfl, rfl, ?_⟩
    intro s vars body e
    cases e
  have h1 := getSymDef_last h.line (by decide) (fun d hd _ => (hall d hd).2) (fun d hd _ => (hall d hd).1)
  rw [lineDefs_last] at h1
  unfold getSymDef
  unfold rulesFor at h1
  cases hd : st.defs "System`$Line" with
  | none => rw [hd] at h1; simp at h1
  | some d => rw [hd] at h1; simpa using h1

theorem assign_step {L : SessionLib} {st : EState} {h : List (Ex × Ex)} {l r : Ex} {name : String} (hf : st.frozen = false)
    (hI : RulesInv h name (rulesFor st.toDState name)) (hmh : ∀ d ∈ h, MaskOk d.2) (hm : MaskOk r) (ht : targetName l = some name) :
    ∃ st', assign L st l r = .ok st' ∧ st'.frozen = false ∧ RulesInv (h ++ [(l, r)]) name (rulesFor st'.toDState name) ∧
      (∀ n, n ≠ name → st'.defs n = st.defs n) ∧ st'.thrown = st.thrown ∧ st'.interrupted = st.interrupted := by
  obtain ⟨rs', h1, h2⟩ := rulesInv_step (strLen := L.strLen) hI hmh hm ht
  obtain ⟨d, h3, h4, h5, h6, _⟩ := define_rule hf (targetName_eq ht) h1
  refine ⟨{ st with toDState := d }, ?_, h4, ?_, h6, rfl, rfl⟩
  · simp only [assign, h3, Res.ofOption, Res.bind]
  · simp only [h5 name, if_true]
    exact h2

theorem rulesFor_of {st st' : EState} {n : String} (h : st'.defs n = st.defs n) : rulesFor st'.toDState n = rulesFor st.toDState n := by
  simp only [rulesFor, h]

theorem in_target (n : Nat) : targetName (inOf n) = some "System`In" := by
  simp [targetName, targetOf, inOf, S]

theorem out_target (n : Nat) : targetName (outOf n) = some "System`Out" := by
  simp [targetName, targetOf, outOf, S]

theorem inDefs_ok {ins : List Ex} (h : ∀ e ∈ ins, MaskOk e) (n : Nat) : ∀ d ∈ inDefs n ins, MaskOk d.2 := by
  rintro ⟨l, r⟩ hd
  obtain ⟨i, hi, _, rfl⟩ := inDefs_mem.1 hd
  exact h _ (List.getElem_mem _)

theorem outDefs_ok {outs : List Ex} (h : ∀ e ∈ outs, MaskOk e) (n : Nat) : ∀ d ∈ outDefs n outs, MaskOk d.2 := by
  rintro ⟨l, r⟩ hd
  obtain ⟨i, hi, _, rfl⟩ := outDefs_mem.1 hd
  exact h _ (List.getElem_mem _)

theorem maskOk_of {e : Ex} (h : Unconditional e) : MaskOk e := by simp [MaskOk, mask_unconditional h]

theorem int_ok (i : Int) : MaskOk (.int i) := by simp [MaskOk, mask_unconditional (rhs := .int i) ⟨rfl, by intro s v b e; cases e⟩]

/-- The conditions on the evaluator, for inputs in `P` and values in `Q`. -/
structure Plays (L : SessionLib) (P Q : Ex → Prop) : Prop where
  /-- evaluation leaves `In`, `Out`, `$Line`, `$PrePrint` alone -/
  frame : ∀ st e st' v, P e ∨ Q e → L.ev st e = .ok (st', v) → Untouched st st'
  /-- nobody presses Ctrl-C -/
  calm : ∀ st e st' v, P e ∨ Q e → L.ev st e = .ok (st', v) → st'.interrupted = st.interrupted
  /-- the results are values -/
  value : ∀ st e st' v, P e → L.ev st e = .ok (st', v) → st'.thrown = none → Q v
  /-- `Hold[t]` is a value if the thing `t` is thrown by an input -/
  held : ∀ st e st' v t, P e → st.thrown = none → L.ev st e = .ok (st', v) → st'.thrown = some t → Q (.expr [S "Hold", t])
  /-- values evaluate to themselves -/
  again : ∀ st v st' w, Q v → L.ev st v = .ok (st', w) → w = v ∧ st'.thrown = st.thrown
  ok : ∀ v, P v ∨ Q v → MaskOk v
  succ : ∀ n : Int, L.succ (.int n) = .int (n + 1)

theorem processTop_step {L : SessionLib} {P Q : Ex → Prop} (hL : Plays L P Q) {st st' : EState} {ins outs : List Ex} {e v res : Ex} (h : History st ins outs)
    (hi : st.interrupted = false) (he : MaskOk e) (hv : st.thrown = none → Q v) (ht : ∀ t, st.thrown = some t → Q (.expr [S "Hold", t])) (hp : processTop L st e v = .ok (st', res)) :
    History st' (ins ++ [e]) (outs ++ [res]) ∧ st'.interrupted = false ∧ st'.thrown = none := by
  unfold processTop at hp
  have htop : Untouched st (topLevel st v).1 ∧ (topLevel st v).1.thrown = none ∧ (topLevel st v).1.interrupted = false ∧ Q (topLevel st v).2 := by
    unfold topLevel
    split
    · rename_i t h1
      exact ⟨⟨rfl, fun _ _ => rfl⟩, rfl, hi, ht t h1⟩
    · rename_i h1
      exact ⟨⟨rfl, fun _ _ => rfl⟩, h1, rfl, hv h1⟩
  obtain ⟨hu, ht0, hi0, hq⟩ := htop
  simp only at hp
  generalize topLevel st v = tl at hp hu ht0 hi0 hq
  obtain ⟨st0, out⟩ := tl
  simp only at hp hu ht0 hi0 hq
  have h0 := h.move hu
  rw [h0.lineValue] at hp
  simp only at hp
  obtain ⟨st1, a1, f1, r1, o1, t1, i1⟩ := assign_step (L := L) h0.frozen h0.inRules (inDefs_ok h0.inOk 1) he (in_target (ins.length + 1))
  have hmid : ∀ d ∈ inDefs 1 ins ++ [(inOf (ins.length + 1), e)], MaskOk d.2 := by
    intro d hd
    rcases List.mem_append.1 hd with hd | hd
    · exact inDefs_ok h0.inOk 1 d hd
    · simp only [List.mem_singleton] at hd
      subst hd
      exact he
  obtain ⟨st2, a2, f2, r2, o2, t2, i2⟩ := assign_step (L := L) f1 r1 hmid he (in_target (ins.length + 1))
  have hIn : recordIn L st0 (.int ((ins.length + 1 : Nat) : Int)) e = .ok st2 := by
    unfold recordIn
    change (assign L st0 (inOf (ins.length + 1)) e).bind _ = _
    rw [a1]
    exact a2
  rw [hIn] at hp
  simp only [Res.bind] at hp
  have hother : ∀ n, n ≠ "System`In" → st2.defs n = st0.defs n := fun n hn => (o2 n hn).trans (o1 n hn)
  have hout2 : RulesInv (outDefs 1 outs) "System`Out" (rulesFor st2.toDState "System`Out") := by
    rw [rulesFor_of (hother _ (by decide))]; exact h0.outRules
  have hline2 : RulesInv (lineDefs (ins.length + 1)) "System`$Line" (rulesFor st2.toDState "System`$Line") := by
    rw [rulesFor_of (hother _ (by decide))]; exact h0.line
  have hpr2 : getSymDef st2.toDState "System`$PrePrint" = none := by
    have := h0.print
    simp only [getSymDef] at this ⊢
    rw [hother _ (by decide)]
    exact this
  have hin2 : RulesInv (inDefs 1 (ins ++ [e])) "System`In" (rulesFor st2.toDState "System`In") := by
    rw [inDefs_snoc, show 1 + ins.length = ins.length + 1 by omega]
    exact r2
  cases hev : L.ev st2 out with
  | stuck => simp [recordOut, hev, Res.bind] at hp
  | panic => simp [recordOut, hev, Res.bind] at hp
  | ok q =>
    obtain ⟨st3, w⟩ := q
    obtain ⟨rfl, ht3'⟩ := hL.again _ _ _ _ hq hev
    have ht3 : st3.thrown = none := by rw [ht3', t2, t1]; exact ht0
    obtain ⟨u3, n3⟩ := hL.frame _ _ _ _ (Or.inr hq) hev
    have c3 : st3.interrupted = false := by rw [hL.calm _ _ _ _ (Or.inr hq) hev, i2, i1]; exact hi0
    have f3 : st3.frozen = false := by rw [u3]; exact f2
    have hout3 : RulesInv (outDefs 1 outs) "System`Out" (rulesFor st3.toDState "System`Out") := by
      rw [rulesFor_of (n3 _ (by simp))]; exact hout2
    obtain ⟨st4, a4, f4, r4, o4, t4, i4⟩ := assign_step (L := L) f3 hout3 (outDefs_ok h0.outOk 1) (hL.ok w (Or.inr hq)) (out_target (ins.length + 1))
    have hO : recordOut L st2 (.int ((ins.length + 1 : Nat) : Int)) w = .ok st4 := by
      simp only [recordOut, hev, Res.bind, ht3]
      exact a4
    rw [hO] at hp
    simp only at hp
    have hpr4 : getSymDef st4.toDState "System`$PrePrint" = none := by
      simp only [getSymDef] at hpr2 ⊢
      rw [o4 _ (by decide), n3 _ (by simp)]
      exact hpr2
    have hP : prePrint L st4 w = .ok (st4, w) := by simp only [prePrint, hpr4]
    rw [hP] at hp
    simp only at hp
    have hline4 : RulesInv (lineDefs (ins.length + 1)) "System`$Line" (rulesFor st4.toDState "System`$Line") := by
      rw [rulesFor_of (o4 _ (by decide)), rulesFor_of (n3 _ (by simp))]; exact hline2
    have hlv : getSymDef st4.toDState "System`$Line" = some (.int ((ins.length + 1 : Nat) : Int)) := by
      have := h0.lineValue
      simp only [getSymDef] at this ⊢
      rw [o4 _ (by decide), n3 _ (by simp), hother _ (by decide)]
      exact this
    have hlok : ∀ d ∈ lineDefs (ins.length + 1), MaskOk d.2 := by
      intro d hd
      simp only [lineDefs, List.mem_map] at hd
      obtain ⟨i, _, rfl⟩ := hd
      exact int_ok _
    obtain ⟨st5, a5, f5, r5, o5, t5, i5⟩ := assign_step (L := L) f4 hline4 hlok (int_ok ((ins.length + 1 : Nat) + 1 : Int)) line_target
    have hN : nextLine L st4 = .ok st5 := by
      simp only [nextLine, t4, ht3, i4, c3, hlv, hL.succ]
      exact a5
    rw [hN] at hp
    simp only [Res.ok.injEq, Prod.mk.injEq] at hp
    obtain ⟨rfl, rfl⟩ := hp
    refine ⟨⟨f5, ?_, ?_, ?_, ?_, by simp [h.len], ?_, ?_⟩, by rw [i5, i4]; exact c3, by rw [t5, t4]; exact ht3⟩
    · rw [rulesFor_of (o5 _ (by decide)), rulesFor_of (o4 _ (by decide)), rulesFor_of (n3 _ (by simp))]; exact hin2
    · rw [rulesFor_of (o5 _ (by decide)), outDefs_snoc, show 1 + outs.length = ins.length + 1 by rw [h.len]; omega]; exact r4
    · rw [List.length_append, List.length_singleton, lineDefs_succ]
      simpa using r5
    · simp only [getSymDef] at hpr4 ⊢
      rw [o5 _ (by decide)]
      exact hpr4
    · intro x hx
      rcases List.mem_append.1 hx with hx | hx
      · exact h.inOk x hx
      · simp only [List.mem_singleton] at hx; subst hx; exact he
    · intro x hx
      rcases List.mem_append.1 hx with hx | hx
      · exact h.outOk x hx
      · simp only [List.mem_singleton] at hx; subst hx; exact hL.ok _ (Or.inr hq)

theorem session_history {L : SessionLib} {P Q : Ex → Prop} (hL : Plays L P Q) : ∀ (es ins outs : List Ex) (st st' : EState) (rs : List Ex), History st ins outs →
    st.interrupted = false → st.thrown = none → (∀ e ∈ es, P e) → session L st es = .ok (st', rs) → History st' (ins ++ es) (outs ++ rs)
  | [], ins, outs, st, st', rs, h, _, _, _, hs => by
    simp only [session, Res.ok.injEq, Prod.mk.injEq] at hs
    obtain ⟨rfl, rfl⟩ := hs
    simpa using h
  | e :: es, ins, outs, st, st', rs, h, hi, ht, he, hs => by
    simp only [session] at hs
    cases hev : L.ev st e with
    | stuck => simp [hev, Res.bind] at hs
    | panic => simp [hev, Res.bind] at hs
    | ok q =>
      obtain ⟨st1, v⟩ := q
      simp only [hev, Res.bind] at hs
      cases hp : processTop L st1 e v with
      | stuck => simp [hp] at hs
      | panic => simp [hp] at hs
      | ok p =>
        obtain ⟨st2, r⟩ := p
        simp only [hp] at hs
        have hP := he e (by simp)
        have ⟨h2, hi2, ht2⟩ := processTop_step hL (h.move (hL.frame _ _ _ _ (Or.inl hP) hev)) ((hL.calm _ _ _ _ (Or.inl hP) hev).trans hi) (hL.ok e (Or.inl hP)) (hL.value _ _ _ _ hP hev)
          (fun t => hL.held _ _ _ _ t hP ht hev) hp
        cases hn : session L st2 es with
        | stuck => simp [hn] at hs
        | panic => simp [hn] at hs
        | ok q =>
          simp only [hn, Res.ok.injEq, Prod.mk.injEq] at hs
          obtain ⟨rfl, rfl⟩ := hs
          have := session_history hL es (ins ++ [e]) (outs ++ [r]) st2 _ _ h2 hi2 ht2 (fun x hx => he x (by simp [hx])) hn
          simpa using this

/-- The state at the start: `$Line` is 1 and there is no history. -/
structure FirstLine (st : EState) : Prop where
  frozen : st.frozen = false
  calm : st.interrupted = false
  unthrown : st.thrown = none
  noIns : rulesFor st.toDState "System`In" = []
  noOuts : rulesFor st.toDState "System`Out" = []
  line : rulesFor st.toDState "System`$Line" = [{ lhs := held (S "$Line"), rhs := .int 1 }]
  print : getSymDef st.toDState "System`$PrePrint" = none

theorem FirstLine.history {st : EState} (h : FirstLine st) : History st [] [] := by
  refine ⟨h.frozen, ?_, ?_, ?_, h.print, rfl, by simp, by simp⟩
  · rw [h.noIns]; exact rulesInv_nil _
  · rw [h.noOuts]; exact rulesInv_nil _
  · rw [h.line]
    obtain ⟨rs', h1, h2⟩ := rulesInv_step (strLen := fun _ => 0) (rulesInv_nil "System`$Line") (by simp) (int_ok 1) line_target
    have h3 : defineRule (fun _ => 0) "System`$Line" (held (S "$Line")) (.int 1) [] = some [{ lhs := held (S "$Line"), rhs := .int 1 }] := by decide +kernel
    rw [h3] at h1
    simp only [Option.some.injEq] at h1
    subst h1
    exact h2

/-- C111. After a session of `k` inputs the rules of `In` are `In[i] := input i`, those of `Out` are `Out[i] = output i`, for `i` from 1 to `k`, and `$Line`
is `k + 1`. -/
theorem C111_history_partial (L : SessionLib) (P Q : Ex → Prop) (hL : Plays L P Q) (st st' : EState) (ins outs : List Ex) (h : FirstLine st)
    (hok : ∀ e ∈ ins, P e) (hh : ∀ i j : Nat, hash (held (inOf i)) = hash (held (inOf j)) ∨ hash (held (outOf i)) = hash (held (outOf j)) →
      i ≤ ins.length → j ≤ ins.length → i = j)
    (hs : session L st ins = .ok (st', outs)) :
    outs.length = ins.length ∧ getSymDef st'.toDState "System`$Line" = some (.int ((ins.length + 1 : Nat) : Int)) ∧
      (∀ l r, (∃ dv ∈ rulesFor st'.toDState "System`In", dv.lhs = l ∧ dv.rhs = r) ↔ ∃ i, ∃ h : i < ins.length, l = held (inOf (i + 1)) ∧ r = ins[i]) ∧
      (∀ l r, (∃ dv ∈ rulesFor st'.toDState "System`Out", dv.lhs = l ∧ dv.rhs = r) ↔ ∃ i, ∃ h : i < outs.length, l = held (outOf (i + 1)) ∧ r = outs[i]) := by
  have hH := session_history hL ins [] [] st st' outs h.history h.calm h.unthrown hok hs
  simp only [List.nil_append] at hH
  refine ⟨hH.len, hH.lineValue, ?_, ?_⟩
  · intro l r
    rw [rules_iff hH.inRules]
    · constructor
      · rintro ⟨⟨l', r'⟩, hd, rfl, rfl⟩
        obtain ⟨i, hi, e1, e2⟩ := inDefs_mem.1 hd
        exact ⟨i, hi, by simp only [e1]; rw [Nat.add_comm], e2⟩
      · rintro ⟨i, hi, rfl, rfl⟩
        exact ⟨(inOf (i + 1), ins[i]), inDefs_mem.2 ⟨i, hi, by rw [Nat.add_comm], rfl⟩, rfl, rfl⟩
    · rintro ⟨l', r'⟩ hd
      obtain ⟨i, hi, rfl, _⟩ := inDefs_mem.1 hd
      exact in_target _
    · rintro ⟨l1, r1⟩ hd1 ⟨l2, r2⟩ hd2 he
      obtain ⟨i, hi, rfl, rfl⟩ := inDefs_mem.1 hd1
      obtain ⟨j, hj, rfl, rfl⟩ := inDefs_mem.1 hd2
      have : 1 + i = 1 + j := hh _ _ (Or.inl he) (by omega) (by omega)
      have e : i = j := by omega
      subst e
      rfl
  · intro l r
    have hlen := hH.len
    rw [rules_iff hH.outRules]
    · constructor
      · rintro ⟨⟨l', r'⟩, hd, rfl, rfl⟩
        obtain ⟨i, hi, e1, e2⟩ := outDefs_mem.1 hd
        exact ⟨i, hi, by simp only [e1]; rw [Nat.add_comm], e2⟩
      · rintro ⟨i, hi, rfl, rfl⟩
        exact ⟨(outOf (i + 1), outs[i]), outDefs_mem.2 ⟨i, hi, by rw [Nat.add_comm], rfl⟩, rfl, rfl⟩
    · rintro ⟨l', r'⟩ hd
      obtain ⟨i, hi, rfl, _⟩ := outDefs_mem.1 hd
      exact out_target _
    · rintro ⟨l1, r1⟩ hd1 ⟨l2, r2⟩ hd2 he
      obtain ⟨i, hi, rfl, rfl⟩ := outDefs_mem.1 hd1
      obtain ⟨j, hj, rfl, rfl⟩ := outDefs_mem.1 hd2
      have : 1 + i = 1 + j := hh _ _ (Or.inr he) (by omega) (by omega)
      have e : i = j := by omega
      subst e
      rfl

theorem assign_others {L : SessionLib} {st st' : EState} {l r : Ex} {name : String} (ht : targetName l = some name) (h : assign L st l r = .ok st') :
    (∀ n, n ≠ name → st'.defs n = st.defs n) ∧ st'.thrown = st.thrown ∧ st'.sown = st.sown := by
  unfold assign at h
  cases hd : define L.strLen st.toDState l r with
  | none => simp [hd, Res.ofOption, Res.bind] at h
  | some d =>
    simp only [hd, Res.ofOption, Res.bind, Res.ok.injEq] at h
    subst h
    refine ⟨?_, rfl, rfl⟩
    intro n hn
    unfold define at hd
    rw [targetName_eq ht] at hd
    split at hd
    · cases hd; rfl
    · simp only at hd
      split at hd
      · cases hd
        simp [Table.set, hn]
      · simp only [Option.map_eq_some_iff] at hd
        obtain ⟨x, _, rfl⟩ := hd
        simp [Table.set, hn]

theorem prePrint_others {L : SessionLib} {st : EState} {res f : Ex} (hf : getSymDef st.toDState "System`$PrePrint" = some f) :
    prePrint L st res = L.ev st (.expr [f, res]) := by simp only [prePrint, hf]

theorem nextLine_others {L : SessionLib} {st st' : EState} (h : nextLine L st = .ok st') :
    (∀ n, n ≠ "System`$Line" → st'.defs n = st.defs n) ∧ st'.thrown = st.thrown ∧ st'.sown = st.sown := by
  unfold nextLine at h
  cases ht : st.thrown with
  | some t => simp only [ht, Res.ok.injEq] at h; subst h; exact ⟨fun _ _ => rfl, ht, rfl⟩
  | none =>
    simp only [ht] at h
    rw [← ht]
    split at h
    · simp only [Res.ok.injEq] at h; subst h; exact ⟨fun _ _ => rfl, rfl, rfl⟩
    · cases hg : getSymDef st.toDState "System`$Line" with
      | some l => simp only [hg] at h; exact assign_others line_target h
      | none => simp only [hg] at h; exact assign_others line_target h

/-- C111. With a value `f` of `$PrePrint`, what is printed is the value of `f[result]`, `$PrePrint` being the one after the result is evaluated again, and the
effects of its evaluation (apart from those on `$Line`) are kept. -/
theorem C111_preprint (L : SessionLib) (st st' : EState) (inp out res f : Ex) (hp : processTop L st inp out = .ok (st', res)) (ht : st.thrown = none)
    (hf : ∀ st2 st3 w, (∀ n, n ≠ "System`In" → st2.defs n = st.defs n) → L.ev st2 out = .ok (st3, w) →
      getSymDef st3.toDState "System`$PrePrint" = some f) :
    ∃ st2 st3, L.ev st2 (.expr [f, out]) = .ok (st3, res) ∧ (∀ n, n ≠ "System`$Line" → st'.defs n = st3.defs n) ∧ st'.thrown = st3.thrown ∧
      st'.sown = st3.sown := by
  unfold processTop at hp
  simp only [topLevel, ht] at hp
  cases hl : getSymDef st.toDState "System`$Line" with
  | none => simp [hl] at hp
  | some line =>
    simp only [hl] at hp
    obtain ⟨st1, h1, hp⟩ := Res.bind_ok hp
    obtain ⟨st2, h2, hp⟩ := Res.bind_ok hp
    obtain ⟨p3, h3, hp⟩ := Res.bind_ok hp
    obtain ⟨st4, h4, hp⟩ := Res.bind_ok hp
    simp only [Res.ok.injEq, Prod.mk.injEq] at hp
    obtain ⟨rfl, rfl⟩ := hp
    have tIn : targetName (.expr [S "In", line]) = some "System`In" := by simp [targetName, targetOf, S]
    have tOut : targetName (.expr [S "Out", line]) = some "System`Out" := by simp [targetName, targetOf, S]
    obtain ⟨sa, ha, hb⟩ := Res.bind_ok h1
    have hIn : ∀ n, n ≠ "System`In" → st1.defs n = st.defs n := fun n hn => ((assign_others tIn hb).1 n hn).trans ((assign_others tIn ha).1 n hn)
    obtain ⟨⟨sc, w⟩, hc, hd⟩ := Res.bind_ok h2
    have hPP : getSymDef st2.toDState "System`$PrePrint" = some f := by
      have := hf _ _ _ hIn hc
      simp only at hd
      cases htc : sc.thrown with
      | some t => simp only [htc, Res.ok.injEq] at hd; subst hd; exact this
      | none =>
        simp only [htc] at hd
        simp only [getSymDef] at this ⊢
        rw [(assign_others tOut hd).1 _ (by decide)]
        exact this
    rw [prePrint_others hPP] at h3
    obtain ⟨st3, r⟩ := p3
    exact ⟨st2, st3, h3, nextLine_others h4⟩

/-! ### A concrete session, and what goes wrong outside of the conditions -/

/-- A small evaluator: numbers are values, `x` is 7, `y` throws 3, `Clear[$Line]` removes the value of `$Line`, and Ctrl-C is pressed while `z` throws 4. -/
def toyEv : Evaluator := fun st e =>
  match e with
  | .sym "x" => .ok (st, .int 7)
  | .sym "y" => .ok ({ st with thrown := some (.int 3) }, e)
  | .sym "z" => .ok ({ st with thrown := some (.int 4), interrupted := true }, e)
  | .expr [.sym "System`Clear", .sym n] =>
    .ok ({ st with toDState := clear st.toDState n }, S "Null")
  | _ => .ok (st, e)

def toyL : SessionLib := { ev := toyEv, strLen := fun _ => 0 }

def toyState : EState := { defs := fun n => if n = "System`$Line" then some { downvalues := [{ lhs := held (S "$Line"), rhs := .int 1 }] } else none }

/-- The rules of a symbol after a session. -/
def sessionRules (n : String) (r : Res (EState × List Ex)) : Option (List (Ex × Ex)) :=
  match r with
  | .ok (st, _) => some ((rulesFor st.toDState n).map (fun dv => (dv.lhs, dv.rhs)))
  | _ => none

def sessionOuts (r : Res (EState × List Ex)) : Option (List Ex) :=
  match r with
  | .ok (_, l) => some l
  | _ => none

/-- The inputs of the example, and the values. -/
def ToyIn (e : Ex) : Prop := e = .sym "x" ∨ e = .sym "y" ∨ ∃ n : Int, e = .int n
def ToyVal (e : Ex) : Prop := (∃ n : Int, e = .int n) ∨ ∃ n : Int, e = .expr [S "Hold", .int n]

theorem toy_quiet {st st' : EState} {e v : Ex} (he : ToyIn e ∨ ToyVal e) (h : toyEv st e = .ok (st', v)) :
    st' = { st with thrown := st'.thrown } := by
  rcases he with (rfl | rfl | ⟨n, rfl⟩) | (⟨n, rfl⟩ | ⟨n, rfl⟩) <;> simp [toyEv, S] at h <;> obtain ⟨rfl, rfl⟩ := h <;> rfl

/-- The conditions hold for a concrete evaluator that looks up a value and throws. -/
theorem toy_plays : Plays toyL ToyIn ToyVal where
  frame := by
    intro st e st' v he h
    rw [toy_quiet he h]
    exact ⟨rfl, fun _ _ => rfl⟩
  calm := by
    intro st e st' v he h
    rw [toy_quiet he h]
  value := by
    rintro st e st' v (rfl | rfl | ⟨n, rfl⟩) h ht
    · simp [toyL, toyEv] at h
      exact Or.inl ⟨7, h.2.symm⟩
    · simp [toyL, toyEv] at h
      rw [← h.1] at ht
      simp at ht
    · simp [toyL, toyEv] at h
      exact Or.inl ⟨n, h.2.symm⟩
  held := by
    rintro st e st' v t (rfl | rfl | ⟨n, rfl⟩) h0 h ht
    · simp [toyL, toyEv] at h
      rw [← h.1, h0] at ht
      cases ht
    · simp [toyL, toyEv] at h
      rw [← h.1] at ht
      simp at ht
      exact Or.inr ⟨3, by rw [ht]⟩
    · simp [toyL, toyEv] at h
      rw [← h.1, h0] at ht
      cases ht
  again := by
    rintro st v st' w (⟨n, rfl⟩ | ⟨n, rfl⟩) h <;> simp [toyL, toyEv, S] at h <;> obtain ⟨rfl, rfl⟩ := h <;> exact ⟨rfl, rfl⟩
  ok := by
    rintro v ((rfl | rfl | ⟨n, rfl⟩) | (⟨n, rfl⟩ | ⟨n, rfl⟩)) <;> exact maskOk_of ⟨rfl, by intro s v b e; cases e⟩
  succ := fun _ => rfl

/-- The evaluator and the state of the example meet the hypotheses of `C111_history_partial`, and the session runs: `x`, `y` (throws 3), `5`. -/
example : Plays toyL ToyIn ToyVal ∧ FirstLine toyState ∧ (∀ e ∈ [.sym "x", .sym "y", .int 5], ToyIn e) ∧
    sessionOuts (session toyL toyState [.sym "x", .sym "y", .int 5]) = some [.int 7, .expr [S "Hold", .int 3], .int 5] ∧
    sessionRules "System`In" (session toyL toyState [.sym "x", .sym "y", .int 5]) =
      some [(held (inOf 1), .sym "x"), (held (inOf 2), .sym "y"), (held (inOf 3), .int 5)] ∧
    sessionRules "System`Out" (session toyL toyState [.sym "x", .sym "y", .int 5]) =
      some [(held (outOf 1), .int 7), (held (outOf 2), .expr [S "Hold", .int 3]), (held (outOf 3), .int 5)] := by
  refine ⟨toy_plays, ⟨rfl, rfl, rfl, rfl, rfl, rfl, rfl⟩, ?_, by decide +kernel, by decide +kernel, by decide +kernel⟩
  intro e he
  simp only [List.mem_cons, List.not_mem_nil, or_false] at he
  rcases he with rfl | rfl | rfl
  · exact Or.inl rfl
  · exact Or.inr (Or.inl rfl)
  · exact Or.inr (Or.inr ⟨5, rfl⟩)

/-- The fingerprints of `In[1]`, ..., `In[3]` differ. -/
example : ∀ i ∈ List.range 4, ∀ j ∈ List.range 4, hash (held (inOf i)) = hash (held (inOf j)) → i = j := by decide +kernel

/-- C111. `Clear[$Line]` crashes the session, whatever the state and the evaluator: once `$Line` has no value there is no next prompt. -/
theorem C111_cleared_line_crashes (L : SessionLib) (st : EState) (inp out : Ex) (h : getSymDef st.toDState "System`$Line" = none) :
    processTop L st inp out = .panic := by
  have h' : getSymDef (topLevel st out).1.toDState "System`$Line" = none := by
    unfold topLevel
    split <;> exact h
  simp only [processTop, h']

/-- It is reached: one input suffices. -/
example : session toyL toyState [.expr [S "Clear", S "$Line"], .int 5] = .panic := by
  have h : getSymDef (clear toyState.toDState "System`$Line") "System`$Line" = none := by decide +kernel
  have e : toyEv toyState (.expr [S "Clear", S "$Line"]) = .ok ({ toyState with toDState := clear toyState.toDState "System`$Line" }, S "Null") := rfl
  simp only [session, toyL, e, Res.bind]
  rw [C111_cleared_line_crashes _ _ _ _ h]

/-- C111. An interrupt together with an uncaught throw: the flag of the interrupt is not cleared, `$Line` stays, and the next input overwrites the
entries `In[1]` and `Out[1]` of the history. -/
theorem C111_interrupted_throw_overwrites :
    sessionRules "System`In" (session toyL toyState [.sym "z", .sym "x"]) = some [(held (inOf 1), .sym "x")] ∧
    sessionRules "System`Out" (session toyL toyState [.sym "z", .sym "x"]) = some [(held (outOf 1), .int 7)] ∧
    sessionOuts (session toyL toyState [.sym "z", .sym "x"]) = some [.expr [S "Hold", .int 4], .int 7] := by
  refine ⟨?_, ?_, ?_⟩ <;> decide +kernel

/-- An evaluator with `$PrePrint`: `F[n]` is `n + 1`. -/
def printEv : Evaluator := fun st e =>
  match e with
  | .expr [.sym "F", .int n] => .ok (st, .int (n + 1))
  | _ => .ok (st, e)

def printState : EState := { toyState with defs := toyState.defs.set "System`$PrePrint" { downvalues := [{ lhs := held (S "$PrePrint"), rhs := .sym "F" }] } }

/-- The hypothesis of `C111_preprint` holds here; 6 is printed and `Out[1]` is 5. -/
example : (∀ st2 st3 w, (∀ n, n ≠ "System`In" → st2.defs n = printState.defs n) → printEv st2 (.int 5) = .ok (st3, w) →
      getSymDef st3.toDState "System`$PrePrint" = some (.sym "F")) ∧
    sessionOuts (session { ev := printEv, strLen := fun _ => 0 } printState [.int 5]) = some [.int 6] ∧
    sessionRules "System`Out" (session { ev := printEv, strLen := fun _ => 0 } printState [.int 5]) = some [(held (outOf 1), .int 5)] := by
  refine ⟨?_, by decide +kernel, by decide +kernel⟩
  intro st2 st3 w h1 h2
  simp only [printEv, Res.ok.injEq, Prod.mk.injEq] at h2
  obtain ⟨rfl, _⟩ := h2
  simp only [getSymDef, h1 "System`$PrePrint" (by decide)]
  decide +kernel

end Expreduce
