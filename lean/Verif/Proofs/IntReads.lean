import Verif.Proofs.SolveEnd
import Verif.Proofs.DiffFun
import Verif.Spec.Integral

/-! What the functions that an expression stands for say about its parts. -/

namespace Expreduce
open Ex Shipped Filter

section
variable {I : ℂ → Interp} {x : String}

theorem noOpen_part {ps : List Ex} {a : Ex} (h : noOpen (.expr ps) = true) (ha : a ∈ ps) : noOpen a = true := by
  unfold noOpen at *
  rw [List.all_eq_true] at *
  exact fun b hb => h b (pieces_arg ha hb)

theorem noOpen_head {s : String} {ps : List Ex} (h : noOpen (.expr (.sym s :: ps)) = true) : s ∉ openHeads := by
  intro hs
  unfold noOpen at h
  rw [List.all_eq_true] at h
  have := h _ (pieces_self _)
  rw [List.all_eq_true] at this
  have := this s hs
  simp [hasHead] at this

theorem open_int (u y : Ex) : noOpen (intOf u y) = false := by
  cases h : noOpen (intOf u y) with
  | false => rfl
  | true => exact absurd (noOpen_head h) (by decide)
theorem open_content (u y : Ex) : noOpen (contentOf u y) = false := by
  cases h : noOpen (contentOf u y) with
  | false => rfl
  | true => exact absurd (noOpen_head h) (by decide)
theorem open_expand (u y : Ex) : noOpen (expandOf u y) = false := by
  cases h : noOpen (expandOf u y) with
  | false => rfl
  | true => exact absurd (noOpen_head h) (by decide)

theorem den_all {es : List Ex} {Fs : List (ℂ → ℂ)} (h : List.Forall₂ (fun e F => ∀ᶠ z in mostly, (I z).Denotes e (F z)) es Fs) :
    ∀ᶠ z in mostly, List.Forall₂ (I z).Denotes es (Fs.map (· z)) := by
  induction h with
  | nil => exact .of_forall fun z => .nil
  | cons h _ ih =>
    filter_upwards [h, ih] with z h1 h2
    exact .cons h1 h2

/-- Without integrals, the function is the value. -/
theorem reads_closed_n : ∀ (n : Nat) {e : Ex} {F : ℂ → ℂ}, sizeOf e < n → noOpen e = true → Reads I x e F → ∀ᶠ z in mostly, (I z).Denotes e (F z) := by
  intro n
  induction n with
  | zero => intro e F h; omega
  | succ n ih =>
    intro e F hn ho h
    cases h with
    | plain _ h => exact h
    | @call s es Fs F hs hq hne hes hv =>
      have h' : List.Forall₂ (fun e F => ∀ᶠ z in mostly, (I z).Denotes e (F z)) es Fs := by
        rw [List.forall₂_iff_get] at hes ⊢
        refine ⟨hes.1, fun i h1 h2 => ih ?_ (noOpen_part ho (List.mem_cons_of_mem _ (List.get_mem es ⟨i, h1⟩))) (hes.2 i h1 h2)⟩
        have := List.sizeOf_lt_of_mem (List.get_mem es ⟨i, h1⟩)
        simp only [Ex.expr.sizeOf_spec, List.cons.sizeOf_spec] at hn
        omega
      filter_upwards [den_all h', hv] with z h1 h2
      exact den_app hq h1 h2
    | integral => rw [open_int] at ho; cases ho
    | content => rw [open_content] at ho; cases ho
    | expand => rw [open_expand] at ho; cases ho

theorem reads_closed {e : Ex} {F : ℂ → ℂ} (ho : noOpen e = true) (h : Reads I x e F) : ∀ᶠ z in mostly, (I z).Denotes e (F z) :=
  reads_closed_n _ (Nat.lt_succ_self _) ho h

theorem den_val {V : Interp} {e : Ex} {v : ℂ} (hq : hasHead "System`Sequence" e = false) : V.Denotes e v ↔ V.meaning.val e = some v := by
  unfold Interp.Denotes
  rw [Meaning.argVals_one _ hq]
  simp

/-- A call of another function. -/
theorem reads_app {s : String} {es : List Ex} {F : ℂ → ℂ} (hs : s ∉ openHeads) (hq : s ≠ "System`Sequence") (hne : ∀ e ∈ es, hasHead "System`Sequence" e = false)
    (h : Reads I x (.expr (.sym s :: es)) F) : ∃ Fs, List.Forall₂ (Reads I x) es Fs ∧ ∀ᶠ z in mostly, arithValue (I z) s (Fs.map (· z)) = some (F z) := by
  generalize he : Ex.expr (.sym s :: es) = e at h
  cases h with
  | plain ho h =>
    subst he
    refine ⟨es.map (fun e z => ((I z).meaning.val e).getD 0), ?_, ?_⟩
    · rw [List.forall₂_map_right_iff, List.forall₂_same]
      intro e he
      refine .plain (noOpen_part ho (List.mem_cons_of_mem _ he)) ?_
      filter_upwards [h] with z hz
      obtain ⟨vs, h1, _⟩ := den_inv hq hne hz
      obtain ⟨i, hi, rfl⟩ := List.mem_iff_getElem.1 he
      have hv := (List.forall₂_iff_get.1 h1).2 i hi ((List.forall₂_iff_get.1 h1).1 ▸ hi)
      simp only [List.get_eq_getElem] at hv
      rw [den_val (hne _ he)]
      rw [den_val (hne _ he)] at hv
      rw [hv]; rfl
    · filter_upwards [h] with z hz
      obtain ⟨vs, h1, h2⟩ := den_inv hq hne hz
      rw [List.map_map]
      have : es.map ((fun x => x z) ∘ fun e z => ((I z).meaning.val e).getD 0) = vs := by
        clear hz h2 h ho
        induction h1 with
        | nil => rfl
        | cons h _ ih =>
          rw [List.map_cons, ih (fun e he => hne e (List.mem_cons_of_mem _ he))]
          rw [den_val (hne _ (by simp))] at h
          simp [h]
      rw [this, h2]
  | call _ _ _ hes hv =>
    simp only [Ex.expr.injEq, List.cons.injEq, Ex.sym.injEq] at he
    obtain ⟨rfl, rfl⟩ := he
    exact ⟨_, hes, hv⟩
  | integral =>
    simp only [intOf, Ex.expr.injEq, List.cons.injEq, Ex.sym.injEq] at he
    exact absurd (he.1 ▸ hs) (by decide)
  | content =>
    simp only [contentOf, Ex.expr.injEq, List.cons.injEq, Ex.sym.injEq] at he
    exact absurd (he.1 ▸ hs) (by decide)
  | expand =>
    simp only [expandOf, Ex.expr.injEq, List.cons.injEq, Ex.sym.injEq] at he
    exact absurd (he.1 ▸ hs) (by decide)

theorem reads_int {u y : Ex} {F : ℂ → ℂ} (h : Reads I x (intOf u y) F) : y = .sym x ∧ ∃ G, Reads I x u G ∧ ∀ᶠ z in mostly, HasDerivAt F (G z) z := by
  generalize he : intOf u y = e at h
  cases h with
  | plain ho => rw [← he, open_int] at ho; cases ho
  | call hs =>
    simp only [intOf, Ex.expr.injEq, List.cons.injEq, Ex.sym.injEq] at he
    exact absurd (he.1 ▸ hs) (by decide)
  | integral h1 h2 =>
    simp only [intOf, Ex.expr.injEq, List.cons.injEq, and_true, true_and] at he
    obtain ⟨rfl, rfl⟩ := he
    exact ⟨rfl, _, h1, h2⟩
  | content => simp [intOf, contentOf] at he
  | expand => simp [intOf, expandOf] at he

theorem reads_content {u y : Ex} {F : ℂ → ℂ} (h : Reads I x (contentOf u y) F) :
    y = .sym x ∧ ∃ G c, Reads I x u G ∧ c ≠ 0 ∧ ∀ᶠ z in mostly, F z = c * G z := by
  generalize he : contentOf u y = e at h
  cases h with
  | plain ho => rw [← he, open_content] at ho; cases ho
  | call hs =>
    simp only [contentOf, Ex.expr.injEq, List.cons.injEq, Ex.sym.injEq] at he
    exact absurd (he.1 ▸ hs) (by decide)
  | content h1 h2 h3 =>
    simp only [contentOf, Ex.expr.injEq, List.cons.injEq, and_true, true_and] at he
    obtain ⟨rfl, rfl⟩ := he
    exact ⟨rfl, _, _, h1, h2, h3⟩
  | integral => simp [intOf, contentOf] at he
  | expand => simp [contentOf, expandOf] at he

theorem reads_expand {u y : Ex} {F : ℂ → ℂ} (h : Reads I x (expandOf u y) F) : y = .sym x ∧ Reads I x u F := by
  generalize he : expandOf u y = e at h
  cases h with
  | plain ho => rw [← he, open_expand] at ho; cases ho
  | call hs =>
    simp only [expandOf, Ex.expr.injEq, List.cons.injEq, Ex.sym.injEq] at he
    exact absurd (he.1 ▸ hs) (by decide)
  | expand h1 =>
    simp only [expandOf, Ex.expr.injEq, List.cons.injEq, and_true, true_and] at he
    obtain ⟨rfl, rfl⟩ := he
    exact ⟨rfl, h1⟩
  | integral => simp [intOf, expandOf] at he
  | content => simp [contentOf, expandOf] at he

end

/-! ### Templates -/

/-- The functions in the right sides of the rules. -/
def tmplHeads : List String := openHeads ++ ["System`Plus", "System`Times", "System`Power", "System`Log", "System`Sqrt", "System`Identity"]

/-- The symbols that are no names of the rules. -/
def fixedNames : List String := tmplHeads ++ noNumber ++ ["System`Sequence", "System`And", "System`Or", "System`IntegerQ", "System`FreeQ", "System`List", "System`Condition",
  "Rubi`Private`EqQ", "Rubi`Private`PositiveIntegerQ", "Rubi`Private`NegativeIntegerQ", "Rubi`Private`RationalQ", "Rubi`Private`PositiveQ", "System`E", "System`Pi", "System`I"]

/-- Integrals are over the variable. -/
def overVar : List Ex → Bool
  | [_, .sym y] => y == "Private`x"
  | _ => false

mutual
/-- An expression built with these functions. -/
def tmpl : Ex → Bool
  | .int _ => true
  | .rat _ _ => true
  | .sym s => s != "System`Sequence"
  | .expr (.sym s :: es) => (tmplHeads.contains s && (!openHeads.contains s || overVar es)) && tmplL es
  | _ => false
/-- The same for a list. -/
def tmplL : List Ex → Bool
  | [] => true
  | e :: es => tmpl e && tmplL es
end

theorem tmplL_mem : ∀ {es : List Ex}, tmplL es = true → ∀ e ∈ es, tmpl e = true
  | [], _, e, he => by cases he
  | a :: es, h, e, he => by
    simp only [tmplL, Bool.and_eq_true] at h
    rcases List.mem_cons.1 he with rfl | he
    · exact h.1
    · exact tmplL_mem h.2 e he

theorem tmpl_noSeq {e : Ex} (h : tmpl e = true) : hasHead "System`Sequence" e = false := by
  unfold tmpl at h
  split at h
  · rfl
  · rfl
  · rfl
  · rename_i s es
    simp only [Bool.and_eq_true, List.contains_iff_mem] at h
    replace h := h.1
    have : s ≠ "System`Sequence" := fun he => absurd (he ▸ h.1) (by decide)
    simp [hasHead, this]
  · cases h

theorem substL_map (ρ : String → Option Ex) : ∀ es, substL ρ es = es.map (subst ρ)
  | [] => rfl
  | e :: es => by rw [substL, substL_map ρ es, List.map_cons]

/-- The names stand for the values of the expressions bound to them. -/
noncomputable def famOf (V : Interp) (x : String) (ρ : String → Option Ex) (z : ℂ) : Interp :=
  { V.put x z with sym := fun s => match ρ s with
    | some w => (V.put x z).meaning.val w
    | none => (V.put x z).sym s }

/-- No fixed symbol is bound, and the expressions bound contain no integrals. -/
structure BindOk (ρ : String → Option Ex) (x : String) : Prop where
  fixed : ∀ s ∈ fixedNames, ρ s = none
  noSeq : ∀ s w, ρ s = some w → hasHead "System`Sequence" w = false
  closed : ∀ s w, ρ s = some w → noOpen w = true
  var : ρ "Private`x" = some (.sym x)

section
variable {V : Interp} {x : String} {ρ : String → Option Ex}

theorem fam_arith (z : ℂ) (s : String) (l : List ℂ) : arithValue (famOf V x ρ z) s l = arithValue (V.put x z) s l := rfl

theorem fam_op (z : ℂ) (s : String) (l : List (Option ℂ)) : (famOf V x ρ z).meaning.op s l = (V.put x z).meaning.op s l := rfl

theorem fam_sym (hρ : BindOk ρ x) (z : ℂ) (s : String) : (V.put x z).meaning.argVals (subst ρ (.sym s)) = (famOf V x ρ z).meaning.argVals (.sym s) := by
  rw [subst, argVals_sym]
  cases h : ρ s with
  | none =>
    simp only
    rw [argVals_sym]
    congr 1
    change atomValue _ (.sym s) = atomValue _ (.sym s)
    simp [atomValue, famOf, h]
  | some w =>
    simp only
    rw [Meaning.argVals_one _ (hρ.noSeq s w h)]
    congr 1
    have hn : s ∉ noNumber := by
      intro hn
      have : ρ s = none := hρ.fixed s (by unfold fixedNames; simp [hn])
      rw [h] at this; cases this
    change _ = atomValue _ (.sym s)
    simp [atomValue, famOf, h, hn]

/-- The value of an instance of a template. -/
theorem fam_args (hρ : BindOk ρ x) (z : ℂ) : ∀ (n : Nat) (t : Ex), sizeOf t < n → tmpl t = true →
    (V.put x z).meaning.argVals (subst ρ t) = (famOf V x ρ z).meaning.argVals t := by
  intro n
  induction n with
  | zero => intro t h; omega
  | succ n ih =>
    intro t hn ht
    unfold tmpl at ht
    split at ht
    · rfl
    · rfl
    · exact fam_sym hρ z _
    · rename_i s es
      simp only [Bool.and_eq_true, List.contains_iff_mem] at ht
      obtain ⟨⟨ht0, hov⟩, ht2⟩ := ht
      have ht : s ∈ tmplHeads ∧ tmplL es = true := ⟨ht0, ht2⟩
      have hs : ρ s = none := hρ.fixed s (by unfold fixedNames; simp [ht.1])
      have hq : s ≠ "System`Sequence" := fun he => absurd (he ▸ ht.1) (by decide)
      have hsub : subst ρ (.expr (.sym s :: es)) = .expr (.sym s :: es.map (subst ρ)) := by
        rw [subst, substL, substL_map]
        simp [subst, hs]
      rw [hsub, Meaning.argVals_app hq, Meaning.argVals_app hq, fam_op]
      congr 2
      have hsz : ∀ e ∈ es, sizeOf e < n := by
        intro e he
        have := List.sizeOf_lt_of_mem he
        simp only [Ex.expr.sizeOf_spec, List.cons.sizeOf_spec] at hn
        omega
      have hm := tmplL_mem ht.2
      clear hsub ht hn ht2 hov
      induction es with
      | nil => rfl
      | cons e es ihl =>
        rw [List.map_cons, Meaning.vals_cons, Meaning.vals_cons, ih e (hsz e (by simp)) (hm e (by simp)),
          ihl (fun e he => hsz e (by simp [he])) (fun e he => hm e (by simp [he]))]
    · cases ht

theorem fam_den (hρ : BindOk ρ x) (z : ℂ) {t : Ex} (ht : tmpl t = true) {v : ℂ} : (V.put x z).Denotes (subst ρ t) v ↔ (famOf V x ρ z).Denotes t v := by
  unfold Interp.Denotes
  rw [fam_args hρ z _ t (Nat.lt_succ_self _) ht]

theorem subst_call {s : String} (hs : ρ s = none) (es : List Ex) : subst ρ (.expr (.sym s :: es)) = .expr (.sym s :: es.map (subst ρ)) := by
  rw [subst, substL, substL_map]
  simp [subst, hs]

theorem noOpen_sym (s : String) : noOpen (.sym s) = true := by
  unfold noOpen
  simp [pieces, hasHead]
theorem noOpen_int (n : Int) : noOpen (.int n) = true := by
  unfold noOpen
  simp [pieces, hasHead]
theorem noOpen_rat (n d : Int) : noOpen (.rat n d) = true := by
  unfold noOpen
  simp [pieces, hasHead, opened, S, openHeads, partsOf]

theorem subst_noSeq (hρ : BindOk ρ x) {t : Ex} (ht : tmpl t = true) : hasHead "System`Sequence" (subst ρ t) = false := by
  unfold tmpl at ht
  split at ht
  · rfl
  · rfl
  · rename_i s
    rw [subst]
    split
    · rename_i w h
      exact hρ.noSeq _ _ h
    · rfl
  · rename_i s es
    simp only [Bool.and_eq_true, List.contains_iff_mem] at ht
    obtain ⟨⟨ht0, hov⟩, ht2⟩ := ht
    have ht : s ∈ tmplHeads ∧ tmplL es = true := ⟨ht0, ht2⟩
    have hs : ρ s = none := hρ.fixed s (by unfold fixedNames; simp [ht.1])
    have hq : s ≠ "System`Sequence" := fun he => absurd (he ▸ ht.1) (by decide)
    rw [subst_call hs]
    simp [hasHead, hq]
  · cases ht

/-- The functions that an instance of a template stands for. -/
theorem fam_reads (hρ : BindOk ρ x) : ∀ (n : Nat) (t : Ex), sizeOf t < n → tmpl t = true → ∀ {F : ℂ → ℂ}, Reads (fun z => V.put x z) x (subst ρ t) F →
    Reads (famOf V x ρ) "Private`x" t F := by
  intro n
  induction n with
  | zero => intro t h; omega
  | succ n ih =>
    intro t hn ht F h
    have hcl : noOpen (subst ρ t) = true → noOpen t = true → Reads (famOf V x ρ) "Private`x" t F := by
      intro h1 h2
      refine .plain h2 ?_
      filter_upwards [reads_closed h1 h] with z hz
      exact (fam_den hρ z ht).1 hz
    have ht' := ht
    unfold tmpl at ht
    split at ht
    · exact hcl (noOpen_int _) (noOpen_int _)
    · exact hcl (noOpen_rat _ _) (noOpen_rat _ _)
    · rename_i s
      refine hcl ?_ (noOpen_sym s)
      rw [subst]
      split
      · rename_i w h
        exact hρ.closed _ _ h
      · exact noOpen_sym s
    · rename_i s es
      simp only [Bool.and_eq_true, List.contains_iff_mem] at ht
      obtain ⟨⟨ht0, hov⟩, ht2⟩ := ht
      have ht : s ∈ tmplHeads ∧ tmplL es = true := ⟨ht0, ht2⟩
      have hs : ρ s = none := hρ.fixed s (by unfold fixedNames; simp [ht.1])
      have hq : s ≠ "System`Sequence" := fun he => absurd (he ▸ ht.1) (by decide)
      have hsz : ∀ e ∈ es, sizeOf e < n := by
        intro e he
        have := List.sizeOf_lt_of_mem he
        simp only [Ex.expr.sizeOf_spec, List.cons.sizeOf_spec] at hn
        omega
      have hm := tmplL_mem ht.2
      have hne : ∀ e ∈ es.map (subst ρ), hasHead "System`Sequence" e = false := by
        intro e he
        obtain ⟨a, ha, rfl⟩ := List.mem_map.1 he
        exact subst_noSeq hρ (hm a ha)
      rw [subst_call hs] at h
      by_cases ho : s ∈ openHeads
      · have hov : overVar es = true := by
          rw [Bool.or_eq_true] at hov
          rcases hov with hov | hov
          · simp only [Bool.not_eq_true', List.contains_eq_mem, decide_eq_false_iff_not] at hov
            exact absurd ho hov
          · exact hov
        obtain ⟨u, rfl⟩ : ∃ u, es = [u, .sym "Private`x"] := by
          unfold overVar at hov
          split at hov
          · simp only [beq_iff_eq] at hov
            subst hov
            exact ⟨_, rfl⟩
          · cases hov
        have hxx : subst ρ (.sym "Private`x") = .sym x := by simp [subst, hρ.var]
        rw [List.map_cons, List.map_cons, List.map_nil, hxx] at h
        have hu := fun {F} => ih u (hsz u (by simp)) (hm u (by simp)) (F := F)
        simp only [openHeads, List.mem_cons, List.not_mem_nil, or_false] at ho
        rcases ho with rfl | rfl | rfl
        · obtain ⟨_, G, h1, h2⟩ := reads_int h
          exact .integral (hu h1) h2
        · obtain ⟨_, G, c, h1, h2, h3⟩ := reads_content h
          exact .content (hu h1) h2 h3
        · exact .expand (hu (reads_expand h).2)
      · obtain ⟨Fs, h1, h2⟩ := reads_app ho hq hne h
        rw [List.forall₂_map_left_iff] at h1
        refine .call ho hq (fun e he => tmpl_noSeq (hm e he)) ?_ h2
        rw [List.forall₂_iff_get] at h1 ⊢
        exact ⟨h1.1, fun i g1 g2 => ih _ (hsz _ (List.get_mem es ⟨i, g1⟩)) (hm _ (List.get_mem es ⟨i, g1⟩)) (h1.2 i g1 g2)⟩
    · cases ht

end
end Expreduce
