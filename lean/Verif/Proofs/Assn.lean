import Verif.Proofs.Alloc
import Mathlib.Data.List.Perm.Basic
import Mathlib.Data.List.Perm.Subperm

/-! Lemmas about the assignment iterator. -/

namespace Expreduce

theorem AssnIter.nextOrderless_mono {n : Nat} : ∀ {m : Nat} {s : AssnIter} {r}, n ≤ m → s.nextOrderless n = some r → s.nextOrderless m = some r := by
  induction n with
  | zero => intro m s r _ h; simp [AssnIter.nextOrderless] at h
  | succ n ih =>
    intro m s r hm h
    obtain ⟨m, rfl⟩ : ∃ k, m = k + 1 := ⟨m - 1, by omega⟩
    rw [AssnIter.nextOrderless] at h ⊢
    cases hs : s.stack with
    | nil => rw [hs] at h; exact h
    | cons p rest =>
      rw [hs] at h
      simp only at h ⊢
      cases hf : p.toFree with
      | some i => rw [hf] at h; exact ih (by omega) h
      | none =>
        rw [hf] at h
        simp only at h ⊢
        split at h
        · rw [if_pos ‹_›]; exact h
        · rw [if_neg ‹_›]
          split at h
          · simp at h
          · split at h
            · simp at h
            · exact ih (by omega) h

theorem AssnIter.nextAlloc_mono {n : Nat} : ∀ {m : Nat} {s : AssnIter} {r}, n ≤ m → s.nextAlloc n = some r → s.nextAlloc m = some r := by
  induction n with
  | zero => intro m s r _ h; simp [AssnIter.nextAlloc] at h
  | succ n ih =>
    intro m s r hm h
    obtain ⟨m, rfl⟩ : ∃ k, m = k + 1 := ⟨m - 1, by omega⟩
    rw [AssnIter.nextAlloc] at h ⊢
    cases hn : s.ai.next n with
    | none => rw [hn] at h; simp at h
    | some q =>
      obtain ⟨b, ai'⟩ := q
      rw [hn] at h
      rw [AllocIter.next_mono (show n ≤ m by omega) hn]
      cases b with
      | false => exact h
      | true =>
        simp only at h ⊢
        split at h
        · rw [if_pos ‹_›]
          split at h
          · simp at h
          · rename_i ho
            rw [AssnIter.nextOrderless_mono (show n ≤ m by omega) ho]
            exact ih (by omega) h
          · rename_i ho
            rw [AssnIter.nextOrderless_mono (show n ≤ m by omega) ho]
            exact h
        · rw [if_neg ‹_›]; exact h

theorem AssnIter.next_mono {n m : Nat} {s : AssnIter} {r} (hm : n ≤ m) (h : s.next n = some r) : s.next m = some r := by
  unfold AssnIter.next at *
  split at h
  · rw [if_pos ‹_›]
    split at h
    · simp at h
    · rename_i ho
      rw [AssnIter.nextOrderless_mono hm ho]; exact h
    · rename_i ho
      rw [AssnIter.nextOrderless_mono hm ho]
      exact AssnIter.nextAlloc_mono hm h
  · rw [if_neg ‹_›]; exact AssnIter.nextAlloc_mono hm h

theorem AssnIter.collect_mono {n : Nat} : ∀ {m : Nat} {s : AssnIter} {r}, n ≤ m → s.collect n = some r → s.collect m = some r := by
  induction n with
  | zero => intro m ai r _ h; simp [AssnIter.collect] at h
  | succ n ih =>
    intro m s r hm h
    obtain ⟨m, rfl⟩ : ∃ k, m = k + 1 := ⟨m - 1, by omega⟩
    rw [AssnIter.collect] at h ⊢
    cases hn : s.next n with
    | none => rw [hn] at h; simp at h
    | some q =>
      obtain ⟨b, s'⟩ := q
      rw [hn] at h
      rw [AssnIter.next_mono (show n ≤ m by omega) hn]
      cases b with
      | false => exact h
      | true =>
        simp only [Option.map_eq_some_iff] at h ⊢
        obtain ⟨a, h1, h2⟩ := h
        exact ⟨a, ih (by omega) h1, h2⟩

/-- Repeated calls of `nextOrderless` show the assignments `out` and end in a state satisfying `P`. -/
inductive ORuns (P : AssnIter → Prop) : AssnIter → List (List (List Nat)) → Prop
  | done {s s' n} : s.nextOrderless n = some (false, s') → P s' → ORuns P s []
  | more {s s' n out} : s.nextOrderless n = some (true, s') → ORuns P s' out → ORuns P s (s'.assns :: out)

/-- Repeated calls of `next` show the assignments `out`. -/
inductive ARuns : AssnIter → List (List (List Nat)) → Prop
  | done {s s' n} : s.next n = some (false, s') → ARuns s []
  | more {s s' n out} : s.next n = some (true, s') → ARuns s' out → ARuns s (s'.assns :: out)

theorem ARuns.collect {s out} (h : ARuns s out) : ∃ n, s.collect n = some out := by
  induction h with
  | @done s s' n h => exact ⟨n + 1, by rw [AssnIter.collect, h]⟩
  | @more s s' n out h _ ih =>
    obtain ⟨m, hm⟩ := ih
    refine ⟨max n m + 1, ?_⟩
    rw [AssnIter.collect, AssnIter.next_mono (le_max_left n m) h]
    simp [AssnIter.collect_mono (le_max_right n m) hm]

theorem ORuns.step {P s s1 out} (h : ∀ n, s.nextOrderless (n + 1) = s1.nextOrderless n) (h1 : ORuns P s1 out) : ORuns P s out := by
  cases h1 with
  | @done _ s' n h2 h3 => exact .done (n := n + 1) (by rw [h]; exact h2) h3
  | @more _ s' n out h2 h3 => exact .more (n := n + 1) (by rw [h]; exact h2) h3

theorem ORuns.free {P : AssnIter → Prop} {s : AssnIter} {out p rest i} (hs : s.stack = p :: rest) (hp : p.toFree = some i)
    (h : ORuns P { s with taken := s.taken.set i false, stack := rest } out) : ORuns P s out := by
  refine .step ?_ h
  intro n
  rw [AssnIter.nextOrderless, hs]
  simp only [hp]

/-- Whether the next position belongs to another form than `f`. -/
def crosses (f : Nat) : List Nat → Bool
  | g :: _ => f != g
  | [] => false

/-- The assignments completing a partial one, in the order shown. -/
def ext (fm : List (List Bool)) : List Nat → List Bool → Nat → List (List Nat)
  | [], _, _ => [[]]
  | f :: fs, T, start =>
    ((List.range T.length).filter fun i => decide (start ≤ i) && !(T[i]?.getD false) && (fm[f]?.getD [])[i]?.getD false).flatMap
      fun i => (ext fm fs (T.set i true) (if crosses f fs then 0 else i + 1)).map (i :: ·)

/-- The data written before position `d`, after writing `p`. -/
def preO (p : AssnState) (s : AssnIter) : List Nat := (p.write s).assnData.take p.assnDataI

theorem writeO_take (p : AssnState) (s : AssnIter) :
    (p.write s).assnData.take (p.assnDataI - 1) = s.assnData.take (p.assnDataI - 1) := by
  unfold AssnState.write
  split
  · simp only; rw [List.take_set_of_le (by omega)]
  · rfl

theorem writeO_length (p : AssnState) (s : AssnIter) : (p.write s).assnData.length = s.assnData.length := by
  unfold AssnState.write
  split <;> simp

theorem willCross_eq (s : AssnIter) (d f : Nat) (fs : List Nat) (h : s.assnIndices.drop d = f :: fs) :
    s.willCross d = crosses f fs := by
  have h0 : s.assnIndices[d]? = some f := by
    have := congrArg (fun l => l[0]?) h
    simpa using this
  have h1 : s.assnIndices[d + 1]? = fs[0]? := by
    have := congrArg (fun l => l[1]?) h
    simpa using this
  unfold AssnIter.willCross
  rw [h1, h0]
  cases fs with
  | nil => rfl
  | cons g gs => simp [bne, crosses]

/-- One entry of the stack contributes its completions, provided the rest of the stack behaves the same for all data agreeing on the
earlier positions. -/
theorem oRuns_entry (P : AssnIter → Prop) : ∀ (k : Nat) (s : AssnIter) (p : AssnState) (rest : List AssnState) (out),
    s.stack = p :: rest → p.toFree = none → s.assnData.length = p.assnDataI + k → s.assnIndices.length = s.assnData.length →
    (∀ f ∈ s.assnIndices, f < s.formMatches.length) →
    (p.assnDataI > 0 → s.taken[p.lastTaken]? = some false) →
    (p.assnDataI = 0 → p.crossedBoundary = true) →
    (∀ data : List Nat, data.length = s.assnData.length → data.take (p.assnDataI - 1) = s.assnData.take (p.assnDataI - 1) →
      ORuns P { s with assnData := data, stack := rest } out) →
    ORuns P s ((ext s.formMatches (s.assnIndices.drop p.assnDataI) (p.write s).taken
      (if p.crossedBoundary then 0 else p.lastTaken + 1)).map (fun d => cutBy (s.ai.alloc.map Int.toNat) (preO p s ++ d)) ++ out) := by
  intro k
  induction k with
  | zero =>
    intro s p rest out hs hp hk hl hfm htk hcr hrest
    have hd : s.assnIndices.drop p.assnDataI = [] := by rw [List.drop_eq_nil_iff]; omega
    rw [hd]
    simp only [ext, List.map_cons, List.map_nil, List.append_nil, List.singleton_append]
    have hpre : preO p s = (p.write s).assnData := by
      unfold preO
      rw [List.take_of_length_le]
      rw [writeO_length]; omega
    have hn : s.nextOrderless 1 = some (true, { p.write s with stack := p.freeEntry ++ rest }) := by
      rw [AssnIter.nextOrderless, hs]
      simp only [hp]
      rw [if_pos]
      rw [writeO_length]; omega
    have hassn : ({ p.write s with stack := p.freeEntry ++ rest } : AssnIter).assns =
        cutBy (s.ai.alloc.map Int.toNat) (preO p s) := by
      rw [hpre]
      unfold AssnIter.assns AssnState.write
      split <;> rfl
    rw [← hassn]
    refine .more hn ?_
    by_cases h0 : p.assnDataI > 0
    · have hfe : p.freeEntry = [⟨0, 0, true, some p.lastTaken⟩] := by simp [AssnState.freeEntry, h0]
      refine ORuns.free (p := ⟨0, 0, true, some p.lastTaken⟩) (rest := rest) (i := p.lastTaken) (by simp [hfe]) rfl ?_
      have hT : (p.write s).taken.set p.lastTaken false = s.taken := by
        simp only [AssnState.write, h0, if_true, List.set_set]
        apply List.ext_getElem?
        intro j
        by_cases hj : p.lastTaken = j
        · subst hj
          have := htk h0
          rw [List.getElem?_set_self (by rw [List.getElem?_eq_some_iff] at this; exact this.1), this]
        · rw [List.getElem?_set_ne hj]
      have := hrest (p.write s).assnData (writeO_length p s) (writeO_take p s)
      convert this using 1
      simp only [AssnState.write, h0, if_true] at hT ⊢
      simp [hT]
    · have hfe : p.freeEntry = [] := by simp [AssnState.freeEntry, h0]
      have := hrest s.assnData rfl rfl
      simpa [hfe, AssnState.write, h0] using this
  | succ k ih =>
    intro s p rest out hs hp hk hl hfm htk hcr hrest
    have hlt : p.assnDataI < s.assnIndices.length := by omega
    have hidx : s.assnIndices[p.assnDataI]? = some s.assnIndices[p.assnDataI] := List.getElem?_eq_getElem hlt
    generalize hfe : s.assnIndices[p.assnDataI] = f at hidx
    have hdrop : s.assnIndices.drop p.assnDataI = f :: s.assnIndices.drop (p.assnDataI + 1) := by
      rw [← hfe]; exact List.drop_eq_getElem_cons hlt
    have hfmem : f ∈ s.assnIndices := by rw [← hfe]; exact List.getElem_mem hlt
    obtain ⟨row, hrow⟩ : ∃ row, s.formMatches[f]? = some row := ⟨_, List.getElem?_eq_getElem (hfm f hfmem)⟩
    -- fields unchanged by writing
    have w1 : (p.write s).assnIndices = s.assnIndices := by unfold AssnState.write; split <;> rfl
    have w2 : (p.write s).formMatches = s.formMatches := by unfold AssnState.write; split <;> rfl
    have w3 : (p.write s).ai = s.ai := by unfold AssnState.write; split <;> rfl
    have w4 : (p.write s).orderless = s.orderless := by unfold AssnState.write; split <;> rfl
    have w5 : (p.write s).iteratingOrderless = s.iteratingOrderless := by unfold AssnState.write; split <;> rfl
    refine ORuns.step (s1 := { p.write s with
        stack := ((p.write s).candidates row (if p.crossedBoundary then 0 else p.lastTaken + 1)).map
          (fun i => ⟨i, p.assnDataI + 1, s.willCross p.assnDataI, none⟩) ++ p.freeEntry ++ rest }) ?_ ?_
    · intro n
      rw [AssnIter.nextOrderless, hs]
      simp only [hp]
      rw [if_neg (by rw [writeO_length]; omega), w1, hidx]
      simp only [w2, hrow]
      unfold AssnIter.willCross
      simp only [w1]
      rfl
    -- the children
    have kids : ∀ (is : List Nat), (∀ i ∈ is, (p.write s).taken[i]? = some false) → ∀ (data : List Nat), data.length = s.assnData.length →
        data.take p.assnDataI = (p.write s).assnData.take p.assnDataI →
        ORuns P { p.write s with assnData := data, stack := (is.map (fun i => (⟨i, p.assnDataI + 1, s.willCross p.assnDataI, none⟩ : AssnState))) ++ p.freeEntry ++ rest }
          ((is.flatMap fun i => (ext s.formMatches (s.assnIndices.drop (p.assnDataI + 1)) ((p.write s).taken.set i true)
              (if s.willCross p.assnDataI then 0 else i + 1)).map (fun d => cutBy (s.ai.alloc.map Int.toNat) (preO p s ++ i :: d))) ++ out) := by
      intro is
      induction is with
      | nil =>
        intro _ data hd1 hd2
        simp only [List.map_nil, List.nil_append, List.flatMap_nil]
        have hd3 : data.take (p.assnDataI - 1) = s.assnData.take (p.assnDataI - 1) := by
          have := congrArg (List.take (p.assnDataI - 1)) hd2
          rw [List.take_take, List.take_take, Nat.min_eq_left (by omega)] at this
          rw [this, writeO_take]
        by_cases h0 : p.assnDataI > 0
        · have hfe : p.freeEntry = [⟨0, 0, true, some p.lastTaken⟩] := by simp [AssnState.freeEntry, h0]
          refine ORuns.free (p := ⟨0, 0, true, some p.lastTaken⟩) (rest := rest) (i := p.lastTaken) (by simp [hfe]) rfl ?_
          have hT : (p.write s).taken.set p.lastTaken false = s.taken := by
            simp only [AssnState.write, h0, if_true, List.set_set]
            apply List.ext_getElem?
            intro j
            by_cases hj : p.lastTaken = j
            · subst hj
              have := htk h0
              rw [List.getElem?_set_self (by rw [List.getElem?_eq_some_iff] at this; exact this.1), this]
            · rw [List.getElem?_set_ne hj]
          have := hrest data hd1 hd3
          convert this using 1
          simp only [AssnState.write, h0, if_true] at hT ⊢
          simp [hT]
        · have hfe : p.freeEntry = [] := by simp [AssnState.freeEntry, h0]
          have := hrest data hd1 hd3
          simpa [hfe, AssnState.write, h0] using this
      | cons i is ihs =>
        intro hT data hd1 hd2
        simp only [List.map_cons, List.cons_append, List.flatMap_cons, List.append_assoc]
        have hsib := ih { p.write s with assnData := data, stack := ⟨i, p.assnDataI + 1, s.willCross p.assnDataI, none⟩ ::
            (is.map (fun i => (⟨i, p.assnDataI + 1, s.willCross p.assnDataI, none⟩ : AssnState)) ++ p.freeEntry ++ rest) }
          ⟨i, p.assnDataI + 1, s.willCross p.assnDataI, none⟩ _
          ((is.flatMap fun i => (ext s.formMatches (s.assnIndices.drop (p.assnDataI + 1)) ((p.write s).taken.set i true)
              (if s.willCross p.assnDataI then 0 else i + 1)).map (fun d => cutBy (s.ai.alloc.map Int.toNat) (preO p s ++ i :: d))) ++ out)
          rfl rfl (by simp; omega) (by simp [w1]; omega) (by simpa [w1, w2] using hfm) (fun _ => hT i (by simp)) (by simp) ?_
        · have e : preO ⟨i, p.assnDataI + 1, s.willCross p.assnDataI, none⟩
              { p.write s with assnData := data, stack := ⟨i, p.assnDataI + 1, s.willCross p.assnDataI, none⟩ ::
                (is.map (fun i => (⟨i, p.assnDataI + 1, s.willCross p.assnDataI, none⟩ : AssnState)) ++ p.freeEntry ++ rest) }
              = preO p s ++ [i] := by
            simp only [preO, AssnState.write, gt_iff_lt, Nat.zero_lt_succ, if_true, Nat.add_sub_cancel]
            rw [List.take_add_one, List.take_set_of_le (Nat.le_refl _), List.getElem?_set_self (by omega)]
            have := hd2
            simp only [AssnState.write, gt_iff_lt] at this
            rw [this]; rfl
          rw [e] at hsib
          have tk : (AssnState.write ⟨i, p.assnDataI + 1, s.willCross p.assnDataI, none⟩
              { p.write s with assnData := data, stack := ⟨i, p.assnDataI + 1, s.willCross p.assnDataI, none⟩ ::
                (is.map (fun i => (⟨i, p.assnDataI + 1, s.willCross p.assnDataI, none⟩ : AssnState)) ++ p.freeEntry ++ rest) }).taken
              = (p.write s).taken.set i true := by
            simp [AssnState.write]
          rw [tk] at hsib
          simp only [w1, w2, w3] at hsib
          simpa [List.append_assoc, w1, w2, w3] using hsib
        · intro data' h1 h2
          simp only at h1 h2
          have := ihs (fun j hj => hT j (by simp [hj])) data' (by omega) (by simp only [Nat.add_sub_cancel] at h2; rw [h2, hd2])
          simpa [List.append_assoc] using this
    have := kids ((p.write s).candidates row (if p.crossedBoundary then 0 else p.lastTaken + 1)) ?_ (p.write s).assnData (writeO_length p s) rfl
    · rw [hdrop]
      simp only [ext]
      have wc := willCross_eq s p.assnDataI f _ hdrop
      rw [← wc, List.map_flatMap]
      simp only [List.map_map]
      have hc : (p.write s).candidates row (if p.crossedBoundary then 0 else p.lastTaken + 1) =
          (List.range (p.write s).taken.length).filter (fun i =>
            decide ((if p.crossedBoundary then 0 else p.lastTaken + 1) ≤ i) && !((p.write s).taken[i]?.getD false) &&
              (s.formMatches[f]?.getD [])[i]?.getD false) := by
        unfold AssnIter.candidates
        rw [hrow]; rfl
      rw [hc] at this
      rw [hc]
      exact this
    · intro i hi
      unfold AssnIter.candidates at hi
      simp only [List.mem_filter, List.mem_range, Bool.and_eq_true, Bool.not_eq_true'] at hi
      obtain ⟨h1, ⟨_, h2⟩, _⟩ := hi
      rw [List.getElem?_eq_getElem h1] at h2 ⊢
      simp only [Option.getD_some] at h2
      rw [h2]

/-! ### The whole iterator -/

theorem AllocRuns.nil_inv {ai} (h : AllocRuns ai []) : ∃ n ai', ai.next n = some (false, ai') := by
  obtain ⟨n, hn⟩ := h
  cases n with
  | zero => simp [AllocIter.collect] at hn
  | succ n =>
    rw [AllocIter.collect] at hn
    split at hn
    · simp at hn
    · rename_i ai' h; exact ⟨n, ai', h⟩
    · simp at hn

theorem AllocRuns.cons_inv {ai a out} (h : AllocRuns ai (a :: out)) :
    ∃ n ai', ai.next n = some (true, ai') ∧ ai'.alloc = a ∧ AllocRuns ai' out := by
  obtain ⟨n, hn⟩ := h
  cases n with
  | zero => simp [AllocIter.collect] at hn
  | succ n =>
    rw [AllocIter.collect] at hn
    split at hn
    · simp at hn
    · simp at hn
    · rename_i ai' h
      simp only [Option.map_eq_some_iff, List.cons.injEq] at hn
      obtain ⟨o, h1, h2, rfl⟩ := hn
      exact ⟨n, ai', h, h2, n, h1⟩

/-- State of the iterator between allocations. -/
structure Between (l : Nat) (fm : List (List Bool)) (ord it : Bool) (ai : AllocIter) (s : AssnIter) : Prop where
  data : s.assnData.length = l
  idx : s.assnIndices.length = l
  fm : s.formMatches = fm
  ord : s.orderless = ord
  taken : s.taken = List.replicate l false
  stack : s.stack = []
  it : s.iteratingOrderless = it
  ai : s.ai = ai

theorem nextOrderless_flag (b : Bool) : ∀ n s, AssnIter.nextOrderless n { s with iteratingOrderless := b } =
    (AssnIter.nextOrderless n s).map (fun r => (r.1, { r.2 with iteratingOrderless := b })) := by
  intro n
  induction n with
  | zero => intro s; rfl
  | succ n ih =>
    intro s
    rw [AssnIter.nextOrderless, AssnIter.nextOrderless]
    simp only
    cases hs : s.stack with
    | nil => simp [hs]
    | cons p rest =>
      simp only
      cases hp : p.toFree with
      | some i => exact ih { s with taken := s.taken.set i false, stack := rest }
      | none =>
        simp only
        have w : p.write { s with iteratingOrderless := b } = { p.write s with iteratingOrderless := b } := by
          unfold AssnState.write; split <;> rfl
        have c : ∀ row k, AssnIter.candidates { p.write s with iteratingOrderless := b, stack := rest } row k =
            AssnIter.candidates { p.write s with stack := rest } row k := fun _ _ => rfl
        rw [hs] at w
        rw [w]
        simp only
        split
        · rfl
        · cases (p.write s).assnIndices[p.assnDataI]? with
          | none => rfl
          | some f =>
            simp only
            cases (p.write s).formMatches[f]? with
            | none => rfl
            | some row =>
              exact ih { p.write s with
                stack := (AssnIter.candidates { p.write s with stack := rest } row (if p.crossedBoundary then 0 else p.lastTaken + 1)).map
                  (fun i => ⟨i, p.assnDataI + 1, AssnIter.willCross { p.write s with stack := rest } p.assnDataI, none⟩)
                  ++ p.freeEntry ++ rest }

theorem nextOrderless_keeps {n} {s : AssnIter} {r} (h : s.nextOrderless n = some r) : r.2.iteratingOrderless = s.iteratingOrderless := by
  have := nextOrderless_flag s.iteratingOrderless n s
  rw [show ({ s with iteratingOrderless := s.iteratingOrderless } : AssnIter) = s from rfl, h] at this
  simp only [Option.map_some, Option.some.injEq] at this
  rw [this]

theorem ORuns.flag {P : AssnIter → Prop} {s out} (b : Bool) (h : ORuns P s out) :
    ORuns (fun s' => ∃ s0, P s0 ∧ s' = { s0 with iteratingOrderless := b }) { s with iteratingOrderless := b } out := by
  induction h with
  | @done s s' n h1 h2 => exact .done (n := n) (s' := { s' with iteratingOrderless := b }) (by rw [nextOrderless_flag, h1]; rfl) ⟨s', h2, rfl⟩
  | @more s s' n out h1 _ ih => exact .more (n := n) (s' := { s' with iteratingOrderless := b }) (by rw [nextOrderless_flag, h1]; rfl) ih

theorem ORuns.finish {P : AssnIter → Prop} {s out rest} (h : ORuns P s out) (hit : s.iteratingOrderless = true)
    (hP : ∀ s', P s' → ARuns { s' with iteratingOrderless := false } rest) : ARuns s (out ++ rest) := by
  induction h with
  | @done s s' n h1 h2 =>
    have := hP s' h2
    cases this with
    | @done _ s'' m h3 =>
      refine .done (n := max n m) (s' := s'') ?_
      unfold AssnIter.next at h3 ⊢
      simp only [Bool.false_eq_true, if_false] at h3
      rw [if_pos hit, AssnIter.nextOrderless_mono (le_max_left n m) h1]
      exact AssnIter.nextAlloc_mono (le_max_right n m) h3
    | @more _ s'' m out h3 h4 =>
      refine .more (n := max n m) (s' := s'') ?_ h4
      unfold AssnIter.next at h3 ⊢
      simp only [Bool.false_eq_true, if_false] at h3
      rw [if_pos hit, AssnIter.nextOrderless_mono (le_max_left n m) h1]
      exact AssnIter.nextAlloc_mono (le_max_right n m) h3
  | @more s s' n out h1 _ ih =>
    refine .more (n := n) (s' := s') ?_ (ih ?_)
    · unfold AssnIter.next
      rw [if_pos hit, h1]
    · rw [nextOrderless_keeps h1, hit]

theorem indicesOf_length : ∀ (i : Nat) (ns : List Nat), (indicesOf i ns).length = ns.sum
  | _, [] => rfl
  | i, n :: ns => by simp [indicesOf, indicesOf_length (i + 1) ns]

theorem indicesOf_bound : ∀ (i : Nat) (ns : List Nat), ∀ f ∈ indicesOf i ns, i ≤ f ∧ f < i + ns.length
  | _, [] => by simp [indicesOf]
  | i, n :: ns => by
    intro f hf
    simp only [indicesOf, List.mem_append] at hf
    rcases hf with hf | hf
    · have := List.eq_of_mem_replicate hf; subst this; simp
    · have := indicesOf_bound (i + 1) ns f hf
      simp; omega

/-- What the orderless iterator shows. -/
def assnOrderless (l : Nat) (fm : List (List Bool)) (as : List (List Int)) : List (List (List Nat)) :=
  as.flatMap fun a => (ext fm (indicesOf 0 (a.map Int.toNat)) (List.replicate l false) 0).map (cutBy (a.map Int.toNat))

theorem aRuns_orderless (l : Nat) (fm : List (List Bool)) : ∀ (as : List (List Int)) (s : AssnIter) (ai : AllocIter),
    Between l fm true false ai s → AllocRuns ai as →
    (∀ a ∈ as, (a.map Int.toNat).sum = l ∧ a.length ≤ fm.length) → ARuns s (assnOrderless l fm as) := by
  intro as
  induction as with
  | nil =>
    intro s ai hb hr _
    obtain ⟨n, ai', hn⟩ := hr.nil_inv
    refine .done (n := n + 1) (s' := { s with ai := ai' }) ?_
    unfold AssnIter.next
    rw [if_neg (by simp [hb.it]), AssnIter.nextAlloc, hb.ai, hn]
  | cons a as ih =>
    intro s ai hb hr hlen
    obtain ⟨n, ai', hn, ha, hr'⟩ := hr.cons_inv
    have hlen' := fun b hb => hlen b (List.mem_cons_of_mem _ hb)
    obtain ⟨hsum, hal⟩ := hlen a (by simp)
    generalize hidx : indicesOf 0 (a.map Int.toNat) = idx
    have hidxl : idx.length = l := by rw [← hidx, indicesOf_length, hsum]
    have hdropnil : s.assnIndices.drop idx.length = [] := by rw [List.drop_eq_nil_iff, hb.idx, hidxl]
    -- the state in which the search of this allocation starts
    have start : ∀ it, ORuns (Between l fm true it ai')
        { s with ai := ai', assnIndices := idx, iteratingOrderless := it, stack := [⟨0, 0, true, none⟩] }
        ((ext fm idx (List.replicate l false) 0).map (cutBy (a.map Int.toNat))) := by
      intro it
      have := oRuns_entry (Between l fm true it ai') l
        { s with ai := ai', assnIndices := idx, iteratingOrderless := it, stack := [⟨0, 0, true, none⟩] }
        ⟨0, 0, true, none⟩ [] [] rfl rfl (by simp [hb.data]) (by simp [hidxl, hb.data])
        (by
          intro f hf
          simp only at hf
          rw [← hidx] at hf
          have := indicesOf_bound 0 _ f hf
          simp only [hb.fm]
          simp at this; omega)
        (by simp) (by simp)
        (by
          intro data hd _
          refine .done (n := 1) (s' := _) rfl ?_
          exact ⟨by simpa [hb.data] using hd, hidxl, hb.fm, hb.ord, hb.taken, rfl, rfl, rfl⟩)
      simpa [preO, AssnState.write, hb.fm, hb.taken, ha] using this
    -- the first call on this allocation
    have first : ∀ m r, AssnIter.nextOrderless m { s with ai := ai', assnIndices := idx, stack := [⟨0, 0, true, none⟩] } = some r →
        AssnIter.nextAlloc (max n m + 1) s = (match r with
          | (false, s') => AssnIter.nextAlloc (max n m) s'
          | (true, s') => some (true, { s' with iteratingOrderless := true })) := by
      intro m r hm
      rw [AssnIter.nextAlloc, hb.ai, AllocIter.next_mono (le_max_left n m) hn]
      simp only [ha, hidx, hdropnil, List.append_nil, hb.ord, if_true, hb.stack]
      have := AssnIter.nextOrderless_mono (le_max_right n m) hm
      simp only [hb.ord] at this
      rw [this]
      obtain ⟨b, s'⟩ := r
      cases b <;> rfl
    have hs0 : ({ s with ai := ai', assnIndices := idx, iteratingOrderless := false, stack := [⟨0, 0, true, none⟩] } : AssnIter) =
        { s with ai := ai', assnIndices := idx, stack := [⟨0, 0, true, none⟩] } := by rw [← hb.it]
    have h0 := start false
    rw [hs0] at h0
    have htail : assnOrderless l fm (a :: as) = (ext fm idx (List.replicate l false) 0).map (cutBy (a.map Int.toNat)) ++ assnOrderless l fm as := by
      simp [assnOrderless, hidx]
    rw [htail]
    generalize (ext fm idx (List.replicate l false) 0).map (cutBy (a.map Int.toNat)) = outs at h0
    clear htail start
    generalize hR : assnOrderless l fm as = R at ih ⊢
    cases h0 with
    | @done _ s' m h1 h2 =>
      have := ih s' ai' h2 hr' hlen'
      rw [List.nil_append]
      cases this with
      | @done _ s'' k h3 =>
        unfold AssnIter.next at h3
        rw [if_neg (by simp [h2.it])] at h3
        refine .done (n := max n (max m k) + 1) (s' := s'') ?_
        unfold AssnIter.next
        rw [if_neg (by simp [hb.it])]
        have := first (max m k) _ (AssnIter.nextOrderless_mono (le_max_left m k) h1)
        rw [this]
        exact AssnIter.nextAlloc_mono (by omega) h3
      | @more _ s'' k out h3 h4 =>
        unfold AssnIter.next at h3
        rw [if_neg (by simp [h2.it])] at h3
        refine .more (n := max n (max m k) + 1) (s' := s'') ?_ h4
        unfold AssnIter.next
        rw [if_neg (by simp [hb.it])]
        have := first (max m k) _ (AssnIter.nextOrderless_mono (le_max_left m k) h1)
        rw [this]
        exact AssnIter.nextAlloc_mono (by omega) h3
    | @more _ s' m out h1 h2 =>
      have hn1 : s.next (max n m + 1) = some (true, { s' with iteratingOrderless := true }) := by
        unfold AssnIter.next
        rw [if_neg (by simp [hb.it]), first m _ h1]
      suffices h : ARuns { s' with iteratingOrderless := true } (out ++ R) by
        have h' := ARuns.more hn1 h
        exact h'
      refine (h2.flag true).finish rfl ?_
      rintro s1 ⟨s0, h3, rfl⟩
      have hb' : Between l fm true false ai' { s0 with iteratingOrderless := false } :=
        ⟨h3.data, h3.idx, h3.fm, h3.ord, h3.taken, h3.stack, rfl, h3.ai⟩
      exact ih _ ai' hb' hr' hlen'

/-! ### Characterisation of the enumeration -/

/-- The compatibility table entry. -/
def compat (fm : List (List Bool)) (f i : Nat) : Bool := (fm[f]?.getD [])[i]?.getD false

/-- The table of taken positions after taking all of `b`. -/
def markAll (T : List Bool) (b : List Nat) : List Bool := b.foldl (fun T i => T.set i true) T

theorem markAll_length (b : List Nat) : ∀ T, (markAll T b).length = T.length := by
  induction b with
  | nil => intro T; rfl
  | cons i b ih => intro T; simp only [markAll, List.foldl_cons]; have := ih (T.set i true); simp only [markAll] at this; rw [this]; simp

theorem markAll_false (b : List Nat) : ∀ T x, (markAll T b)[x]? = some false ↔ T[x]? = some false ∧ x ∉ b := by
  induction b with
  | nil => intro T x; simp [markAll]
  | cons i b ih =>
    intro T x
    have h := ih (T.set i true) x
    simp only [markAll, List.foldl_cons] at h ⊢
    rw [h]
    by_cases hx : i = x
    · subst hx
      constructor
      · rintro ⟨h1, _⟩
        rw [List.getElem?_set] at h1
        split at h1
        · split at h1 <;> simp at h1
        · contradiction
      · rintro ⟨_, h2⟩; simp at h2
    · rw [List.getElem?_set_ne hx]
      simp [Ne.symm hx]

theorem mem_cand {T : List Bool} {start f i : Nat} {fm} :
    (i ∈ (List.range T.length).filter fun i => decide (start ≤ i) && !(T[i]?.getD false) && (fm[f]?.getD [])[i]?.getD false) ↔
    start ≤ i ∧ T[i]? = some false ∧ compat fm f i = true := by
  simp only [List.mem_filter, List.mem_range, Bool.and_eq_true, decide_eq_true_eq, Bool.not_eq_true', compat]
  constructor
  · rintro ⟨h1, ⟨h2, h3⟩, h4⟩
    refine ⟨h2, ?_, h4⟩
    rw [List.getElem?_eq_getElem h1] at h3 ⊢
    simpa using h3
  · rintro ⟨h1, h2, h3⟩
    refine ⟨?_, ⟨h1, by rw [h2]; rfl⟩, h3⟩
    rw [List.getElem?_eq_some_iff] at h2
    exact h2.1

theorem mem_ext_cons {fm f fs T start d} : d ∈ ext fm (f :: fs) T start ↔ ∃ i e, d = i :: e ∧ start ≤ i ∧ T[i]? = some false ∧
    compat fm f i = true ∧ e ∈ ext fm fs (T.set i true) (if crosses f fs then 0 else i + 1) := by
  simp only [ext, List.mem_flatMap, List.mem_map]
  constructor
  · rintro ⟨i, hi, e, he, rfl⟩
    rw [mem_cand] at hi
    exact ⟨i, e, rfl, hi.1, hi.2.1, hi.2.2, he⟩
  · rintro ⟨i, e, rfl, h1, h2, h3, h4⟩
    exact ⟨i, mem_cand.2 ⟨h1, h2, h3⟩, e, h4, rfl⟩

/-- The positions of one form form an increasing block. -/
theorem mem_ext_block {fm f} {fs : List Nat} (hfs : ∀ g ∈ fs, g ≠ f) : ∀ (n : Nat) (T : List Bool) (start : Nat) (d : List Nat),
    d ∈ ext fm (List.replicate (n + 1) f ++ fs) T start ↔
    ∃ b c, d = b ++ c ∧ b.length = n + 1 ∧ b.Pairwise (· < ·) ∧ (∀ x ∈ b, start ≤ x ∧ T[x]? = some false ∧ compat fm f x = true) ∧
      c ∈ ext fm fs (markAll T b) 0 := by
  intro n
  induction n with
  | zero =>
    intro T start d
    simp only [Nat.zero_add, List.replicate_one, List.singleton_append]
    rw [mem_ext_cons]
    constructor
    · rintro ⟨i, e, rfl, h1, h2, h3, h4⟩
      refine ⟨[i], e, rfl, rfl, by simp, by simpa using ⟨h1, h2, h3⟩, ?_⟩
      cases fs with
      | nil => simpa [ext] using h4
      | cons g gs =>
        have : crosses f (g :: gs) = true := by simp [crosses, Ne.symm (hfs g (by simp))]
        rw [this] at h4
        simpa [markAll] using h4
    · rintro ⟨b, c, rfl, h1, h2, h3, h4⟩
      obtain ⟨i, rfl⟩ := List.length_eq_one_iff.1 h1
      obtain ⟨k1, k2, k3⟩ := h3 i (by simp)
      refine ⟨i, c, rfl, k1, k2, k3, ?_⟩
      cases fs with
      | nil => simpa [ext] using h4
      | cons g gs =>
        have : crosses f (g :: gs) = true := by simp [crosses, Ne.symm (hfs g (by simp))]
        rw [this]
        simpa [markAll] using h4
  | succ n ih =>
    intro T start d
    rw [List.replicate_succ, List.cons_append, mem_ext_cons]
    have hc : crosses f (List.replicate (n + 1) f ++ fs) = false := by
      rw [List.replicate_succ]; simp [crosses]
    rw [hc]
    simp only [Bool.false_eq_true, if_false, ih]
    constructor
    · rintro ⟨i, e, rfl, h1, h2, h3, b, c, rfl, k1, k2, k3, k4⟩
      refine ⟨i :: b, c, rfl, by simp [k1], ?_, ?_, by simpa [markAll] using k4⟩
      · refine List.pairwise_cons.2 ⟨fun x hx => ?_, k2⟩
        have := (k3 x hx).1; omega
      · intro x hx
        rcases List.mem_cons.1 hx with rfl | hx
        · exact ⟨h1, h2, h3⟩
        · obtain ⟨j1, j2, j3⟩ := k3 x hx
          rw [List.getElem?_set_ne (by omega)] at j2
          exact ⟨by omega, j2, j3⟩
    · rintro ⟨b, c, rfl, k1, k2, k3, k4⟩
      cases b with
      | nil => simp at k1
      | cons i b =>
        rw [List.pairwise_cons] at k2
        obtain ⟨j1, j2, j3⟩ := k3 i (by simp)
        refine ⟨i, b ++ c, rfl, j1, j2, j3, b, c, rfl, by simpa using k1, k2.2, ?_, by simpa [markAll] using k4⟩
        intro x hx
        have hlt := k2.1 x hx
        obtain ⟨m1, m2, m3⟩ := k3 x (by simp [hx])
        exact ⟨by omega, by rw [List.getElem?_set_ne (by omega)]; exact m2, m3⟩

/-- All assignments enumerated for one allocation `ns`, with the first form numbered `i`. -/
theorem mem_ext_indices {fm} : ∀ (ns : List Nat) (i : Nat) (T : List Bool) (d : List Nat),
    d ∈ ext fm (indicesOf i ns) T 0 ↔ ∃ A : List (List Nat), A.map List.length = ns ∧ A.flatten = d ∧ d.Nodup ∧
      (∀ x ∈ d, T[x]? = some false) ∧ ∀ j b, A[j]? = some b → b.Pairwise (· < ·) ∧ ∀ x ∈ b, compat fm (i + j) x = true := by
  intro ns
  induction ns with
  | nil =>
    intro i T d
    simp only [indicesOf, ext, List.mem_singleton]
    constructor
    · rintro rfl; exact ⟨[], rfl, rfl, by simp, by simp, by simp⟩
    · rintro ⟨A, h1, h2, _⟩
      have : A = [] := by simpa using h1
      subst this; exact h2.symm
  | cons n ns ih =>
    intro i T d
    have split : (∃ A : List (List Nat), A.map List.length = n :: ns ∧ A.flatten = d ∧ d.Nodup ∧
        (∀ x ∈ d, T[x]? = some false) ∧ ∀ j b, A[j]? = some b → b.Pairwise (· < ·) ∧ ∀ x ∈ b, compat fm (i + j) x = true) ↔
        ∃ b c, d = b ++ c ∧ b.length = n ∧ b.Pairwise (· < ·) ∧ (∀ x ∈ b, T[x]? = some false ∧ compat fm i x = true) ∧
          c ∈ ext fm (indicesOf (i + 1) ns) (markAll T b) 0 := by
      constructor
      · rintro ⟨A, h1, h2, h3, h4, h5⟩
        cases A with
        | nil => simp at h1
        | cons b A =>
          simp only [List.map_cons, List.cons.injEq] at h1
          simp only [List.flatten_cons] at h2
          subst h2
          rw [List.nodup_append] at h3
          obtain ⟨k1, k2⟩ := h5 0 b rfl
          refine ⟨b, A.flatten, rfl, h1.1, k1, ?_, ?_⟩
          · intro x hx
            exact ⟨h4 x (by simp [hx]), by simpa using k2 x hx⟩
          · rw [ih]
            refine ⟨A, h1.2, rfl, h3.2.1, ?_, ?_⟩
            · intro x hx
              rw [markAll_false]
              exact ⟨h4 x (by rw [List.mem_append]; exact Or.inr hx), fun hb => h3.2.2 x hb x hx rfl⟩
            · intro j c hc
              obtain ⟨m1, m2⟩ := h5 (j + 1) c (by simpa using hc)
              exact ⟨m1, fun x hx => by rw [show i + 1 + j = i + (j + 1) by omega]; exact m2 x hx⟩
      · rintro ⟨b, c, rfl, h1, h2, h3, h4⟩
        rw [ih] at h4
        obtain ⟨A, k1, k2, k3, k4, k5⟩ := h4
        refine ⟨b :: A, by simp [h1, k1], by simp [k2], ?_, ?_, ?_⟩
        · rw [List.nodup_append]
          refine ⟨h2.imp (fun h => by omega), k3, ?_⟩
          intro x hx y hy hxy
          subst hxy
          exact ((markAll_false b T x).1 (k4 x hy)).2 hx
        · intro x hx
          rcases List.mem_append.1 hx with hx | hx
          · exact (h3 x hx).1
          · exact ((markAll_false b T x).1 (k4 x hx)).1
        · intro j e he
          cases j with
          | zero =>
            simp at he; subst he
            exact ⟨h2, fun x hx => by simpa using (h3 x hx).2⟩
          | succ j =>
            obtain ⟨m1, m2⟩ := k5 j e (by simpa using he)
            exact ⟨m1, fun x hx => by rw [show i + (j + 1) = i + 1 + j by omega]; exact m2 x hx⟩
    rw [split, indicesOf]
    cases n with
    | zero =>
      simp only [List.replicate_zero, List.nil_append]
      constructor
      · intro h
        exact ⟨[], d, rfl, rfl, by simp, by simp, by simpa [markAll] using h⟩
      · rintro ⟨b, c, rfl, h1, _, _, h4⟩
        have : b = [] := by simpa using h1
        subst this
        simpa [markAll] using h4
    | succ n =>
      rw [mem_ext_block (by intro g hg; have := indicesOf_bound (i + 1) ns g hg; omega)]
      simp

theorem ext_nodup {fm} : ∀ (fs : List Nat) (T : List Bool) (start : Nat), (ext fm fs T start).Nodup
  | [], _, _ => by simp [ext]
  | f :: fs, T, start => by
    simp only [ext]
    rw [List.nodup_flatMap]
    refine ⟨fun i _ => (ext_nodup fs _ _).map (fun a b h => by simpa using h), ?_⟩
    refine (List.nodup_range.filter _).imp ?_
    intro i j hij x hx hy
    simp only [List.mem_map] at hx hy
    obtain ⟨y, _, rfl⟩ := hx
    obtain ⟨z, _, h⟩ := hy
    exact hij (List.cons.inj h).1.symm

theorem cutBy_flatten {α : Type} (A : List (List α)) : cutBy (A.map List.length) A.flatten = A := by
  induction A with
  | nil => rfl
  | cons a A ih => simp [cutBy, ih]

theorem flatten_cutBy {α : Type} : ∀ (ns : List Nat) (d : List α), d.length = ns.sum → (cutBy ns d).flatten = d ∧ (cutBy ns d).map List.length = ns
  | [], d, h => by
    have : d = [] := by simpa using h
    subst this; simp [cutBy]
  | n :: ns, d, h => by
    simp at h
    obtain ⟨h1, h2⟩ := flatten_cutBy ns (d.drop n) (by simp; omega)
    refine ⟨by simp [cutBy, h1], by simp [cutBy, h2]; omega⟩

theorem ext_length {fm} : ∀ (fs : List Nat) (T : List Bool) (start : Nat), ∀ d ∈ ext fm fs T start, d.length = fs.length
  | [], _, _ => by simp [ext]
  | f :: fs, T, start => by
    intro d hd
    rw [mem_ext_cons] at hd
    obtain ⟨i, e, rfl, _, _, _, he⟩ := hd
    simp [ext_length fs _ _ e he]

/-- A list of `l` distinct numbers below `l` is a rearrangement of `0, ..., l-1`. -/
theorem perm_range {d : List Nat} {l : Nat} (h1 : d.Nodup) (h2 : ∀ x ∈ d, x < l) (h3 : d.length = l) : d.Perm (List.range l) := by
  have hs : d.Subperm (List.range l) := List.subperm_of_subset h1 (fun x hx => List.mem_range.2 (h2 x hx))
  exact hs.perm_of_length_le (by simp [h3])

end Expreduce
