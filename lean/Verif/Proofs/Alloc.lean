import Verif.Model.Alloc
import Mathlib.Data.List.Basic
import Mathlib.Data.List.Nodup
import Mathlib.Algebra.BigOperators.Group.List.Basic
import Mathlib.Tactic.Ring

/-! Lemmas about the allocation iterator. -/

namespace Expreduce

theorem AllocIter.next_mono {n : Nat} : ∀ {m : Nat} {ai : AllocIter} {r}, n ≤ m → ai.next n = some r → ai.next m = some r := by
  induction n with
  | zero => intro m ai r _ h; simp [AllocIter.next] at h
  | succ n ih =>
    intro m ai r hm h
    obtain ⟨m, rfl⟩ : ∃ k, m = k + 1 := ⟨m - 1, by omega⟩
    rw [AllocIter.next] at h ⊢
    cases hs : ai.stack with
    | nil => rw [hs] at h; exact h
    | cons p rest =>
      rw [hs] at h
      simp only at h ⊢
      cases hf : ai.forms[p.currForm]? with
      | none => rw [hf] at h; exact h
      | some f =>
        rw [hf] at h
        exact ih (by omega) h

theorem AllocIter.collect_mono {n : Nat} : ∀ {m : Nat} {ai : AllocIter} {r}, n ≤ m → ai.collect n = some r → ai.collect m = some r := by
  induction n with
  | zero => intro m ai r _ h; simp [AllocIter.collect] at h
  | succ n ih =>
    intro m ai r hm h
    obtain ⟨m, rfl⟩ : ∃ k, m = k + 1 := ⟨m - 1, by omega⟩
    rw [AllocIter.collect] at h ⊢
    cases hn : ai.next n with
    | none => rw [hn] at h; simp at h
    | some q =>
      obtain ⟨b, ai'⟩ := q
      rw [hn] at h
      rw [AllocIter.next_mono (show n ≤ m by omega) hn]
      cases b with
      | false => exact h
      | true =>
        simp only [Option.map_eq_some_iff] at h ⊢
        obtain ⟨a, h1, h2⟩ := h
        exact ⟨a, ih (by omega) h1, h2⟩

/-- The iterator, called until it returns false, ends and shows exactly the allocations `out`. -/
def AllocRuns (ai : AllocIter) (out : List (List Int)) : Prop := ∃ n, ai.collect n = some out

theorem AllocRuns.nil (forms alloc) : AllocRuns ⟨forms, alloc, []⟩ [] := ⟨2, rfl⟩

theorem AllocRuns.leaf {forms alloc p rest out} (hf : forms[p.currForm]? = none)
    (h : AllocRuns ⟨forms, p.write alloc, rest⟩ out) : AllocRuns ⟨forms, alloc, p :: rest⟩ (p.write alloc :: out) := by
  obtain ⟨n, hn⟩ := h
  refine ⟨n + 2, ?_⟩
  rw [AllocIter.collect, AllocIter.next]
  simp only [hf]
  rw [AllocIter.collect_mono (show n ≤ n + 1 by omega) hn]; rfl

theorem AllocRuns.node {forms alloc p rest out f} (hf : forms[p.currForm]? = some f)
    (h : AllocRuns ⟨forms, p.write alloc, p.children f (decide (p.currForm + 1 ≥ forms.length)) ++ rest⟩ out) :
    AllocRuns ⟨forms, alloc, p :: rest⟩ out := by
  obtain ⟨n, hn⟩ := h
  refine ⟨n + 1, ?_⟩
  cases n with
  | zero => simp [AllocIter.collect] at hn
  | succ n =>
    rw [AllocIter.collect] at hn ⊢
    rw [AllocIter.next]
    simp only [hf]
    cases hq : AllocIter.next n ⟨forms, p.write alloc, p.children f (decide (p.currForm + 1 ≥ forms.length)) ++ rest⟩ with
    | none => rw [hq] at hn; simp at hn
    | some q =>
      obtain ⟨b, ai'⟩ := q
      rw [hq] at hn
      cases b with
      | false => exact hn
      | true =>
        simp only [Option.map_eq_some_iff] at hn ⊢
        obtain ⟨a, h1, h2⟩ := hn
        exact ⟨a, AllocIter.collect_mono (by omega) h1, h2⟩

/-- The shares tried for a form that is not the last one, in order. -/
def tries (f : ParsedForm) (rem : Int) : List Int :=
  let up := intRange f.startI (min f.endI rem)
  if f.isOptional then up.reverse else up

/-- The completions of an allocation, in the order the iterator shows them. -/
def completions : List ParsedForm → Int → List (List Int)
  | [], _ => [[]]
  | [f], rem => if f.startI ≤ rem ∧ rem ≤ f.endI then [[rem]] else []
  | f :: g :: fs, rem => (tries f rem).flatMap fun i => (completions (g :: fs) (rem - i)).map (i :: ·)

theorem mem_intRange {lo hi i : Int} : i ∈ intRange lo hi ↔ lo ≤ i ∧ i ≤ hi := by
  unfold intRange
  simp only [List.mem_map, List.mem_range]
  constructor
  · rintro ⟨k, hk, rfl⟩; omega
  · rintro ⟨h1, h2⟩; exact ⟨(i - lo).toNat, by omega, by omega⟩

theorem nodup_intRange (lo hi : Int) : (intRange lo hi).Nodup := by
  unfold intRange
  refine List.Nodup.map ?_ List.nodup_range
  intro a b h; simpa using h

theorem mem_tries {f rem i} : i ∈ tries f rem ↔ f.startI ≤ i ∧ i ≤ f.endI ∧ i ≤ rem := by
  unfold tries
  simp only
  split <;> simp [mem_intRange]

theorem nodup_tries (f rem) : (tries f rem).Nodup := by
  unfold tries
  simp only
  split
  · exact List.nodup_reverse.2 (nodup_intRange _ _)
  · exact nodup_intRange _ _

theorem children_not_last (p : AllocState) (f : ParsedForm) :
    p.children f false = (tries f p.remaining).map (fun i => ⟨p.currForm + 1, p.remaining - i, i⟩) := by
  unfold AllocState.children tries
  have hfil : (intRange f.startI (min f.endI p.remaining)).filter (fun i => decide (p.remaining - i ≥ 0)) =
      intRange f.startI (min f.endI p.remaining) := by
    rw [List.filter_eq_self]
    intro a ha
    rw [mem_intRange] at ha
    simp; omega
  simp only [hfil, Bool.false_eq_true, if_false]
  split <;> simp

/-- The first `d` entries of the allocation once the state `p` has been written. -/
def pre (p : AllocState) (alloc : List Int) : List Int := (p.write alloc).take p.currForm

theorem write_length (p : AllocState) (alloc) : (p.write alloc).length = alloc.length := by
  unfold AllocState.write; split <;> simp

theorem write_take (p : AllocState) (alloc : List Int) : (p.write alloc).take (p.currForm - 1) = alloc.take (p.currForm - 1) := by
  unfold AllocState.write
  split
  · rw [List.take_set_of_le (by omega)]
  · rfl

theorem pre_congr (p : AllocState) {a b : List Int} (hl : a.length = b.length)
    (h : a.take (p.currForm - 1) = b.take (p.currForm - 1)) (hlen : p.currForm ≤ a.length) : pre p a = pre p b := by
  unfold pre AllocState.write
  by_cases hp : p.currForm ≥ 1
  · simp only [if_pos hp]
    obtain ⟨k, hk⟩ : ∃ k, p.currForm = k + 1 := ⟨p.currForm - 1, by omega⟩
    rw [hk] at h hlen ⊢
    simp only [Nat.add_sub_cancel] at h ⊢
    have e : ∀ c : List Int, k < c.length → (c.set k p.currFormI).take (k + 1) = c.take k ++ [p.currFormI] := by
      intro c hc
      rw [List.take_add_one, List.take_set_of_le (Nat.le_refl k)]
      simp [hc]
    rw [e a (by omega), e b (by omega), h]
  · have : p.currForm = 0 := by omega
    simp [this]

theorem pre_child (p : AllocState) (alloc : List Int) (i r : Int) (hlt : p.currForm < alloc.length) :
    pre ⟨p.currForm + 1, r, i⟩ (p.write alloc) = pre p alloc ++ [i] := by
  unfold pre
  simp only [AllocState.write, ge_iff_le, Nat.le_add_left, if_true, Nat.add_sub_cancel]
  have hl := write_length p alloc
  unfold AllocState.write at hl
  rw [List.take_add_one, List.take_set_of_le (Nat.le_refl _)]
  rw [List.getElem?_set_self (by simp only [ge_iff_le] at hl; rw [hl]; exact hlt)]
  rfl

/-- One state of the stack contributes its completions, provided the rest of the stack behaves the same for every
allocation that agrees on the entries before it. -/
theorem allocRuns_entry (forms : List ParsedForm) : ∀ (k : Nat) (p : AllocState) (rest : List AllocState) (alloc : List Int) (out),
    forms.length = p.currForm + k → alloc.length = forms.length →
    (∀ a : List Int, a.length = forms.length → a.take (p.currForm - 1) = alloc.take (p.currForm - 1) → AllocRuns ⟨forms, a, rest⟩ out) →
    AllocRuns ⟨forms, alloc, p :: rest⟩ ((completions (forms.drop p.currForm) p.remaining).map (pre p alloc ++ ·) ++ out) := by
  intro k
  induction k with
  | zero =>
    intro p rest alloc out hk hl hrest
    have hf : forms[p.currForm]? = none := by rw [List.getElem?_eq_none_iff]; omega
    have hd : forms.drop p.currForm = [] := by rw [List.drop_eq_nil_iff]; omega
    rw [hd]
    simp only [completions, List.map_cons, List.map_nil, List.append_nil, List.singleton_append]
    have hpre : pre p alloc = p.write alloc := by
      unfold pre
      rw [List.take_of_length_le]
      rw [write_length]; omega
    rw [hpre]
    exact AllocRuns.leaf hf (hrest _ (by rw [write_length]; exact hl) (write_take p alloc))
  | succ k ih =>
    intro p rest alloc out hk hl hrest
    have hlt : p.currForm < forms.length := by omega
    have hf : forms[p.currForm]? = some forms[p.currForm] := List.getElem?_eq_getElem hlt
    refine AllocRuns.node hf ?_
    generalize hfe : forms[p.currForm] = f
    have hdrop : forms.drop p.currForm = f :: forms.drop (p.currForm + 1) := by
      rw [← hfe]; exact List.drop_eq_getElem_cons hlt
    -- a list of children
    have kids : ∀ (is : List (Int × Int)) (a : List Int), a.length = forms.length → a.take p.currForm = (p.write alloc).take p.currForm →
        AllocRuns ⟨forms, a, is.map (fun ir => (⟨p.currForm + 1, ir.2, ir.1⟩ : AllocState)) ++ rest⟩
          ((is.flatMap fun ir => (completions (forms.drop (p.currForm + 1)) ir.2).map (pre p alloc ++ ir.1 :: ·)) ++ out) := by
      intro is
      induction is with
      | nil =>
        intro a ha1 ha2
        simp only [List.map_nil, List.nil_append, List.flatMap_nil]
        refine hrest a ha1 ?_
        have := congrArg (List.take (p.currForm - 1)) ha2
        rw [List.take_take, List.take_take, Nat.min_eq_left (by omega)] at this
        rw [this, write_take]
      | cons ir is ihs =>
        intro a ha1 ha2
        simp only [List.map_cons, List.cons_append, List.flatMap_cons, List.append_assoc]
        have hsib := ih ⟨p.currForm + 1, ir.2, ir.1⟩ (is.map (fun ir => (⟨p.currForm + 1, ir.2, ir.1⟩ : AllocState)) ++ rest) a _ (by simp; omega) ha1
          (fun a' ha1' ha2' => ihs a' ha1' (by simp only [Nat.add_sub_cancel] at ha2'; rw [ha2', ha2]))
        have e : pre ⟨p.currForm + 1, ir.2, ir.1⟩ a = pre p alloc ++ [ir.1] := by
          rw [← pre_child p alloc ir.1 ir.2 (by omega)]
          refine pre_congr _ (by rw [write_length]; omega) (by simpa using ha2) (by simp; omega)
        rw [e] at hsib
        simpa using hsib
    by_cases hlast : p.currForm + 1 ≥ forms.length
    · have hd1 : forms.drop (p.currForm + 1) = [] := by rw [List.drop_eq_nil_iff]; omega
      rw [hdrop, hd1]
      simp only [hlast, decide_true, AllocState.children, if_true, completions]
      split
      · have := kids [(p.remaining, 0)] (p.write alloc) (by rw [write_length]; exact hl) rfl
        rw [hd1] at this
        simpa [completions] using this
      · have := kids [] (p.write alloc) (by rw [write_length]; exact hl) rfl
        simpa using this
    · have hd1 : ∃ g gs, forms.drop (p.currForm + 1) = g :: gs := by
        cases h : forms.drop (p.currForm + 1) with
        | nil => rw [List.drop_eq_nil_iff] at h; omega
        | cons g gs => exact ⟨g, gs, rfl⟩
      obtain ⟨g, gs, hg⟩ := hd1
      rw [hdrop, hg]
      simp only [hlast, decide_false, completions]
      rw [children_not_last]
      have := kids ((tries f p.remaining).map (fun i => (i, p.remaining - i))) (p.write alloc) (by rw [write_length]; exact hl) rfl
      rw [hg] at this
      simp only [List.map_map, List.flatMap_map] at this
      rw [List.map_flatMap]
      simpa [List.map_map, Function.comp_def] using this

/-- The iterator ends and shows exactly `completions`. -/
theorem allocRuns_new (l : Nat) (forms : List ParsedForm) : AllocRuns (newAllocIter l forms) (completions forms l) := by
  have := allocRuns_entry forms forms.length ⟨0, l, 0⟩ [] (List.replicate forms.length 0) [] (by simp) (by simp)
    (fun a _ _ => AllocRuns.nil _ _)
  simpa [pre, newAllocIter] using this

theorem completions_nodup : ∀ (forms : List ParsedForm) (rem : Int), (completions forms rem).Nodup
  | [], _ => by simp [completions]
  | [f], rem => by simp only [completions]; split <;> simp
  | f :: g :: fs, rem => by
    simp only [completions]
    rw [List.nodup_flatMap]
    refine ⟨?_, ?_⟩
    · intro i _
      exact (completions_nodup (g :: fs) _).map (fun a b h => by simpa using h)
    · refine (nodup_tries f rem).imp ?_
      intro i j hij x hx hy
      simp only [List.mem_map] at hx hy
      obtain ⟨y, _, rfl⟩ := hx
      obtain ⟨z, _, h⟩ := hy
      exact hij (List.cons.inj h).1.symm

/-- Membership in `completions`. -/
theorem mem_completions : ∀ (forms : List ParsedForm) (rem : Int) (a : List Int), forms ≠ [] → (∀ f ∈ forms, 0 ≤ f.startI) →
    (a ∈ completions forms rem ↔ List.Forall₂ (fun f n => f.startI ≤ n ∧ n ≤ f.endI) forms a ∧ a.sum = rem)
  | [], _, _, h, _ => absurd rfl h
  | [f], rem, a, _, _ => by
    simp only [completions]
    constructor
    · intro h
      split at h
      · simp at h; subst h; simpa using ‹_ ∧ _›
      · simp at h
    · rintro ⟨h1, h2⟩
      cases h1 with
      | cons h3 h4 =>
        cases h4
        simp at h2; subst h2
        simp [h3]
  | f :: g :: fs, rem, a, _, hs => by
    simp only [completions, List.mem_flatMap, List.mem_map]
    have ih := fun r b => mem_completions (g :: fs) r b (by simp) (fun x hx => hs x (by simp [hx]))
    constructor
    · rintro ⟨i, hi, b, hb, rfl⟩
      rw [mem_tries] at hi
      obtain ⟨h1, h2⟩ := (ih _ _).1 hb
      exact ⟨.cons ⟨hi.1, hi.2.1⟩ h1, by simp [h2]⟩
    · rintro ⟨h1, h2⟩
      cases h1 with
      | @cons _ i _ b h3 h4 =>
        refine ⟨i, ?_, b, (ih _ _).2 ⟨h4, by simp at h2; omega⟩, rfl⟩
        rw [mem_tries]
        have hnn : ∀ (fs : List ParsedForm) (b : List Int), (∀ x ∈ fs, 0 ≤ x.startI) →
            List.Forall₂ (fun f n => f.startI ≤ n ∧ n ≤ f.endI) fs b → 0 ≤ b.sum := by
          intro fs b hs h
          induction h with
          | nil => simp
          | cons h1 _ ih =>
            have := ih (fun x hx => hs x (by simp [hx]))
            have := hs _ (List.mem_cons_self ..)
            simp; omega
        have := hnn (g :: fs) b (fun x hx => hs x (by simp [hx])) h4
        simp at h2
        exact ⟨h3.1, h3.2, by omega⟩

end Expreduce
