import Verif.Spec.Alloc
import Verif.Proofs.Assn

/-! Membership in the enumerations of `assnIter`. -/

namespace Expreduce

theorem alloc_toNat {forms : List ParsedForm} {a : List Int} (hs : ∀ f ∈ forms, 0 ≤ f.startI)
    (h : List.Forall₂ (fun (f : ParsedForm) (n : Int) => f.startI ≤ n ∧ n ≤ f.endI) forms a) : (a.map Int.toNat).map (fun n : Nat => (n : Int)) = a ∧
      ((a.map Int.toNat).sum : Int) = a.sum ∧ a.length = forms.length := by
  induction h with
  | nil => simp
  | @cons f n fs as h1 _ ih =>
    obtain ⟨i1, i2, i3⟩ := ih (fun x hx => hs x (by simp [hx]))
    have := hs f (by simp)
    have hn : ((n.toNat : Nat) : Int) = n := by omega
    refine ⟨?_, ?_, by simp [i3]⟩
    · simp only [List.map_cons, hn, i1]
    · simp only [List.map_cons, List.sum_cons]; push_cast; rw [i2, hn]

theorem forall₂_length_map {forms : List ParsedForm} {A : List (List Nat)} :
    List.Forall₂ (fun (f : ParsedForm) (n : Int) => f.startI ≤ n ∧ n ≤ f.endI) forms (A.map (fun b => (b.length : Int))) ↔
    List.Forall₂ (fun (f : ParsedForm) (b : List Nat) => f.startI ≤ (b.length : Int) ∧ (b.length : Int) ≤ f.endI) forms A := by
  rw [List.forall₂_map_right_iff]

theorem mem_assnOrderless (forms : List ParsedForm) (fm : List (List Bool)) (l : Nat) (hne : forms ≠ []) (hs : ∀ f ∈ forms, 0 ≤ f.startI) :
    ∀ A, A ∈ assnOrderless l fm (completions forms l) ↔ IsAssignment forms fm l A := by
  intro A
  unfold assnOrderless IsAssignment
  simp only [List.mem_flatMap, List.mem_map]
  constructor
  · rintro ⟨a, ha, d, hd, rfl⟩
    have hal := (mem_completions forms l a hne hs).1 ha
    have ha' := alloc_toNat hs hal.1
    have hl : d.length = (a.map Int.toNat).sum := by rw [ext_length _ _ _ d hd, indicesOf_length]
    rw [mem_ext_indices] at hd
    obtain ⟨A, h1, h2, h3, h4, h5⟩ := hd
    have hA : cutBy (a.map Int.toNat) d = A := by rw [← h1, ← h2, cutBy_flatten]
    rw [hA]
    refine ⟨?_, ?_, ?_⟩
    · rw [← forall₂_length_map]
      have : A.map (fun b => (b.length : Int)) = a := by
        rw [← ha'.1, ← h1]; simp
      rw [this]; exact hal.1
    · rw [h2]
      refine perm_range h3 ?_ ?_
      · intro x hx
        have := h4 x hx
        rw [List.getElem?_eq_some_iff] at this
        simpa using this.1
      · rw [hl]; have := hal.2; have := ha'.2.1; omega
    · intro j b hb
      obtain ⟨k1, k2⟩ := h5 j b hb
      exact ⟨k1, fun x hx => by simpa [compat] using k2 x hx⟩
  · rintro ⟨h1, h2, h3⟩
    have hlen : A.flatten.length = l := by rw [h2.length_eq]; simp
    refine ⟨A.map (fun b => (b.length : Int)), ?_, A.flatten, ?_, ?_⟩
    · rw [mem_completions forms l _ hne hs]
      refine ⟨forall₂_length_map.2 h1, ?_⟩
      rw [List.length_flatten] at hlen
      have e : ∀ A : List (List Nat), (A.map (fun b => (b.length : Int))).sum = ((A.map List.length).sum : Nat) := by
        intro A; induction A with
        | nil => rfl
        | cons b A ih => simp [ih]
      rw [e, hlen]
    · rw [mem_ext_indices]
      refine ⟨A, by simp, rfl, (h2.nodup_iff).2 List.nodup_range, ?_, ?_⟩
      · intro x hx
        have : x < l := by simpa using (h2.mem_iff).1 hx
        simp [List.getElem?_replicate, this]
      · intro j b hb
        obtain ⟨k1, k2⟩ := h3 j b hb
        exact ⟨k1, fun x hx => by simpa [compat] using k2 x hx⟩
    · have : (A.map (fun b => (b.length : Int))).map Int.toNat = A.map List.length := by simp
      rw [this, cutBy_flatten]

theorem ordered_length (forms : List ParsedForm) (l : Nat) (hne : forms ≠ []) (hs : ∀ f ∈ forms, 0 ≤ f.startI) :
    ∀ a ∈ completions forms l, (List.range l).length = (a.map Int.toNat).sum := by
  intro a ha
  obtain ⟨h1, h2⟩ := (mem_completions forms l a hne hs).1 ha
  obtain ⟨_, h3, _⟩ := alloc_toNat hs h1
  simp; omega

theorem mem_ordered (forms : List ParsedForm) (l : Nat) (hne : forms ≠ []) (hs : ∀ f ∈ forms, 0 ≤ f.startI) :
    ∀ A, A ∈ (completions forms l).map (fun a => cutBy (a.map Int.toNat) (List.range l)) ↔ A.flatten = List.range l ∧
      List.Forall₂ (fun (f : ParsedForm) (b : List Nat) => f.startI ≤ (b.length : Int) ∧ (b.length : Int) ≤ f.endI) forms A := by
  have hlen := ordered_length forms l hne hs
  intro A
  simp only [List.mem_map]
  constructor
  · rintro ⟨a, ha, rfl⟩
    obtain ⟨h1, h2⟩ := (mem_completions forms l a hne hs).1 ha
    obtain ⟨k1, k2⟩ := flatten_cutBy _ (List.range l) (hlen a ha)
    refine ⟨k1, ?_⟩
    rw [← forall₂_length_map]
    have : (cutBy (a.map Int.toNat) (List.range l)).map (fun b => (b.length : Int)) = a := by
      have e := congrArg (List.map (fun n : Nat => (n : Int))) k2
      rw [List.map_map, (alloc_toNat hs h1).1] at e
      exact e
    rw [this]; exact h1
  · rintro ⟨h1, h2⟩
    refine ⟨A.map (fun b => (b.length : Int)), ?_, ?_⟩
    · rw [mem_completions forms l _ hne hs]
      refine ⟨forall₂_length_map.2 h2, ?_⟩
      have e : ∀ A : List (List Nat), (A.map (fun b => (b.length : Int))).sum = (A.flatten.length : Nat) := by
        intro A; induction A with
        | nil => rfl
        | cons b A ih => simp [ih]
      rw [e, h1]; simp
    · have : (A.map (fun b => (b.length : Int))).map Int.toNat = A.map List.length := by simp
      rw [this, ← h1, cutBy_flatten]

theorem aRuns_ordered (l : Nat) : ∀ (as : List (List Int)) (s : AssnIter), s.assnData = List.range l → s.orderless = false → s.iteratingOrderless = false →
      AllocRuns s.ai as → ARuns s (as.map (fun a => cutBy (a.map Int.toNat) (List.range l))) := by
  intro as
  induction as with
  | nil =>
    intro s h1 h2 h3 hr
    obtain ⟨n, ai', hn⟩ := hr.nil_inv
    refine .done (n := n + 1) (s' := { s with ai := ai' }) ?_
    unfold AssnIter.next
    rw [if_neg (by simp [h3]), AssnIter.nextAlloc, hn]
  | cons a as ih =>
    intro s h1 h2 h3 hr
    obtain ⟨n, ai', hn, ha, hr'⟩ := hr.cons_inv
    have hnx : s.next (n + 1) = some (true, { s with ai := ai', assnIndices := indicesOf 0 (ai'.alloc.map Int.toNat) ++ s.assnIndices.drop (indicesOf 0 (ai'.alloc.map Int.toNat)).length }) := by
      unfold AssnIter.next
      rw [if_neg (by simp [h3]), AssnIter.nextAlloc, hn]
      simp [h2]
    have := ARuns.more hnx (ih _ h1 h2 h3 hr')
    simpa [AssnIter.assns, ha, h1] using this

end Expreduce
