import Verif.Proofs.AssnMem

/-! Properties C18, C19, C62: the enumeration of ways to share out arguments among pattern elements. -/

namespace Expreduce
open Ex

/-- C18. For any nonempty list of forms with nonnegative lower bounds and any number `l` of arguments, calling the iterator until it
stops ends, and the allocations shown are exactly those within the bounds that use up the `l` arguments, each once. -/
theorem C18_allocations (forms : List ParsedForm) (l : Nat) (hne : forms ≠ []) (hs : ∀ f ∈ forms, 0 ≤ f.startI) :
    ∃ out, (∃ n, ∀ m ≥ n, (newAllocIter l forms).collect m = some out) ∧ out.Nodup ∧ ∀ a, a ∈ out ↔ IsAllocation forms l a := by
  obtain ⟨n, hn⟩ := allocRuns_new l forms
  exact ⟨_, ⟨n, fun m hm => AllocIter.collect_mono hm hn⟩, completions_nodup forms l, fun a => mem_completions forms l a hne hs⟩

/-- The order in which two allocations are tried: at the first form where they differ, an optional form takes more first, any
other form takes fewer first. -/
def TriedBefore : List ParsedForm → List Int → List Int → Prop
  | f :: fs, a :: as, b :: bs => (if f.isOptional then b < a else a < b) ∨ (a = b ∧ TriedBefore fs as bs)
  | _, _, _ => False

/-- C18. The allocations are shown in lexicographic order: shortest sequences first, optional elements filled eagerly. -/
theorem C18_order (forms : List ParsedForm) (l : Nat) :
    ∃ out, (∃ n, ∀ m ≥ n, (newAllocIter l forms).collect m = some out) ∧ out.Pairwise (TriedBefore forms) := by
  obtain ⟨n, hn⟩ := allocRuns_new l forms
  refine ⟨_, ⟨n, fun m hm => AllocIter.collect_mono hm hn⟩, ?_⟩
  have hrange : ∀ lo hi : Int, (intRange lo hi).Pairwise (· < ·) := by
    intro lo hi
    unfold intRange
    rw [List.pairwise_map]
    exact List.pairwise_lt_range.imp (fun h => by omega)
  have htries : ∀ (f : ParsedForm) r, (tries f r).Pairwise (fun a b => if f.isOptional then b < a else a < b) := by
    intro f r
    unfold tries
    cases f.isOptional with
    | true => simp only [if_true]; exact List.pairwise_reverse.2 (hrange _ _)
    | false => simpa using hrange _ _
  have key : ∀ (forms : List ParsedForm) (r : Int), (completions forms r).Pairwise (TriedBefore forms) := by
    intro forms
    induction forms with
    | nil => intro r; simp [completions]
    | cons f fs ih =>
      intro r
      cases fs with
      | nil => simp only [completions]; split <;> simp
      | cons g gs =>
        simp only [completions]
        rw [List.pairwise_flatMap]
        refine ⟨?_, ?_⟩
        · intro i _
          rw [List.pairwise_map]
          exact (ih (r - i)).imp (fun h => Or.inr ⟨rfl, h⟩)
        · refine (htries f r).imp ?_
          intro i j hij x hx y hy
          simp only [List.mem_map] at hx hy
          obtain ⟨x', _, rfl⟩ := hx
          obtain ⟨y', _, rfl⟩ := hy
          exact Or.inl hij
  exact key forms l

/-- The forms of `{x_, y__, z___}`. -/
def exForms : List ParsedForm := [⟨1, 1, .expr [S "Blank"], true, false, false, none, some "x"⟩,
  ⟨1, 2 ^ 63 - 1, .expr [S "Blank"], false, false, false, none, some "y"⟩,
  ⟨0, 2 ^ 63 - 1, .expr [S "Blank"], false, false, false, none, some "z"⟩]

/-- Hypotheses of C18 are met, and there are allocations: `{x_, y__, z___}` against 3 arguments (test). -/
example : exForms ≠ [] ∧ (∀ f ∈ exForms, 0 ≤ f.startI) ∧ (newAllocIter 3 exForms).collect 20 = some [[1, 1, 1], [1, 2, 0]] := by
  refine ⟨by simp [exForms], by decide, by decide⟩

/-- C18, outside the hypothesis: a pattern without elements is proposed for every number of arguments, although nothing takes the
`l` arguments. (Hence `MatchQ[f[a], f[]]`, see `C62`.) -/
theorem C18_no_forms (l : Nat) : ∃ n, ∀ m ≥ n, (newAllocIter l []).collect m = some [[]] := by
  obtain ⟨n, hn⟩ := allocRuns_new l []
  exact ⟨n, fun m hm => AllocIter.collect_mono hm hn⟩

/-- C18, outside the hypothesis: a negative repetition count, as in `Repeated[a, {-2}]`, makes the iterator propose a negative
number of arguments (slicing with it panics in Go). -/
theorem C18_negative_bound (f g : ParsedForm) (hf : f.startI = -2 ∧ f.endI = -2) (hg : g.startI = 0 ∧ g.endI = 2 ^ 63 - 1) :
    ∃ n, ∀ m ≥ n, (newAllocIter 0 [f, g]).collect m = some [[-2, 2]] := by
  obtain ⟨n, hn⟩ := allocRuns_new 0 [f, g]
  refine ⟨n, fun m hm => ?_⟩
  rw [AllocIter.collect_mono hm hn]
  have : tries f 0 = [-2] := by
    unfold tries
    rw [hf.1, hf.2]
    have : intRange (-2) (min (-2) 0) = [-2] := by decide
    rw [this]; split <;> rfl
  simp [completions, this, hg.1, hg.2]

/-- C19. With an `Orderless` head: for any nonempty list of forms with nonnegative lower bounds, any compatibility table with one row
per form, and any number of arguments, the iterator ends and shows exactly the assignments of all arguments to forms that respect
bounds and compatibility, each exactly once. -/
theorem C19_orderless (forms : List ParsedForm) (fm : List (List Bool)) (l : Nat) (hne : forms ≠ []) (hs : ∀ f ∈ forms, 0 ≤ f.startI)
    (hfm : fm.length = forms.length) :
    ∃ out, (∃ n, ∀ m ≥ n, (newAssnIter l forms fm true).collect m = some out) ∧ out.Nodup ∧ ∀ A, A ∈ out ↔ IsAssignment forms fm l A := by
  have hall : ∀ a ∈ completions forms l, (a.map Int.toNat).sum = l ∧ a.length ≤ fm.length := by
    intro a ha
    obtain ⟨h1, h2⟩ := (mem_completions forms l a hne hs).1 ha
    obtain ⟨_, h3, h4⟩ := alloc_toNat hs h1
    exact ⟨by omega, by omega⟩
  have hruns := aRuns_orderless l fm (completions forms l) (newAssnIter l forms fm true) (newAllocIter l forms)
    ⟨by simp [newAssnIter], by simp [newAssnIter], rfl, rfl, rfl, rfl, rfl, rfl⟩ (allocRuns_new l forms) hall
  obtain ⟨n, hn⟩ := hruns.collect
  refine ⟨_, ⟨n, fun m hm => AssnIter.collect_mono hm hn⟩, ?_, ?_⟩
  · unfold assnOrderless
    rw [List.nodup_flatMap]
    refine ⟨?_, ?_⟩
    · intro a ha
      refine List.Nodup.map_on ?_ (ext_nodup _ _ _)
      intro d hd e he h
      have hl : ∀ d ∈ ext fm (indicesOf 0 (a.map Int.toNat)) (List.replicate l false) 0, d.length = (a.map Int.toNat).sum := by
        intro d hd; rw [ext_length _ _ _ d hd, indicesOf_length]
      rw [← (flatten_cutBy _ d (hl d hd)).1, ← (flatten_cutBy _ e (hl e he)).1, h]
    · refine (completions_nodup forms l).imp_of_mem ?_
      intro a b ha hb hab A hA hB
      simp only [List.mem_map] at hA hB
      obtain ⟨d, hd, rfl⟩ := hA
      obtain ⟨e, he, h⟩ := hB
      apply hab
      have ha' := alloc_toNat hs ((mem_completions forms l a hne hs).1 ha).1
      have hb' := alloc_toNat hs ((mem_completions forms l b hne hs).1 hb).1
      rw [← ha'.1, ← hb'.1]
      congr 1
      rw [← (flatten_cutBy (a.map Int.toNat) d (by rw [ext_length _ _ _ d hd, indicesOf_length])).2,
        ← (flatten_cutBy (b.map Int.toNat) e (by rw [ext_length _ _ _ e he, indicesOf_length])).2, h]
  · exact fun A => mem_assnOrderless forms fm l hne hs A

/-- C19 (test): `x_, y__` against `{a, b, c}` where `x_` is compatible with the last two only. -/
example : (newAssnIter 3 (exForms.take 2) [[false, true, true], [true, true, true]] true).collect 40 =
    some [[[1], [0, 2]], [[2], [0, 1]]] := by decide

/-- Hypotheses of C19 are met by that case. -/
example : exForms.take 2 ≠ [] ∧ (∀ f ∈ exForms.take 2, 0 ≤ f.startI) ∧
    [[false, true, true], [true, true, true]].length = (exForms.take 2).length := by
  refine ⟨by simp [exForms], by decide, rfl⟩

/-- C19. Without `Orderless`, the iterator shows for each allocation the consecutive segments of `0..l-1`, and nothing else;
compatibility is not consulted. -/
theorem C19_ordered (forms : List ParsedForm) (fm : List (List Bool)) (l : Nat) (hne : forms ≠ []) (hs : ∀ f ∈ forms, 0 ≤ f.startI) :
    ∃ out, (∃ n, ∀ m ≥ n, (newAssnIter l forms fm false).collect m = some out) ∧ out.Nodup ∧
      ∀ A, A ∈ out ↔ A.flatten = List.range l ∧
        List.Forall₂ (fun (f : ParsedForm) (b : List Nat) => f.startI ≤ (b.length : Int) ∧ (b.length : Int) ≤ f.endI) forms A := by
  obtain ⟨n, hn⟩ := (aRuns_ordered l (completions forms l) (newAssnIter l forms fm false) rfl rfl rfl (allocRuns_new l forms)).collect
  have hlen : ∀ a ∈ completions forms l, (List.range l).length = (a.map Int.toNat).sum := by
    intro a ha
    obtain ⟨h1, h2⟩ := (mem_completions forms l a hne hs).1 ha
    obtain ⟨_, h3, _⟩ := alloc_toNat hs h1
    simp; omega
  refine ⟨_, ⟨n, fun m hm => AssnIter.collect_mono hm hn⟩, ?_, ?_⟩
  · refine List.Nodup.map_on ?_ (completions_nodup forms l)
    intro a ha b hb h
    rw [← (alloc_toNat hs ((mem_completions forms l a hne hs).1 ha).1).1, ← (alloc_toNat hs ((mem_completions forms l b hne hs).1 hb).1).1,
      ← (flatten_cutBy _ (List.range l) (hlen a ha)).2, ← (flatten_cutBy _ (List.range l) (hlen b hb)).2, h]
  · exact fun A => mem_ordered forms l hne hs A

/-- C19 (test): ordered assignment of `x_, y__, z___` to three arguments. -/
example : (newAssnIter 3 exForms [] false).collect 40 = some [[[0], [1], [2]], [[0], [1, 2], []]] := by decide

/-- C62. With an `Orderless` head a pattern without elements makes the iterator fail (index out of range on the empty
compatibility table) for every positive number of arguments: no number of steps lets it return normally. -/
theorem C62_orderless_no_forms_crashes (l : Nat) (hl : 0 < l) : ∀ n, (newAssnIter l [] [] true).collect n = none := by
  have h1 : ∀ n s, s.stack = [⟨0, 0, true, none⟩] → s.formMatches = [] → 0 < s.assnData.length → AssnIter.nextOrderless n s = none := by
    intro n s h1 h2 h3
    cases n with
    | zero => rfl
    | succ n =>
      rw [AssnIter.nextOrderless, h1]
      simp only [AssnState.write, gt_iff_lt, Nat.lt_irrefl, if_false]
      rw [if_neg (by omega)]
      split
      · rfl
      · rw [h2]; simp
  intro n
  cases n with
  | zero => rfl
  | succ n =>
    rw [AssnIter.collect]
    have : (newAssnIter l [] [] true).next n = none := by
      unfold AssnIter.next
      rw [if_neg (by simp [newAssnIter])]
      cases n with
      | zero => rfl
      | succ n =>
        rw [AssnIter.nextAlloc]
        cases n with
        | zero => rfl
        | succ n =>
          have : (newAssnIter l [] [] true).ai.next (n + 1) = some (true, ⟨[], [], []⟩) := rfl
          rw [this]
          simp only
          rw [if_pos (by simp [newAssnIter]), h1 _ _ rfl rfl (by simp [newAssnIter, hl])]
    rw [this]

end Expreduce
