import Verif.Props.Lists
import Verif.Props.Order
import Verif.Props.Compare

/-! Properties C36, C37, C75: set-like list functions, selection by patterns, list surgery. -/

namespace Expreduce
open Ex

/-! ### C36: DeleteDuplicates -/

/-- Whatever the fingerprints are: the result is a sublist with distinct fingerprints in which every fingerprint of the argument occurs. -/
theorem dedupLoop_spec (l : List Ex) : ∀ seen : List UInt64, (dedupLoop seen l).Sublist l ∧ ((dedupLoop seen l).map hash).Nodup ∧
    (∀ x ∈ dedupLoop seen l, hash x ∉ seen) ∧ (∀ x ∈ l, hash x ∈ seen ∨ ∃ y ∈ dedupLoop seen l, hash y = hash x) := by
  induction l with
  | nil => intro seen; simp [dedupLoop]
  | cons p ps ih =>
    intro seen
    by_cases hp : hash p ∈ seen
    · obtain ⟨h1, h2, h3, h4⟩ := ih seen
      have e : dedupLoop seen (p :: ps) = dedupLoop seen ps := by simp [dedupLoop, hp]
      rw [e]
      refine ⟨h1.cons _, h2, h3, ?_⟩
      intro x hx
      rcases List.mem_cons.1 hx with rfl | hx
      · exact .inl hp
      · exact h4 x hx
    · obtain ⟨h1, h2, h3, h4⟩ := ih (hash p :: seen)
      have e : dedupLoop seen (p :: ps) = p :: dedupLoop (hash p :: seen) ps := by simp [dedupLoop, hp]
      rw [e]
      refine ⟨h1.cons_cons _, ?_, ?_, ?_⟩
      · simp only [List.map_cons, List.nodup_cons]
        refine ⟨fun hm => ?_, h2⟩
        obtain ⟨y, hy, hye⟩ := List.mem_map.1 hm
        exact h3 y hy (by rw [hye]; simp)
      · intro x hx
        rcases List.mem_cons.1 hx with rfl | hx
        · exact hp
        · have := h3 x hx
          simp only [List.mem_cons, not_or] at this
          exact this.2
      · intro x hx
        rcases List.mem_cons.1 hx with rfl | hx
        · exact .inr ⟨x, by simp, rfl⟩
        · rcases h4 x hx with h | ⟨y, hy, hye⟩
          · rcases List.mem_cons.1 h with h | h
            · exact .inr ⟨p, by simp, h.symm⟩
            · exact .inl h
          · exact .inr ⟨y, List.mem_cons_of_mem _ hy, hye⟩

theorem dedupLoop_order (l : List Ex) : ∀ (pre : List Ex), Separated (pre ++ l) → (dedupLoop (pre.map hash) l).Pairwise (fun x y => l.idxOf x < l.idxOf y) ∧
    ∀ x, x ∈ dedupLoop (pre.map hash) l ↔ x ∈ l ∧ x ∉ pre := by
  induction l with
  | nil => intro pre _; simp [dedupLoop]
  | cons p ps ih =>
    intro pre hs
    have hmem : hash p ∈ pre.map hash ↔ p ∈ pre := by
      constructor
      · intro h
        obtain ⟨q, hq, hqe⟩ := List.mem_map.1 h
        have := hs q (by simp [hq]) p (by simp) hqe
        exact this ▸ hq
      · exact fun h => List.mem_map_of_mem h
    by_cases hp : p ∈ pre
    · have e : dedupLoop (pre.map hash) (p :: ps) = dedupLoop (pre.map hash) ps := by simp only [dedupLoop]; rw [if_pos (by simpa using hmem.2 hp)]
      obtain ⟨h1, h2⟩ := ih pre (fun a ha b hb => hs a (by simp at ha ⊢; tauto) b (by simp at hb ⊢; tauto))
      rw [e]
      constructor
      · refine h1.imp_of_mem ?_
        intro x y hx hy hxy
        have nx : ¬ p = x := fun h => ((h2 x).1 hx).2 (h ▸ hp)
        have ny : ¬ p = y := fun h => ((h2 y).1 hy).2 (h ▸ hp)
        rw [List.idxOf_cons_ne _ nx, List.idxOf_cons_ne _ ny]
        omega
      · intro x
        rw [h2 x]
        constructor
        · exact fun h => ⟨List.mem_cons_of_mem _ h.1, h.2⟩
        · rintro ⟨h, h'⟩
          rcases List.mem_cons.1 h with rfl | h
          · exact absurd hp h'
          · exact ⟨h, h'⟩
    · have e : dedupLoop (pre.map hash) (p :: ps) = p :: dedupLoop ((p :: pre).map hash) ps := by
        simp only [dedupLoop]
        rw [if_neg (by simp only [List.contains_eq_mem, decide_eq_true_eq]; exact fun h => hp (hmem.1 h))]
        rfl
      obtain ⟨h1, h2⟩ := ih (p :: pre) (fun a ha b hb => hs a (by simp at ha ⊢; tauto) b (by simp at hb ⊢; tauto))
      rw [e]
      constructor
      · rw [List.pairwise_cons]
        constructor
        · intro y hy
          have ny : ¬ p = y := fun h => ((h2 y).1 hy).2 (by simp [h])
          rw [List.idxOf_cons_self, List.idxOf_cons_ne _ ny]
          omega
        · refine h1.imp_of_mem ?_
          intro x y hx hy hxy
          have nx : ¬ p = x := fun h => ((h2 x).1 hx).2 (by simp [h])
          have ny : ¬ p = y := fun h => ((h2 y).1 hy).2 (by simp [h])
          rw [List.idxOf_cons_ne _ nx, List.idxOf_cons_ne _ ny]
          omega
      · intro x
        simp only [List.mem_cons, h2 x, not_or]
        constructor
        · rintro (rfl | ⟨h, h', h''⟩)
          · exact ⟨.inl rfl, hp⟩
          · exact ⟨.inr h, h''⟩
        · rintro ⟨rfl | h, h'⟩
          · exact .inl rfl
          · by_cases hx : x = p
            · exact .inl hx
            · exact .inr ⟨h, hx, h'⟩

/-- C36. `DeleteDuplicates[f[xs]]` keeps exactly the first occurrence of every element, in order (up to fingerprint collisions). -/
theorem C36_deleteDuplicates (P f : Ex) (xs : List Ex) (hs : Separated xs) :
    ∃ ys, deleteDuplicatesFn [P, .expr (f :: xs)] = some (.expr (f :: ys)) ∧ FirstOccurrences xs ys := by
  obtain ⟨h1, h2⟩ := dedupLoop_order xs [] hs
  exact ⟨dedupLoop [] xs, rfl, fun x => by simpa using h2 x, h1⟩

/-- C36. With colliding fingerprints it keeps one element for each fingerprint. -/
theorem C36_deleteDuplicates_collisions (P f : Ex) (xs : List Ex) :
    ∃ ys, deleteDuplicatesFn [P, .expr (f :: xs)] = some (.expr (f :: ys)) ∧ ys.Sublist xs ∧ (ys.map hash).Nodup ∧
      ∀ x ∈ xs, ∃ y ∈ ys, hash y = hash x := by
  obtain ⟨h1, h2, -, h4⟩ := dedupLoop_spec xs []
  exact ⟨dedupLoop [] xs, rfl, h1, h2, fun x hx => by simpa using h4 x hx⟩

/-! ### C36: Complement, Intersection, Union -/

theorem keepLoop_spec {ok : UInt64 → Bool} (l : List Ex) : ∀ (pre : List Ex), Separated (pre ++ l) → (keepLoop ok (pre.map hash) l).Nodup ∧
    ∀ x, x ∈ keepLoop ok (pre.map hash) l ↔ x ∈ l ∧ x ∉ pre ∧ ok (hash x) = true := by
  induction l with
  | nil => intro pre _; simp [keepLoop]
  | cons p ps ih =>
    intro pre hs
    have hmem : hash p ∈ pre.map hash ↔ p ∈ pre := by
      constructor
      · intro h
        obtain ⟨q, hq, hqe⟩ := List.mem_map.1 h
        have := hs q (by simp [hq]) p (by simp) hqe
        exact this ▸ hq
      · exact fun h => List.mem_map_of_mem h
    by_cases hp : ok (hash p) = true ∧ p ∉ pre
    · have hc : (ok (hash p) && !(pre.map hash).contains (hash p)) = true := by
        simp only [Bool.and_eq_true, Bool.not_eq_true', List.contains_eq_mem, decide_eq_false_iff_not]
        exact ⟨hp.1, fun h => hp.2 (hmem.1 h)⟩
      have e : keepLoop ok (pre.map hash) (p :: ps) = p :: keepLoop ok ((p :: pre).map hash) ps := by
        simp only [keepLoop]
        rw [if_pos hc]
        rfl
      obtain ⟨h1, h2⟩ := ih (p :: pre) (fun a ha b hb => hs a (by simp at ha ⊢; tauto) b (by simp at hb ⊢; tauto))
      rw [e]
      refine ⟨List.nodup_cons.2 ⟨fun h => ((h2 p).1 h).2.1 (by simp), h1⟩, ?_⟩
      intro x
      simp only [List.mem_cons, h2 x, not_or]
      constructor
      · rintro (rfl | ⟨h, ⟨h', h''⟩, h3⟩)
        · exact ⟨.inl rfl, hp.2, hp.1⟩
        · exact ⟨.inr h, h'', h3⟩
      · rintro ⟨rfl | h, h', h3⟩
        · exact .inl rfl
        · by_cases hx : x = p
          · exact .inl hx
          · exact .inr ⟨h, ⟨hx, h'⟩, h3⟩
    · have hc : ¬ (ok (hash p) && !(pre.map hash).contains (hash p)) = true := by
        simp only [Bool.and_eq_true, Bool.not_eq_true', List.contains_eq_mem, decide_eq_false_iff_not]
        exact fun h => hp ⟨h.1, fun h' => h.2 (hmem.2 h')⟩
      have e : keepLoop ok (pre.map hash) (p :: ps) = keepLoop ok (pre.map hash) ps := by simp only [keepLoop]; rw [if_neg hc]
      obtain ⟨h1, h2⟩ := ih pre (fun a ha b hb => hs a (by simp at ha ⊢; tauto) b (by simp at hb ⊢; tauto))
      rw [e]
      refine ⟨h1, fun x => ?_⟩
      rw [h2 x]
      constructor
      · exact fun h => ⟨List.mem_cons_of_mem _ h.1, h.2⟩
      · rintro ⟨h, h', h3⟩
        rcases List.mem_cons.1 h with rfl | h
        · exact absurd ⟨h3, h'⟩ hp
        · exact ⟨h, h', h3⟩

theorem sameHeads_some {f : Ex} (hf : isSameQ f f = true) (ms : List (List Ex)) : sameHeads (some f) (ms.map (fun m => .expr (f :: m))) = some (some ms) := by
  induction ms with
  | nil => rfl
  | cons m ms ih => simp [sameHeads, exprParts, goIndex, hf, ih]

theorem StrictWeakOn.perm {less : Ex → Ex → Bool} {xs ys : List Ex} (h : StrictWeakOn less ys) (hp : ys.Perm xs) : StrictWeakOn less xs :=
  ⟨fun a ha => h.1 a (hp.mem_iff.2 ha), fun a ha b hb c hc => h.2.1 a (hp.mem_iff.2 ha) b (hp.mem_iff.2 hb) c (hp.mem_iff.2 hc),
    fun a ha b hb c hc => h.2.2 a (hp.mem_iff.2 ha) b (hp.mem_iff.2 hb) c (hp.mem_iff.2 hc)⟩

/-- `ys` has no repetition, consists of the elements with the given property, and is sorted wherever the order makes sense on it. -/
def SortedSet (ys : List Ex) (p : Ex → Prop) : Prop :=
  ys.Nodup ∧ (∀ x, x ∈ ys ↔ p x) ∧ (StrictWeakOn exLess ys → ys.Pairwise (fun a b => exLess b a = false))

/-- C36. `Complement[f[xs], f[m₁], f[m₂], ...]` is the sorted list without repetition of the elements of `xs` that are in none of the `mᵢ` (up to
fingerprint collisions). `sort` is any function meeting the contract of the library sort. -/
theorem C36_complement (P f : Ex) (hf : isSameQ f f = true) (sort : List Ex → List Ex) (hsort : ∀ l, SortContract exLess l (sort l)) (xs : List Ex)
    (ms : List (List Ex)) (hs : Separated (xs ++ ms.flatten)) :
    ∃ ys, complementFn sort (P :: .expr (f :: xs) :: ms.map (fun m => .expr (f :: m))) = some (.expr (f :: ys)) ∧
      SortedSet ys (fun x => x ∈ xs ∧ ∀ m ∈ ms, x ∉ m) := by
  obtain ⟨h1, h2⟩ := keepLoop_spec (ok := fun x => !(ms.flatten.map hash).contains x) xs []
    (fun a ha b hb => hs a (by simp at ha; simp [ha]) b (by simp at hb; simp [hb]))
  obtain ⟨hperm, hsrt⟩ := hsort (keepLoop (fun x => !(ms.flatten.map hash).contains x) [] xs)
  refine ⟨_, by simp only [complementFn, sameHeads_some hf, Option.map_some], hperm.nodup_iff.2 h1, ?_, fun h => hsrt (h.perm hperm)⟩
  intro x
  rw [hperm.mem_iff]
  refine (h2 x).trans ?_
  simp only [List.not_mem_nil, not_false_eq_true, true_and, Bool.not_eq_true', List.contains_eq_mem, decide_eq_false_iff_not]
  constructor
  · rintro ⟨h, h'⟩
    exact ⟨h, fun m hm hx => h' (List.mem_map_of_mem (List.mem_flatten_of_mem hm hx))⟩
  · rintro ⟨h, h'⟩
    refine ⟨h, fun hm => ?_⟩
    obtain ⟨y, hy, hye⟩ := List.mem_map.1 hm
    obtain ⟨m, hm, hym⟩ := List.mem_flatten.1 hy
    have := hs y (by simp only [List.mem_append]; exact .inr hy) x (by simp [h]) hye
    exact h' m hm (this ▸ hym)

/-- C36. `Intersection[f[xs], f[m₁], ...]` is the sorted list without repetition of the elements that are in `xs` and in every `mᵢ`. -/
theorem C36_intersection (P f : Ex) (hf : isSameQ f f = true) (sort : List Ex → List Ex) (hsort : ∀ l, SortContract exLess l (sort l)) (xs : List Ex)
    (ms : List (List Ex)) (hs : Separated (xs ++ ms.flatten)) :
    ∃ ys, intersectionFn sort (P :: .expr (f :: xs) :: ms.map (fun m => .expr (f :: m))) = some (.expr (f :: ys)) ∧
      SortedSet ys (fun x => x ∈ xs ∧ ∀ m ∈ ms, x ∈ m) := by
  obtain ⟨h1, h2⟩ := keepLoop_spec (ok := fun x => countIn (xs :: ms) x == (ms.map (fun m => Ex.expr (f :: m))).length + 1) xs []
    (fun a ha b hb => hs a (by simp at ha; simp [ha]) b (by simp at hb; simp [hb]))
  obtain ⟨hperm, hsrt⟩ := hsort (keepLoop (fun x => countIn (xs :: ms) x == (ms.map (fun m => Ex.expr (f :: m))).length + 1) [] xs)
  refine ⟨_, by simp only [intersectionFn, sameHeads_some hf, Option.map_some], hperm.nodup_iff.2 h1, ?_, fun h => hsrt (h.perm hperm)⟩
  intro x
  rw [hperm.mem_iff]
  refine (h2 x).trans ?_
  simp only [List.not_mem_nil, not_false_eq_true, true_and, List.length_map, beq_iff_eq]
  refine and_congr_right (fun hx => ?_)
  have hlen : countIn (xs :: ms) (hash x) = ms.length + 1 ↔ ∀ l ∈ xs :: ms, (l.map hash).contains (hash x) = true := by
    rw [← List.filter_eq_self, countIn]
    constructor
    · exact fun h => (List.filter_sublist (l := xs :: ms)).eq_of_length (by simpa using h)
    · intro h; rw [h]; rfl
  rw [hlen]
  constructor
  · intro h m hm
    have := h m (List.mem_cons_of_mem _ hm)
    simp only [List.contains_eq_mem, decide_eq_true_eq] at this
    obtain ⟨y, hy, hye⟩ := List.mem_map.1 this
    exact hs y (by simp only [List.mem_append]; exact .inr (List.mem_flatten_of_mem hm hy)) x (by simp [hx]) hye ▸ hy
  · intro h l hl
    simp only [List.contains_eq_mem, decide_eq_true_eq]
    rcases List.mem_cons.1 hl with rfl | hl
    · exact List.mem_map_of_mem hx
    · exact List.mem_map_of_mem (h l hl)

theorem collectArgs_some {f : Ex} (hf : isSameQ f f = true) (ms : List (List Ex)) : ∀ acc,
    collectArgs (some f) acc (ms.map (fun m => .expr (f :: m))) = some (some (some f, acc ++ ms.flatten)) := by
  induction ms with
  | nil => simp [collectArgs]
  | cons m ms ih => intro acc; simp [collectArgs, exprParts, goIndex, hf, ih]

theorem dropRepeats_sub (l : List Ex) : ∀ q, (dropRepeats q l).Sublist l := by
  induction l with
  | nil => intro q; simp [dropRepeats]
  | cons p ps ih =>
    intro q
    cases q with
    | none => exact (ih _).cons_cons _
    | some q =>
      simp only [dropRepeats]
      split
      · exact (ih _).cons _
      · exact (ih _).cons_cons _

theorem dropRepeats_spec (l : List Ex) : ∀ q, (∀ a ∈ q :: l, ∀ b ∈ q :: l, isSameQ a b = true ↔ a = b) →
    (∀ a ∈ q :: l, ∀ b ∈ q :: l, exLess a b = false → exLess b a = false → a = b) → (q :: l).Pairwise (fun a b => exLess b a = false) →
    (q :: dropRepeats (some q) l).Nodup ∧ ∀ x, x ∈ q :: dropRepeats (some q) l ↔ x ∈ q :: l := by
  induction l with
  | nil => intro q; simp [dropRepeats]
  | cons p ps ih =>
    intro q hsame htie hsrt
    by_cases e : isSameQ q p = true
    · obtain rfl := (hsame q (by simp) p (by simp)).1 e
      have := ih q (fun a ha b hb => hsame a (by simp at ha ⊢; tauto) b (by simp at hb ⊢; tauto))
        (fun a ha b hb => htie a (by simp at ha ⊢; tauto) b (by simp at hb ⊢; tauto)) (List.pairwise_cons.1 hsrt).2
      simp only [dropRepeats, e, if_true]
      refine ⟨this.1, fun x => ?_⟩
      rw [this.2 x]
      simp
    · have e' : dropRepeats (some q) (p :: ps) = p :: dropRepeats (some p) ps := by simp [dropRepeats, e]
      have hqp : q ≠ p := fun h => e ((hsame q (by simp) p (by simp)).2 h)
      obtain ⟨h1, h2⟩ := ih p (fun a ha b hb => hsame a (by simp at ha ⊢; tauto) b (by simp at hb ⊢; tauto))
        (fun a ha b hb => htie a (by simp at ha ⊢; tauto) b (by simp at hb ⊢; tauto)) (List.pairwise_cons.1 hsrt).2
      rw [e']
      refine ⟨List.nodup_cons.2 ⟨fun hq => ?_, h1⟩, fun x => ?_⟩
      · have hq' := (h2 q).1 hq
        rcases List.mem_cons.1 hq' with h | h
        · exact hqp h
        · have s := List.pairwise_cons.1 hsrt
          have s' := List.pairwise_cons.1 s.2
          exact hqp (htie q (by simp) p (by simp) (s'.1 q h) (s.1 p (by simp)))
      · rw [List.mem_cons, h2 x, List.mem_cons (a := x) (b := q)]

/-- C36. `Union[f[m₁], f[m₂], ...]` is the sorted list without repetition of all elements, if `SameQ` is equality on them, the order is a strict weak order
on them and different elements are never tied. -/
theorem C36_union_partial (P f : Ex) (hf : isSameQ f f = true) (sort : List Ex → List Ex) (hsort : ∀ l, SortContract exLess l (sort l)) (m : List Ex)
    (ms : List (List Ex)) (hsame : ∀ a ∈ (m :: ms).flatten, ∀ b ∈ (m :: ms).flatten, isSameQ a b = true ↔ a = b)
    (htie : ∀ a ∈ (m :: ms).flatten, ∀ b ∈ (m :: ms).flatten, exLess a b = false → exLess b a = false → a = b)
    (hw : StrictWeakOn exLess (m :: ms).flatten) :
    ∃ ys, unionFn sort (P :: (m :: ms).map (fun m => .expr (f :: m))) = some (.expr (f :: ys)) ∧
      SortedSet ys (fun x => ∃ l ∈ m :: ms, x ∈ l) := by
  obtain ⟨hperm, hsrt⟩ := hsort (m :: ms).flatten
  have hsrt := hsrt hw
  refine ⟨dropRepeats none (sort (m :: ms).flatten), ?_, ?_⟩
  · simp [unionFn, collectArgs, exprParts, goIndex, collectArgs_some hf]
  · cases hl : sort (m :: ms).flatten with
    | nil =>
      have he : (m :: ms).flatten = [] := by rw [hl] at hperm; exact hperm.nil_eq.symm
      refine ⟨by simp [dropRepeats], fun x => ?_, fun _ => by simp [dropRepeats]⟩
      have := List.mem_flatten (a := x) (L := m :: ms)
      rw [he] at this
      show _ ↔ ∃ l ∈ m :: ms, x ∈ l
      rw [← this]
      simp [dropRepeats]
    | cons q l =>
      rw [hl] at hperm hsrt
      obtain ⟨h1, h2⟩ := dropRepeats_spec l q (fun a ha b hb => hsame a (hperm.mem_iff.1 ha) b (hperm.mem_iff.1 hb))
        (fun a ha b hb => htie a (hperm.mem_iff.1 ha) b (hperm.mem_iff.1 hb)) hsrt
      refine ⟨h1, fun x => ?_, fun _ => hsrt.sublist ((dropRepeats_sub l _).cons_cons q)⟩
      rw [show dropRepeats none (q :: l) = q :: dropRepeats (some q) l from rfl, h2 x, hperm.mem_iff, List.mem_flatten]

/-- The hypotheses are met, for instance by integers: `Union[{2, 1}, {1}]`. -/
example : let l : List Ex := [.int 2, .int 1, .int 1]
    (∀ a ∈ l, ∀ b ∈ l, isSameQ a b = true ↔ a = b) ∧ (∀ a ∈ l, ∀ b ∈ l, exLess a b = false → exLess b a = false → a = b) ∧ StrictWeakOn exLess l ∧
      Separated l := by
  intro l
  have hl : ∀ a ∈ l, a = .int 1 ∨ a = .int 2 := by intro a; simp [l]; tauto
  refine ⟨by decide +kernel, ?_, exOrder_strictWeak (fun x hx => ?_), ?_⟩
  · intro a ha b hb
    rcases hl a ha with rfl | rfl <;> rcases hl b hb with rfl | rfl <;> simp [exLess, exOrder_int, cmpInt]
  · rcases hl x hx with rfl | rfl <;> exact .int _
  · unfold Separated
    decide +kernel

/-- C36. `Union` can return an element twice: complex numbers with the same real part are tied in the order, so that equal elements need not be
neighbours. `Union[{1+2I, 1+3I, 1+2I}]` returns its argument. -/
theorem C36_union_repeats :
    let a := Ex.cplx (.int 1) (.int 2)
    let b := Ex.cplx (.int 1) (.int 3)
    unionFn (insertionSort exLess) [S "Union", .expr [S "List", a, b, a]] = some (.expr [S "List", a, b, a]) ∧ isSameQ a a = true ∧ isSameQ a b = false := by
  intro a b
  have h : ∀ i j : Int, exOrder (.cplx (.int 1) (.int i)) (.cplx (.int 1) (.int j)) = 0 := by
    intro i j
    exact (C03_number_order _ _ _ _ rfl rfl).2.2.2.2.1 rfl rfl rfl
  have hs : insertionSort exLess [a, b, a] = [a, b, a] := C04_insertionSort_sorted _ (by simp [a, b, h])
  have hab : isSameQ a b = false := by decide +kernel
  have hba : isSameQ b a = false := by decide +kernel
  have hc : collectArgs none [] [.expr [S "List", a, b, a]] = some (some (some (S "List"), [a, b, a])) := by decide +kernel
  refine ⟨?_, by decide +kernel, hab⟩
  simp only [unionFn, List.tail, hc, Option.map_some, hs]
  simp [dropRepeats, hab, hba]

/-! ### C37: selection by patterns -/

/-- The element matches the pattern. -/
def matchesP (env : MEnv) (n : Nat) (pat p : Ex) : Bool :=
  match isMatchQ env n p pat [] with
  | some (b, _) => b
  | none => false

theorem matchLoop_cases {env : MEnv} {n : Nat} {pat : Ex} : ∀ (l : List Ex), (∀ p ∈ l, isMatchQ env n p pat [] ≠ none) →
    matchLoop (fun p => isMatchQ env n p pat []) (casesAdd none) l = some (l.filter (matchesP env n pat)) ∧
    matchLoop (fun p => isMatchQ env n p pat []) deleteAdd l = some (l.filter (fun p => !matchesP env n pat p))
  | [], _ => ⟨rfl, rfl⟩
  | p :: ps, h => by
    obtain ⟨h1, h2⟩ := matchLoop_cases ps (fun q hq => h q (List.mem_cons_of_mem _ hq))
    have hp := h p (by simp)
    cases hm : isMatchQ env n p pat [] with
    | none => exact absurd hm hp
    | some r =>
      obtain ⟨b, pd⟩ := r
      have hb : matchesP env n pat p = b := by simp [matchesP, hm]
      cases b <;> simp [matchLoop, hm, h1, h2, casesAdd, deleteAdd, hb]

theorem matchLoop_none {env : MEnv} {n : Nat} {pat : Ex} {f} : ∀ (l : List Ex), (∃ p ∈ l, isMatchQ env n p pat [] = none) →
    matchLoop (fun p => isMatchQ env n p pat []) f l = none
  | p :: ps, ⟨q, hq, hn⟩ => by
    rcases List.mem_cons.1 hq with rfl | hq
    · simp [matchLoop, hn]
    · simp only [matchLoop]
      rw [matchLoop_none ps ⟨q, hq, hn⟩]
      cases isMatchQ env n p pat [] <;> rfl

/-- C37. `Cases[f[xs], pat]` lists the elements that match and `DeleteCases[f[xs], pat]` keeps the others, both in order; one of the calls returns exactly if the
other does (`pat` is not a rule). -/
theorem C37_partition (env : MEnv) (n : Nat) (P Q f pat : Ex) (xs : List Ex) (hpat : hasHead "System`Rule" pat = false) :
    ((∀ x ∈ xs, isMatchQ env n x pat [] ≠ none) →
      casesFn env n [P, .expr (f :: xs), pat] = some (.expr (S "List" :: xs.filter (matchesP env n pat))) ∧
      deleteCasesFn env n [Q, .expr (f :: xs), pat] = some (.expr (f :: xs.filter (fun x => !matchesP env n pat x)))) ∧
    ((∃ x ∈ xs, isMatchQ env n x pat [] = none) → casesFn env n [P, .expr (f :: xs), pat] = none ∧
      deleteCasesFn env n [Q, .expr (f :: xs), pat] = none) ∧
    (xs.filter (matchesP env n pat) ++ xs.filter (fun x => !matchesP env n pat x)).Perm xs := by
  have ha : argsOf "System`Rule" pat = none := by
    unfold argsOf
    split
    · rename_i s args
      simp only [hasHead, beq_eq_false_iff_ne] at hpat
      rw [if_neg hpat]
    · rfl
  refine ⟨fun h => ?_, fun h => ?_, List.filter_append_perm _ _⟩
  · obtain ⟨h1, h2⟩ := matchLoop_cases xs h
    exact ⟨by simp [casesFn, ha, h1], by simp [deleteCasesFn, goIndex, h2]⟩
  · exact ⟨by simp [casesFn, ha, matchLoop_none xs h], by simp [deleteCasesFn, goIndex, matchLoop_none xs h]⟩

/-- C37. `MemberQ[f[xs], pat]` is true exactly if `Cases[f[xs], pat]` is not empty. -/
theorem C37_memberQ (env : MEnv) (n : Nat) (P f pat : Ex) (xs : List Ex) (h : ∀ x ∈ xs, isMatchQ env n x pat [] ≠ none) :
    memberQFn env n [P, .expr (f :: xs), pat] = some (if xs.filter (matchesP env n pat) = [] then S "False" else S "True") := by
  have : memberLoop (fun p => isMatchQ env n p pat []) xs = some (decide (xs.filter (matchesP env n pat) ≠ [])) := by
    induction xs with
    | nil => rfl
    | cons p ps ih =>
      have hp := h p (by simp)
      cases hm : isMatchQ env n p pat [] with
      | none => exact absurd hm hp
      | some r =>
        obtain ⟨b, pd⟩ := r
        have hb : matchesP env n pat p = b := by simp [matchesP, hm]
        cases b
        · simp only [memberLoop, hm, Option.bind_some, Bool.false_eq_true, if_false]
          rw [ih (fun x hx => h x (List.mem_cons_of_mem _ hx))]
          simp [hb]
        · simp [memberLoop, hm, hb]
  simp only [memberQFn, this, Option.map_some]
  by_cases e : xs.filter (matchesP env n pat) = [] <;> simp [e]

/-! ### C75: list surgery -/

/-- C75. `Append`, `Prepend` and `Reverse` give exactly the expected elements, for any head. -/
theorem C75_surgery (P f x : Ex) (xs : List Ex) :
    appendFn [P, .expr (f :: xs), x] = some (.expr (f :: (xs ++ [x]))) ∧
    prependFn [P, .expr (f :: xs), x] = some (.expr (f :: x :: xs)) ∧
    reverseFn [P, .expr (f :: xs)] = some (.expr (f :: xs.reverse)) := by
  refine ⟨rfl, rfl, ?_⟩
  have : buildList (fun i => goIndex (f :: xs) (((f :: xs).length : Int) - 1 - i)) ((f :: xs).length - 1) 0 = some xs.reverse := by
    have := buildList_eq (f := fun i => goIndex (f :: xs) (((f :: xs).length : Int) - 1 - i)) (g := fun j => (xs.reverse[j]?).getD f) xs.length 0
      (fun j _ hj => by
        simp only [List.length_cons]
        rw [show (((xs.length + 1 : Nat) : Int) - 1 - (j : Int)) = ((xs.length - 1 - j + 1 : Nat) : Int) by omega, goIndex_nat, List.getElem?_cons_succ,
          List.getElem?_eq_getElem (by omega), List.getElem?_eq_getElem (by simp; omega)]
        simp)
    rw [show ((0 : Nat) : Int) = 0 by rfl] at this
    rw [List.length_cons, Nat.add_sub_cancel]
    rw [List.length_cons] at this
    rw [this]
    refine congrArg some ?_
    apply List.ext_getElem
    · simp
    · intro j h1 h2
      simp only [List.length_map, List.length_range'] at h1
      simp only [List.getElem_map, List.getElem_range', Nat.zero_add, Nat.one_mul]
      rw [List.getElem?_eq_getElem (by simpa using h1)]
      simp
  simp only [reverseFn, goIndex_nat, this]
  rfl

/-- C75. `Join[f[m₁], f[m₂], ...]` is `f[m₁, m₂, ...]`; so its length is the sum of the lengths. `Join[]` is `{}`. -/
theorem C75_join (P f : Ex) (hf : isSameQ f f = true) (m : List Ex) (ms : List (List Ex)) :
    joinFn (P :: (m :: ms).map (fun m => .expr (f :: m))) = some (.expr (f :: (m :: ms).flatten)) ∧ joinFn [P] = some (.expr [S "List"]) := by
  have : ∀ ps0 (ms : List (List Ex)) acc, joinLoop ps0 (f :: acc) (ms.map (fun m => .expr (f :: m))) = some (.expr (f :: (acc ++ ms.flatten))) := by
    intro ps0 ms
    induction ms with
    | nil => simp [joinLoop]
    | cons m ms ih => intro acc; simp [joinLoop, exprParts, goIndex, hf, ih]
  refine ⟨?_, rfl⟩
  simp only [joinFn, List.map_cons, joinLoop, exprParts, this, List.flatten_cons]


/-! ### Arguments with different heads -/

theorem sameHeads_mixed {f g : Ex} (hf : isSameQ f f = true) (hg : isSameQ f g = false) (b : List Ex) (post : List Ex) :
    ∀ ms : List (List Ex), sameHeads (some f) (ms.map (fun m => .expr (f :: m)) ++ .expr (g :: b) :: post) = some none
  | [] => by simp [sameHeads, exprParts, goIndex, hg]
  | m :: ms => by simp [sameHeads, exprParts, goIndex, hf, sameHeads_mixed hf hg b post ms]

theorem collectArgs_mixed {f g : Ex} (hf : isSameQ f f = true) (hg : isSameQ f g = false) (b : List Ex) (post : List Ex) :
    ∀ (ms : List (List Ex)) (acc : List Ex), collectArgs (some f) acc (ms.map (fun m => .expr (f :: m)) ++ .expr (g :: b) :: post) = some none
  | [], acc => by simp [collectArgs, exprParts, goIndex, hg]
  | m :: ms, acc => by simp [collectArgs, exprParts, goIndex, hf, collectArgs_mixed hf hg b post ms]

theorem joinLoop_mixed {f g : Ex} (hf : isSameQ f f = true) (hg : isSameQ g f = false) (ps0 : List Ex) (b : List Ex) (post : List Ex) :
    ∀ (ms : List (List Ex)) (acc : List Ex), joinLoop ps0 (f :: acc) (ms.map (fun m => .expr (f :: m)) ++ .expr (g :: b) :: post) = some (.expr ps0)
  | [], acc => by simp [joinLoop, exprParts, goIndex, hg]
  | m :: ms, acc => by
    simp only [List.map_cons, List.cons_append, joinLoop, exprParts, goIndex]
    simpa [hf] using joinLoop_mixed hf hg ps0 b post ms (acc ++ m)

/-- C36, C75. Arguments whose heads differ from the first one are not merged: the call stays as it is, wherever the different head is. -/
theorem C36_different_heads (P f g : Ex) (hf : isSameQ f f = true) (hfg : isSameQ f g = false) (hgf : isSameQ g f = false)
    (sort : List Ex → List Ex) (m b : List Ex) (ms : List (List Ex)) (post : List Ex) :
    let call := P :: .expr (f :: m) :: (ms.map (fun m => .expr (f :: m)) ++ .expr (g :: b) :: post)
    unionFn sort call = some (.expr call) ∧ complementFn sort call = some (.expr call) ∧ intersectionFn sort call = some (.expr call) ∧
      joinFn call = some (.expr call) := by
  intro call
  have hs := sameHeads_mixed hf hfg b post ms
  refine ⟨?_, ?_, ?_, ?_⟩
  · have hc : collectArgs none [] call.tail = some none := by
      simp only [call, List.tail_cons, collectArgs, exprParts, goIndex]
      simpa using collectArgs_mixed hf hfg b post ms m
    show Option.map _ (collectArgs none [] call.tail) = _
    rw [hc]
    rfl
  · simp only [complementFn, call, hs, Option.map_some]
  · simp only [intersectionFn, call, hs, Option.map_some]
  · simp only [joinFn, call, joinLoop, exprParts]
    exact joinLoop_mixed hf hgf _ b post ms m

/-- The hypotheses are met: `Join[{a}, g[b]]`. -/
example : isSameQ (S "List") (S "List") = true ∧ isSameQ (S "List") (.sym "Global`g") = false ∧ isSameQ (.sym "Global`g") (S "List") = false := by
  decide +kernel

/-! ### C37: Cases with a rule -/

/-- C37. `Cases[f[xs], lhs -> rhs]` lists, in order, for every element that matches `lhs` the right side with the names bound by that match replaced. -/
theorem C37_rule (env : MEnv) (n : Nat) (P f lhs rhs : Ex) (xs : List Ex) (bound : Ex → Option (Option PM))
    (h : ∀ x ∈ xs, ∃ pd, isMatchQ env n x lhs [] = some ((bound x).isSome, pd) ∧ ∀ q, bound x = some q → pd = q) :
    casesFn env n [P, .expr (f :: xs), .expr [S "Rule", lhs, rhs]] =
      some (.expr (S "List" :: xs.filterMap (fun x => (bound x).map (fun q => replacePD rhs q)))) := by
  have key : matchLoop (fun p => isMatchQ env n p lhs []) (casesAdd (some rhs)) xs =
      some (xs.filterMap (fun x => (bound x).map (fun q => replacePD rhs q))) := by
    induction xs with
    | nil => rfl
    | cons x xs ih =>
      obtain ⟨pd, h1, h2⟩ := h x (by simp)
      have ih := ih (fun y hy => h y (List.mem_cons_of_mem _ hy))
      simp only [matchLoop, h1, Option.bind_some, ih, Option.map_some, casesAdd]
      cases hb : bound x with
      | none => simp [hb]
      | some q => simp [hb, h2 q hb]
  simp [casesFn, argsOf, S, key]

/-- The hypothesis is met: `Cases[{1, a}, x_Integer -> {x}]` is `{{1}}`. -/
example : casesFn envP 10 [S "Cases", listOf [.int 1, .sym "Global`a"],
    .expr [S "Rule", .expr [S "Pattern", .sym "Global`x", .expr [S "Blank", S "Integer"]], listOf [.sym "Global`x"]]] = some (listOf [listOf [.int 1]]) := by
  decide +kernel

/-- C37. `MemberQ` of an atom is `False`. -/
theorem C37_memberQ_atom (env : MEnv) (n : Nat) (P e pat : Ex) (he : ∀ ps, e ≠ .expr ps) : memberQFn env n [P, e, pat] = some (S "False") := by
  unfold memberQFn
  split
  · rename_i h; cases h; exact absurd rfl (he _)
  · rename_i h; cases h; exact absurd rfl (he _)
  · rfl
  · rename_i h; exact absurd rfl (h _ _ _)

end Expreduce
