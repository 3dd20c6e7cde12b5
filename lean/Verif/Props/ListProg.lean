import Verif.Model.ListProg
import Verif.Spec.ListProg
import Verif.Proofs.PatternFree
import Verif.Props.Compare
import Verif.Props.Functional2

/-! Property C118: functions on lists that are defined by rules. -/

namespace Expreduce
open Ex

theorem rounded_one : rnd53 ((1 : Int) : Rat) = 1 := by have := rnd53_int_exact 1 (by norm_num); simpa using this

theorem geOne (n : Int) : greaterEqualEval numToN [.int n, .int 1] = some (decide (1 ≤ n)) := by
  rw [(C12_reals [.int n, .int 1] (by simp [realNum])).2.2.2]
  simp only [rounded, List.map_cons, List.map_nil, List.pairwise_cons, List.mem_singleton, forall_eq, List.not_mem_nil, false_imp_iff, implies_true,
    List.Pairwise.nil, and_true, rounded_one]
  congr 1
  by_cases h : 1 ≤ n
  · have := rnd53_mono (x := ((1 : Int) : Rat)) (y := (n : Rat)) (by exact_mod_cast h)
    rw [rounded_one] at this
    simp [h, this]
  · have := rnd53_mono (x := (n : Rat)) (y := 0) (by exact_mod_cast (by omega : n ≤ 0))
    rw [rnd53_zero] at this
    have h2 : ¬ (1 : Rat) ≤ rnd53 n := by linarith
    simp [h, h2]

theorem gtZero (n : Int) : greaterEval numToN [.int n, .int 0] = some (decide (0 < n)) := by
  rw [(C12_reals [.int n, .int 0] (by simp [realNum])).2.2.1]
  have h0 : rnd53 ((0 : Int) : Rat) = 0 := by simpa using rnd53_zero
  simp only [rounded, List.map_cons, List.map_nil, List.pairwise_cons, List.mem_singleton, forall_eq, List.not_mem_nil, false_imp_iff, implies_true,
    List.Pairwise.nil, and_true, h0]
  congr 1
  by_cases h : 0 < n
  · have := rnd53_pos (q := (n : Rat)) (by exact_mod_cast h)
    simp [h, this]
  · have := rnd53_mono (x := (n : Rat)) (y := 0) (by exact_mod_cast (by omega : n ≤ 0))
    rw [rnd53_zero] at this
    have h2 : ¬ (0 : Rat) < rnd53 n := by linarith
    simp [h, h2]

theorem lengthAtLeastOne_call (h : Ex) (xs : List Ex) : lengthAtLeastOne (.expr (h :: xs)) = decide (xs ≠ []) := by
  simp only [lengthAtLeastOne, lengthFn, geOne, List.length_cons]
  cases xs with
  | nil => simp
  | cons a l => simp

theorem lengthAtLeastOne_atom {e : Ex} (he : ∀ ps, e ≠ .expr ps) : lengthAtLeastOne e = false := by
  have : lengthFn [S "Length", e] = some (.int 0) := by
    cases e <;> first | rfl | exact absurd rfl (he _)
  simp [lengthAtLeastOne, this, geOne]

/-- **C20, literals.** A pattern without anything special for the matcher (no reals, pattern heads, `Flat` or `Orderless` heads, empty calls) matches itself and nothing else, up to collisions of
fingerprints. -/
theorem C20_pattern_free (env : MEnv) [env.Exact] (m : Nat) (p a : Ex) (h : PatternFree env p) (ha : noReal a = true) (hw : wellFormed a = true)
    (hm : 2 * size p + 1 ≤ m) (hcl : ∀ q ∈ subexprs p, ∀ c ∈ subexprs a, hash c = hash q → c = q) :
    ∃ r, isMatchQ env m a p [] = some (decide (a = p), r) :=
  h.isMatchQ ha hw hm hcl

/-! ### Take -/

/-- **C118, `Take[f[xs], m]`** with `0 < m ≤ Length[xs]` is `f` of the first `m` elements. -/
theorem C118_take_partial (f : Ex) (xs : List Ex) (m : Nat) (h0 : 0 < m) (hm : m ≤ xs.length) (hs : SmallParts (.expr (f :: xs))) :
    takeProg numToN (.expr (f :: xs)) (.int m) = some (.expr (f :: xs.take m)) := by
  have h1 : greaterEval numToN [.int (m : Int), .int 0] = some true := by rw [gtZero]; simp [h0]
  have h2 : argsOf "System`List" (.int (m : Int)) = none := rfl
  simp only [takeProg, h1, h2]
  refine C34_selects _ _ _ _ hs ?_
  have := PartIs.span (f := f) (xs := xs) (a := 1) (b := m) (is := []) (g := fun x => x) le_rfl (by omega) hm (fun x _ => .nil x)
  simpa [slice, spanEx] using this

/-- **C118, `Take[f[xs], {a, b}]`** with `1 ≤ a ≤ n + 1` and `b ≤ n` is `f` of the elements `a` to `b`. -/
theorem C118_take_range (f : Ex) (xs : List Ex) (a b : Nat) (h0 : 1 ≤ a) (ha : a ≤ xs.length + 1) (hb : b ≤ xs.length) (hs : SmallParts (.expr (f :: xs))) :
    takeProg numToN (.expr (f :: xs)) (.expr [S "List", .int a, .int b]) = some (.expr (f :: (xs.take b).drop (a - 1))) := by
  have h2 : argsOf "System`List" (.expr [S "List", .int a, .int b]) = some [.int a, .int b] := by simp [argsOf, S]
  simp only [takeProg, h2]
  refine C34_selects _ _ _ _ hs ?_
  have := PartIs.span (f := f) (xs := xs) (a := a) (b := b) (is := []) (g := fun x => x) h0 ha hb (fun x _ => .nil x)
  simpa [slice, spanEx] using this

theorem indexRange_end {a : Ex} {b : Int} {l : Nat} (hb1 : -2 ^ 63 ≤ b) (hb2 : b < 2 ^ 63) (hb : b < 0 ∨ (l : Int) ≤ b) : indexRange (spanEx a (.int b)) l = none := by
  have h1 : argsOf "System`Span" (spanEx a (.int b)) = some [a, .int b] := by simp [spanEx, argsOf, S]
  have h2 : spanEnd (.int b) l = none := by
    simp only [spanEnd]
    rw [if_neg (by simp [S]), validateIndex_int hb1 hb2, if_neg (by omega)]
  simp only [indexRange, h1, h2, Option.map_none]
  cases validateIndex a (l + 1) <;> rfl

theorem part_stays {P f i : Ex} {xs : List Ex} (hi : ∀ n, i ≠ .int n) (hr : indexRange i (xs.length + 1) = none) :
    partFn [P, .expr (f :: xs), i] = some (.expr [P, .expr (f :: xs), i]) := by
  have : applyIndex [i] (.expr (f :: xs)) = some none := by
    rw [applyIndex]
    · simp only [List.length_cons, hr]
    · exact hi
  simp [partFn, this]

/-- **C118, `Take[f[xs], m]` with any other `m`** (that fits in 64 bits): for `m` greater than the length, for 0 and for negative `m` a call of `Part` is left. In particular the last elements can not
be taken. -/
theorem C118_take_fails (f : Ex) (xs : List Ex) (m : Int) (h1 : -2 ^ 63 ≤ m) (h2 : m < 2 ^ 63) (hm : m ≤ 0 ∨ (xs.length : Int) < m) :
    takeProg numToN (.expr (f :: xs)) (.int m) = some (.expr [S "Part", .expr (f :: xs), if 0 < m then spanEx (.int 1) (.int m) else spanEx (.int m) (.int (-1))]) := by
  have h2 : argsOf "System`List" (.int m) = none := rfl
  have h3 := gtZero m
  by_cases h : 0 < m
  · simp only [takeProg, h2, h3, h, if_true, decide_true]
    exact part_stays (by simp [spanEx]) (indexRange_end h1 (by omega) (by push_cast; omega))
  · simp only [takeProg, h2, h3, h, if_false, decide_false]
    exact part_stays (by simp [spanEx]) (indexRange_end (by norm_num) (by norm_num) (by omega))

/-- C118, `Take[f[xs], {a, b, c}]` is never done: `Part` knows no steps. -/
theorem C118_take_steps (f a b c : Ex) (xs : List Ex) :
    takeProg numToN (.expr (f :: xs)) (.expr [S "List", a, b, c]) = some (.expr [S "Part", .expr (f :: xs), .expr [S "Span", a, b, c]]) := by
  have h2 : argsOf "System`List" (.expr [S "List", a, b, c]) = some [a, b, c] := by simp [argsOf, S]
  simp only [takeProg, h2]
  exact part_stays (by simp) (by simp [indexRange, argsOf, S])

/-- Such cases: `Take[{a, b, c}, 2]`, `Take[{a, b, c}, {2, 3}]`, `Take[{a, b, c}, -2]`. -/
example : let l := listOf [.sym "Global`a", .sym "Global`b", .sym "Global`c"]
    takeProg numToN l (.int (2 : Nat)) = some (listOf [.sym "Global`a", .sym "Global`b"]) ∧
    takeProg numToN l (listOf [.int (2 : Nat), .int (3 : Nat)]) = some (listOf [.sym "Global`b", .sym "Global`c"]) ∧
    takeProg numToN l (.int (-2)) = some (.expr [S "Part", l, spanEx (.int (-2)) (.int (-1))]) := by
  have hs : SmallParts (listOf [.sym "Global`a", .sym "Global`b", .sym "Global`c"]) := by
    intro ps h
    simp only [listOf, Headed.subs, Headed.subsL, S, Ex.expr.injEq] at h
    rcases h with rfl | h
    · decide
    · simp at h
  exact ⟨C118_take_partial _ _ 2 (by decide) (by decide) hs, C118_take_range _ _ 2 3 (by decide) (by decide) (by decide) hs,
    C118_take_fails _ _ (-2) (by decide) (by decide) (.inl (by decide))⟩

/-! ### First, Last, Rest -/

/-- **C118, `First`, `Last` and `Rest`** of `h[x1, ..., xn]`, `n ≥ 1`: the first element, the last one, and `h[x2, ..., xn]`. -/
theorem C118_ends (h x : Ex) (xs : List Ex) (hs : SmallParts (.expr (h :: x :: xs))) :
    firstProg (.expr (h :: x :: xs)) = some x ∧ lastProg (.expr (h :: x :: xs)) = some ((x :: xs).getLast (by simp)) ∧
    restProg (.expr (h :: x :: xs)) = some (.expr (h :: xs)) := by
  have h1 : lengthAtLeastOne (.expr (h :: x :: xs)) = true := by rw [lengthAtLeastOne_call]; simp
  have hl := hs _ (.inl rfl)
  simp only [List.length_cons] at hl
  refine ⟨?_, ?_, ?_⟩
  · rw [firstProg, if_pos h1, C34_element _ _ _ _ (by norm_num) (by norm_num)]
    simp
  · rw [lastProg, if_pos h1]
    simp only [lengthFn, Option.bind_some, List.length_cons]
    rw [C34_element _ _ _ _ (by omega) (by omega), if_neg (by omega), if_neg (by omega)]
    have e : ((((xs.length + 1 + 1 : Nat) : Int) - 1).toNat - 1) = (x :: xs).length - 1 := by simp only [List.length_cons]; omega
    rw [e, List.getLast_eq_getElem, List.getElem?_eq_getElem (by simp)]
    rfl
  · rw [restProg, if_pos h1]
    refine C34_selects _ _ _ _ hs ?_
    have := PartIs.toEnd (f := h) (xs := x :: xs) (a := 2) (is := []) (g := fun x => x) (by omega) (by simp) (fun x _ => .nil x)
    simpa [spanEx] using this

/-- C118, expressions without elements are left alone. -/
theorem C118_ends_empty (e : Ex) (he : (∃ h, e = .expr [h]) ∨ ∀ ps, e ≠ .expr ps) :
    firstProg e = some (.expr [S "First", e]) ∧ lastProg e = some (.expr [S "Last", e]) ∧ restProg e = some (.expr [S "Rest", e]) := by
  have h1 : lengthAtLeastOne e = false := by
    rcases he with ⟨h, rfl⟩ | he
    · rw [lengthAtLeastOne_call]; simp
    · exact lengthAtLeastOne_atom he
  simp [firstProg, lastProg, restProg, h1]

theorem last_call (h : Ex) (l : List Ex) (hne : l ≠ []) (hl : l.length < 2 ^ 63) : lastProg (.expr (h :: l)) = some (l.getLast hne) := by
  have h1 : lengthAtLeastOne (.expr (h :: l)) = true := by rw [lengthAtLeastOne_call]; simp [hne]
  have hp : 0 < l.length := List.length_pos_iff.2 hne
  rw [lastProg, if_pos h1]
  simp only [lengthFn, Option.bind_some, List.length_cons]
  rw [C34_element _ _ _ _ (by omega) (by omega), if_neg (by omega), if_neg (by omega)]
  have e : ((((l.length + 1 : Nat) : Int) - 1).toNat - 1) = l.length - 1 := by omega
  rw [e, List.getLast_eq_getElem, List.getElem?_eq_getElem (by omega)]
  rfl

/-! ### Fold and Nest -/

/-- **C118, `Fold[f, x, h[a1, ..., an]]`** is the value of `f[... f[f[x, a1], a2] ..., an]`, if the evaluator treats calls of `h` elementwise. -/
theorem C118_fold_partial (ev : Ex → Option Ex) (E : Ex → Ex) (f x h : Ex) (as : List Ex) (hev : ∀ l, Elementwise ev E h l) (hl : as.length + 1 < 2 ^ 63) :
    foldProg ev f x (.expr (h :: as)) = some (E (folded f x as)) := by
  obtain ⟨l, h1, h2, h3⟩ := C39_foldList (S "FoldList") f x h as
  have hne : l.map E ≠ [] := by
    intro hc
    have := congrArg List.length hc
    simp [h2] at this
  rw [foldProg, h1, Option.bind_some, hev l, Option.bind_some, last_call _ _ hne (by simp [h2]; omega)]
  congr 1
  rw [List.getLast_eq_getElem, List.getElem_map]
  congr 1
  have := h3 as.length le_rfl
  rw [List.take_length, List.getElem?_eq_some_iff] at this
  obtain ⟨_, this⟩ := this
  rw [← this]
  congr 1
  simp [h2]

/-- **C118, `Fold[f, h[x, a1, ..., an]]`** is `Fold[f, x, h[a1, ..., an]]`. -/
theorem C118_fold_two (ev : Ex → Option Ex) (f x h : Ex) (as : List Ex) (hs : SmallParts (.expr (h :: x :: as))) :
    foldProg2 ev f (.expr (h :: x :: as)) = foldProg ev f x (.expr (h :: as)) := by
  obtain ⟨h1, _, h3⟩ := C118_ends h x as hs
  simp [foldProg2, h1, h3]

/-- **C118, `Nest[f, x, n]`** for `0 ≤ n` is the value of `f[... f[x] ...]`, `n` times. -/
theorem C118_nest_partial (ev : Ex → Option Ex) (E : Ex → Ex) (f x : Ex) (n : Nat) (hev : ∀ l, Elementwise ev E (S "List") l) (hn : n + 1 < 2 ^ 63) :
    nestProg ev f x (.int n) = some (E (nest f x n)) := by
  have h1 := (C39_nestList (S "NestList") f x n (by omega) (-1) (by norm_num) (by norm_num)).1
  have hne : ((List.range (n + 1)).map (nest f x)).map E ≠ [] := by simp
  have hlen : (((List.range (n + 1)).map (nest f x)).map E).length < 2 ^ 63 := by
    rw [List.length_map, List.length_map, List.length_range]; exact hn
  rw [nestProg, h1, Option.bind_some, hev, Option.bind_some, last_call _ _ hne hlen]
  rw [List.getLast_eq_getElem]
  simp only [List.getElem_map, List.getElem_range, List.length_map, List.length_range, Nat.add_sub_cancel]

/-- Such cases, with an evaluator that changes nothing: `Fold[f, x, {a, b}]`, `Nest[f, x, 3]`. -/
example : let f := Ex.sym "Global`f"
    foldProg some f gx (listOf [.sym "Global`a", .sym "Global`b"]) = some (.expr [f, .expr [f, gx, .sym "Global`a"], .sym "Global`b"]) ∧
    nestProg some f gx (.int (3 : Nat)) = some (.expr [f, .expr [f, .expr [f, gx]]]) := by
  have he : ∀ h l, Elementwise some id h l := fun h l => by simp [Elementwise]
  intro f
  constructor
  · have := C118_fold_partial some id f gx (S "List") [.sym "Global`a", .sym "Global`b"] (he _) (by norm_num)
    simpa [folded, listOf] using this
  · have := C118_nest_partial some id f gx 3 (he _) (by norm_num)
    simpa [nest] using this

/-- **C118, what `Nest` and `Fold` do with other arguments.** `Nest[f, x, n]` with a negative `n`, or with an `n` that is no integer, returns `n`; `Fold[f, x, e]` with an atom `e` returns `e`. (`FoldList` and `NestList`
stay as they are, and `Last` takes their last argument.) -/
theorem C118_last_argument (ev : Ex → Option Ex) (f x n : Ex) (hn : (∃ k : Int, n = .int k ∧ -2 ^ 63 ≤ k ∧ k < 0) ∨ ∀ k, n ≠ .int k) (e : Ex) (he : ∀ ps, e ≠ .expr ps)
    (hev1 : ev (.expr [S "NestList", f, x, n]) = some (.expr [S "NestList", f, x, n])) (hev2 : ev (.expr [S "FoldList", f, x, e]) = some (.expr [S "FoldList", f, x, e])) :
    nestProg ev f x n = some n ∧ foldProg ev f x e = some e := by
  have h1 : nestListFn [S "NestList", f, x, n] = some (.expr [S "NestList", f, x, n]) := by
    rcases hn with ⟨k, rfl, h1, h2⟩ | hn
    · exact (C39_nestList (S "NestList") f x 0 (by norm_num) k h2 h1).2
    · cases n <;> first | rfl | exact absurd rfl (hn _)
  have h2 : foldListFn [S "FoldList", f, x, e] = some (.expr [S "FoldList", f, x, e]) := by
    cases e <;> first | rfl | exact absurd rfl (he _)
  constructor
  · rw [nestProg, h1, Option.bind_some, hev1, Option.bind_some, last_call _ _ (by simp) (by simp)]
    simp
  · rw [foldProg, h2, Option.bind_some, hev2, Option.bind_some, last_call _ _ (by simp) (by simp)]
    simp

/-- **C118, `Fold` over an `Orderless` expression is wrong**: the list of partial results is made with the head of the argument, and the evaluator sorts it. `Fold[f, h[1, 2, 3], a + c]` is
`h[1, 2, 3]`, not `f[f[h[1, 2, 3], a], c]`. -/
theorem C118_fold_orderless : let f := Ex.sym "Global`f"; let x := Ex.expr [.sym "Global`h", .int 1, .int 2, .int 3]
    let ev : Ex → Option Ex := fun e => match e with
      | .expr (h :: l) => some (.expr (h :: l.insertionSort (fun a b => exLess a b)))
      | e => some e
    foldProg ev f x (.expr [S "Plus", .sym "Global`a", .sym "Global`c"]) = some x ∧
    folded f x [.sym "Global`a", .sym "Global`c"] = .expr [f, .expr [f, x, .sym "Global`a"], .sym "Global`c"] := by
  intro f x ev
  refine ⟨?_, rfl⟩
  have h : (foldListFn [S "FoldList", f, x, .expr [S "Plus", .sym "Global`a", .sym "Global`c"]]).bind ev =
      some (.expr [S "Plus", .expr [f, .expr [f, x, .sym "Global`a"], .sym "Global`c"], .expr [f, x, .sym "Global`a"], x]) := by decide +kernel
  rw [foldProg, h, Option.bind_some, last_call _ _ (by simp) (by simp)]
  simp

/-! ### Tally -/

mutual
theorem subs_subexprs : ∀ {e z : Ex}, z ∈ Headed.subs e → z ∈ subexprs e
  | .expr ps, z, h => by
    simp only [Headed.subs] at h
    simp only [subexprs, List.mem_cons]
    exact .inr (subsL_subexprsL h)
  | .sym _, _, h | .str _, _, h | .int _, _, h | .rat _ _, _, h | .flt _, _, h | .cplx _ _, _, h => by simp [Headed.subs] at h
theorem subsL_subexprsL : ∀ {ps : List Ex} {z : Ex}, z ∈ Headed.subsL ps → z ∈ subexprsL ps
  | [], _, h => by simp [Headed.subsL] at h
  | p :: ps, z, h => by
    simp only [Headed.subsL, List.mem_cons, List.mem_append, List.cons_append] at h
    simp only [subexprsL, List.mem_append]
    rcases h with rfl | h | h
    · exact .inl (subexprs_self _)
    · exact .inl (subs_subexprs h)
    · exact .inr (subsL_subexprsL h)
end

theorem headed_of_wellFormed {e : Ex} (h : wellFormed e = true) : Headed e := by
  intro p hp
  have hw : wellFormed p = true := by
    rcases hp with rfl | hp
    · exact h
    · exact wellFormed_subexprs h (subs_subexprs hp)
  rintro rfl
  simp [wellFormed] at hw

/-- The elements are without patterns, slots and reals, and no fingerprints of different expressions collide. -/
structure TallySetup (env : MEnv) (m k : Nat) (xs : List Ex) : Prop where
  flat : env.flat "System`Slot" = false
  orderless : env.orderless "System`Slot" = false
  depth : 3 ≤ m
  free : ∀ x ∈ xs, PatternFree env x
  slots : ∀ x ∈ xs, ArgOk x
  fuel : ∀ x ∈ xs, 2 * size x + 1 ≤ k
  separated : ∀ y ∈ xs, ∀ q ∈ subexprs y, ∀ c ∈ subexprs (listOf xs), hash c = hash q → c = q
  stages : ∀ y ∈ xs, SlotStagesDistinct [y] (tallyBody (listOf xs))

section
variable {env : MEnv} [env.Exact] {m k : Nat} {xs : List Ex}

theorem TallySetup.wf (h : TallySetup env m k xs) : wellFormed (listOf xs) = true := by
  simp only [listOf, wellFormed, wellFormedL, S, Bool.true_and]
  simpa using wellFormedL_of (fun x hx => (h.free x hx).wellFormed)

omit [env.Exact] in
theorem TallySetup.noSlot (h : TallySetup env m k xs) : ∀ u ∈ subexprs (listOf xs), hasHead "System`Slot" u = false := by
  intro u hu
  simp only [listOf, subexprs, subexprsL, S, List.mem_cons, List.mem_append, List.not_mem_nil, or_false, mem_subexprsL_iff] at hu
  rcases hu with rfl | rfl | ⟨x, hx, hu⟩
  · simp [hasHead]
  · simp [hasHead]
  · exact (h.slots x hx).noSlot u hu

theorem slotValue_of_noHead {args : List Ex} {u : Ex} (h : hasHead "System`Slot" u = false) : slotValue args u = none := by
  unfold slotValue
  split
  · rename_i s k
    have : s ≠ "System`Slot" := by
      rintro rfl
      simp [hasHead] at h
    simp [this]
  · rfl

theorem filled_tally {l y : Ex} (hl : ∀ u ∈ subexprs l, hasHead "System`Slot" u = false) :
    filled [y] (tallyBody l) = .expr [S "List", y, .expr [S "Count", l, y]] := by
  have h1 : rewriteOut (hasHead "System`Function") (slotValue [y]) l = l := rewriteOut_none l (fun u hu => slotValue_of_noHead (hl u hu))
  simp [filled, tallyBody, rewriteOut, rewriteOutL, hasHead, S, slotValue, h1]

theorem tallyOne_eq (h : TallySetup env m k xs) (ev : Ex → Option Ex) {y : Ex} (hy : y ∈ xs) :
    tallyOne env m k ev (listOf xs) y = some (tallyPair y (xs.count y)) := by
  have hwf := h.wf
  have hf : evalFunction env m [tallyBody (listOf xs)] [y] = some (filled [y] (tallyBody (listOf xs))) := by
    refine C65_slots_partial env m _ [y] h.depth h.flat h.orderless ?_ ?_ ?_ (h.stages y hy)
    · intro a ha
      obtain rfl := List.mem_singleton.1 ha
      exact ⟨h.slots a hy, (h.free a hy).wellFormed⟩
    · simp [tallyBody, wellFormed, wellFormedL, S, hwf]
    · intro u hu hs
      have hls := h.noSlot u
      simp only [tallyBody, subexprs, subexprsL, S, List.mem_cons, List.mem_append, List.not_mem_nil, or_false, List.append_nil, List.nil_append] at hu
      rcases hu with rfl | rfl | (rfl | rfl | rfl) | rfl | rfl | hu | rfl | rfl | rfl
      all_goals first
        | exact ⟨1, rfl⟩
        | (rw [hls hu] at hs; simp at hs)
        | simp [hasHead] at hs
  have hmatch : ∀ z ∈ subexprs (listOf xs), isMatchQ env k z y [] ≠ none := by
    intro z hz
    obtain ⟨v, r, hr⟩ := C20_returns env k z y [] (h.free y hy).plain.epat (wellFormed_subexprs hwf hz) (le_trans (matchFuel_le _ _) (h.fuel y hy))
    simp [hr]
  have hM : Matchable env k y (listOf xs) := by
    refine ⟨headed_of_wellFormed hwf, ?_⟩
    intro z hz
    refine hmatch z ?_
    rcases hz with rfl | hz
    · exact subexprs_self _
    · exact subs_subexprs hz
  have hcount : countFn env k ev [S "Count", listOf xs, y, .expr [S "List", .int 1]] = some (.int (xs.count y)) := by
    rw [C38_count env k _ _ y _ 1 1 ev (.exactly (by norm_num) (by norm_num)) (by norm_num) (by norm_num) (by norm_num) hM]
    simp only [listOf, countAt, countAtParts, countAtArgs_level]
    simp only [inLevels, List.length_nil]
    congr 2
    have : ∀ x ∈ xs, matchesP env k y x = (x == y) := by
      intro x hx
      have hsub : ∀ c ∈ subexprs x, c ∈ subexprs (listOf xs) := by
        intro c hc
        simp only [listOf, subexprs, subexprsL, List.mem_cons, List.mem_append]
        exact .inr (.inr (mem_subexprsL hx hc))
      obtain ⟨r, hr⟩ := (h.free y hy).isMatchQ (m := k) (a := x) (h.free x hx).noReal (h.free x hx).wellFormed (h.fuel y hy)
        (fun q hq c hc => h.separated y hy q hq c (hsub c hc))
      simp only [matchesP, hr]
      by_cases hxy : x = y <;> simp [hxy]
    rw [List.filter_congr this, List.count_eq_length_filter]
    simp
  rw [tallyOne, hf, filled_tally h.noSlot]
  simp only [hcount, Option.map_some, tallyPair]

theorem tallyLoop_eq (h : TallySetup env m k xs) (ev : Ex → Option Ex) : ∀ ys : List Ex, (∀ y ∈ ys, y ∈ xs) →
    tallyLoop env m k ev (listOf xs) ys = some (ys.map (fun y => tallyPair y (xs.count y)))
  | [], _ => rfl
  | y :: ys, hys => by
    rw [tallyLoop, tallyOne_eq h ev (hys y (by simp)), tallyLoop_eq h ev ys (fun z hz => hys z (by simp [hz]))]
    rfl

end

/-- **C118, `Tally`** of a list of elements without patterns, slots and reals: each different element once, in the order of their first occurrences, with the number of its occurrences. -/
theorem C118_tally_partial (env : MEnv) [env.Exact] (m k : Nat) (ev : Ex → Option Ex) (xs : List Ex) (h : TallySetup env m k xs) :
    ∃ ys, tallyProg env m k ev (listOf xs) = some (listOf (ys.map (fun y => tallyPair y (xs.count y)))) ∧ FirstOccurrences xs ys := by
  have hsep : Separated xs := by
    intro a ha b hb hh
    refine h.separated b hb b (subexprs_self _) a ?_ hh
    simp only [listOf, subexprs, subexprsL, List.mem_cons, List.mem_append]
    exact .inr (.inr (mem_subexprsL ha (subexprs_self _)))
  obtain ⟨ys, h1, h2⟩ := C36_deleteDuplicates (S "DeleteDuplicates") (S "List") xs hsep
  refine ⟨ys, ?_, h2⟩
  have ha : argsOf "System`List" (listOf xs) = some xs := by simp [listOf, argsOf, S]
  rw [tallyProg, ha]
  simp only
  have h1' : deleteDuplicatesFn [S "DeleteDuplicates", listOf xs] = some (.expr (S "List" :: ys)) := h1
  rw [h1']
  simp only
  rw [tallyLoop_eq h ev ys (fun y hy => (h2.1 y).1 hy)]
  rfl

/-- Such a case: `Tally[{1, a, 1, f[a]}]` is `{{1, 2}, {a, 1}, {f[a], 1}}`. -/
example : let xs := [Ex.int 1, .sym "Global`a", .int 1, fOf [.sym "Global`a"]]
    TallySetup envP 3 20 xs ∧ tallyProg envP 3 20 some (listOf xs) =
      some (listOf [tallyPair (.int 1) 2, tallyPair (.sym "Global`a") 1, tallyPair (fOf [.sym "Global`a"]) 1]) := by
  intro xs
  have hx : ∀ x ∈ xs, x = .int 1 ∨ x = .sym "Global`a" ∨ x = fOf [.sym "Global`a"] := by intro x hx; simp [xs] at hx; tauto
  refine ⟨⟨rfl, rfl, by decide, ?_, ?_, ?_, ?_, ?_⟩, by decide +kernel⟩
  · intro x h
    have h1 : PatternFree envP (.int 1) := .atom rfl rfl rfl
    have h2 : PatternFree envP (.sym "Global`a") := .atom rfl rfl rfl
    rcases hx x h with rfl | rfl | rfl
    · exact h1
    · exact h2
    · exact .app (by decide) rfl rfl (by simp) (by decide +kernel) (by intro p hp; obtain rfl := List.mem_singleton.1 hp; exact h2)
  · intro x h
    rcases hx x h with rfl | rfl | rfl
    · exact argOk_atom rfl (by simp) (by simp)
    · exact argOk_atom rfl (by simp) (by simp)
    · exact ⟨by decide, by simp [fOf], by simp [fOf]⟩
  · decide +kernel
  · decide +kernel
  · unfold SlotStagesDistinct NoCollision
    decide +kernel

/-- **C118, `Tally` counts matches**: `Tally[{_, 1, 2}]` says that `_` occurs three times. -/
theorem C118_tally_pattern : tallyProg envP 3 20 some (listOf [bl, .int 1, .int 2]) = some (listOf [tallyPair bl 3, tallyPair (.int 1) 1, tallyPair (.int 2) 1]) := by
  decide +kernel

/-- **C118, `Tally` captures slots**: `Tally[{#1, 1}]` says that `1` occurs twice, since the list is part of a pure function. -/
theorem C118_tally_slot : tallyProg envP 3 20 some (listOf [slot 1, .int 1]) = some (listOf [tallyPair (slot 1) 1, tallyPair (.int 1) 2]) := by
  decide +kernel

end Expreduce
