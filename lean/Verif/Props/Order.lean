import Verif.Proofs.OrderSort

/-!
# Properties of the canonical order and of sorting (C01–C06, C55)

`exOrder a b` is `Order[a, b]`: `1` means `a` comes first, `-1` that `b` comes first, `0` a tie,
`-2` a refusal (only for malformed complex numbers).
-/

namespace Expreduce

/-! ## C01 -/

/-- C01: swapping the operands negates the answer; refusals are mutual. For all expressions. -/
theorem C01_order_antisymmetric (a b : Ex) :
    (exOrder a b = -2 ∧ exOrder b a = -2) ∨
    ((exOrder a b = -1 ∨ exOrder a b = 0 ∨ exOrder a b = 1) ∧ exOrder b a = - exOrder a b) :=
  exOrder_AS a b

/-- C01: no refusal happens when all complex numbers have a real number as real part, so
`Order[b,a] == -Order[a,b]` and `Order[a,a] == 0`. -/
theorem C01_order_antisymmetric_good (a b : Ex) (ha : Good a) (hb : Good b) :
    exOrder b a = - exOrder a b ∧ exOrder a a = 0 ∧ exOrder a b ≠ -2 := by
  have h1 := exOrder_AS a b
  have h2 := exOrder_AS a a
  have h3 := exOrder_ne_aux _ a b ha hb le_rfl
  have h4 := exOrder_ne_aux _ a a ha ha le_rfl
  unfold AS at h1 h2
  omega

example : Good (.expr [.sym "System`Plus", .cplx (.int 1) (.rat 1 2), .expr [.sym "System`Times", .int 2, .sym "x"]]) ∧
    Good (.expr [.sym "f", .str "s"]) := by
  refine ⟨.expr _ ?_, .expr _ ?_⟩
  · intro p hp
    simp only [List.mem_cons, List.not_mem_nil, or_false] at hp
    rcases hp with rfl | rfl | rfl
    · exact .sym _
    · exact .cplx _ _ rfl
    · refine .expr _ ?_
      intro p hp
      simp only [List.mem_cons, List.not_mem_nil, or_false] at hp
      rcases hp with rfl | rfl | rfl <;> constructor
  · intro p hp
    simp only [List.mem_cons, List.not_mem_nil, or_false] at hp
    rcases hp with rfl | rfl <;> constructor

/-- The refusal exists: a complex number whose real part is a symbol. -/
theorem C01_refusal : exOrder (.cplx (.sym "x") (.int 1)) (.int 1) = -2 :=
  exOrder_bad_left rfl rfl

/-! ## C02 -/

/-- C02: the recursion of `ExOrder` returns, with a nesting depth of at most twice the total number of nodes. -/
theorem C02_exOrder_terminates (a b : Ex) :
    ∃ r, ∀ fuel, 2 * (a.size + b.size) ≤ fuel → exOrderF fuel a b = some r :=
  ⟨exOrder a b, fun _ h => exOrderF_eq h⟩

/-- C02: the value returned satisfies the code's own recursion equation (the model function is the code's function). -/
theorem C02_exOrder_unfolds (a b : Ex) :
    exOrderStep (fun x y => some (exOrder x y)) a b = some (exOrder a b) := exOrder_fix a b

/-! ## C03 -/

/-- C03: numbers are compared by value rounded to 53 bits, integers before other numbers on ties, two integers exactly. -/
theorem C03_number_order (a b : Ex) (x y : Rat) (ha : toFlt a = some x) (hb : toFlt b = some y) :
    (x < y → exOrder a b = 1) ∧ (y < x → exOrder a b = -1) ∧
    (x = y → isInt a = true → isInt b = false → exOrder a b = 1) ∧
    (x = y → isInt a = false → isInt b = true → exOrder a b = -1) ∧
    (x = y → isInt a = false → isInt b = false → exOrder a b = 0) ∧
    (∀ m n, a = .int m → b = .int n →
      (m < n → exOrder a b = 1) ∧ (n < m → exOrder a b = -1) ∧ (m = n → exOrder a b = 0)) := by
  refine ⟨?_, ?_, ?_, ?_, ?_, ?_⟩
  · intro h; rw [exOrder_numbers ha hb]
    rcases cmpRat_cases y x with c | c | c
    · exact absurd c.2 (not_lt.2 h.le)
    · rw [c.2] at h; exact absurd h (lt_irrefl _)
    · rw [c.1]; rfl
  · intro h; rw [exOrder_numbers ha hb]
    rcases cmpRat_cases y x with c | c | c
    · rw [c.1]; rfl
    · rw [c.2] at h; exact absurd h (lt_irrefl _)
    · exact absurd c.2 (not_lt.2 h.le)
  all_goals first
    | (intro h h1 h2; rw [exOrder_num ha hb (by simp [h1, h2]), h1, h2, h]; simp [numC, cmpRat])
    | skip
  intro m n e1 e2
  subst e1 e2
  rw [exOrder_int]
  unfold cmpInt
  refine ⟨?_, ?_, ?_⟩ <;> intro h <;> split_ifs <;> omega

/-- C03: on integers, rationals and reals the comparison is a total preorder: total and transitive, and it
respects value up to rounding. -/
theorem C03_numbers_total_preorder (a b c : Ex) (ha : realNum a = true) (hb : realNum b = true)
    (hc : realNum c = true) :
    (0 ≤ exOrder a b ∨ 0 ≤ exOrder b a) ∧
    (0 ≤ exOrder a b → 0 ≤ exOrder b c → 0 ≤ exOrder a c) ∧
    (∀ x y, realVal a = some x → realVal b = some y → rnd53 x < rnd53 y →
      (∀ v, a ≠ .flt v) → (∀ v, b ≠ .flt v) → exOrder a b = 1) := by
  have da : Dom a := by cases a <;> simp [realNum] at ha <;> constructor
  have db : Dom b := by cases b <;> simp [realNum] at hb <;> constructor
  have dc : Dom c := by cases c <;> simp [realNum] at hc <;> constructor
  refine ⟨?_, ?_, ?_⟩
  · have := exOrder_opp da db; omega
  · have := exOrder_Tri da db dc; unfold Tri at this; omega
  · intro x y hx hy hlt na nb
    have ea : toFlt a = some (rnd53 x) := by
      cases a <;> simp [realVal, realNum] at hx ha na <;> simp [toFlt, hx]
    have eb : toFlt b = some (rnd53 y) := by
      cases b <;> simp [realVal, realNum] at hy hb nb <;> simp [toFlt, hy]
    exact (C03_number_order a b _ _ ea eb).1 hlt

example : realNum (.rat 1 2) = true ∧ realNum (.int 3) = true ∧ realNum (.flt (1/2)) = true := ⟨rfl, rfl, rfl⟩

/-! ## C55: total preorder on expressions -/

/-- C55 (partial: the symbol ``System`Times`` must not occur as an argument): the canonical comparison is a
total preorder on expressions: total, transitive, and ties are interchangeable. -/
theorem C55_order_total_preorder_partial (a b c : Ex) (ha : HeadOnly a) (hb : HeadOnly b) (hc : HeadOnly c) :
    (exOrder a b = 1 ∨ exOrder a b = 0 ∨ exOrder b a = 1) ∧
    (0 ≤ exOrder a b → 0 ≤ exOrder b c → 0 ≤ exOrder a c) ∧
    (exOrder a b = 1 → exOrder b c = 1 → exOrder a c = 1) ∧
    (exOrder a b = 0 → exOrder a c = exOrder b c ∧ exOrder c a = exOrder c b) := by
  have t := exOrder_Tri ha.dom hb.dom hc.dom
  have o1 := exOrder_opp ha.dom hb.dom
  have o2 := exOrder_opp hb.dom hc.dom
  have o3 := exOrder_opp ha.dom hc.dom
  unfold Tri at t
  omega

example : HeadOnly (.expr [.sym "System`Times", .int 2, .expr [.sym "System`Power", .sym "x", .int 2]]) := by
  refine .expr _ ?_ ?_
  · intro p hp
    simp only [List.mem_cons, List.not_mem_nil, or_false] at hp
    rcases hp with rfl | rfl | rfl
    · exact .sym _
    · exact .int _
    · refine .expr _ ?_ ?_
      · intro p hp
        simp only [List.mem_cons, List.not_mem_nil, or_false] at hp
        rcases hp with rfl | rfl | rfl <;> constructor
      · intro p hp
        simp only [List.tail_cons, List.mem_cons, List.not_mem_nil, or_false] at hp
        rcases hp with rfl | rfl <;> simp
  · intro p hp
    simp only [List.tail_cons, List.mem_cons, List.not_mem_nil, or_false] at hp
    rcases hp with rfl | rfl <;> simp

/-- C55 fails without the restriction: `Times[1,2]`, `Times[2,1]`, `Times[Times,1,1]` (unevaluated, as inside `Hold`)
form a cycle of strict precedence. -/
theorem C55_not_transitive :
    let T := Ex.sym "System`Times"
    let a := Ex.expr [T, .int 1, .int 2]
    let b := Ex.expr [T, .int 2, .int 1]
    let c := Ex.expr [T, T, .int 1, .int 1]
    exOrder a b = 1 ∧ exOrder b c = 1 ∧ exOrder c a = 1 := by
  intro T a b c
  have hT : exOrder T T = 0 := exOrder_TT
  have h12 : exOrder (.int 1) (.int 2) = 1 := by rw [exOrder_int]; rfl
  have h21 : exOrder (.int 2) (.int 1) = -1 := by rw [exOrder_int]; rfl
  have h11 : exOrder (.int 1) (.int 1) = 0 := by rw [exOrder_int]; rfl
  refine ⟨?_, ?_, ?_⟩
  · rw [exOrder_times rfl rfl (Or.inl rfl)]
    simp [a, b, T, tParts, Ex.hasHead, timesP, lexP, skipNum, onlyNum, Ex.numberQ, hT, thenI, h12]
  · rw [exOrder_times rfl rfl (Or.inl rfl)]
    simp [b, c, T, tParts, Ex.hasHead, timesP, lexP, skipNum, onlyNum, Ex.numberQ, hT, thenI, h11, lenCmp]
  · rw [exOrder_times rfl rfl (Or.inl rfl)]
    simp [a, c, T, tParts, Ex.hasHead, timesP, lexP, skipNum, onlyNum, Ex.numberQ, hT, thenI, h12]

/-! ## C04 -/

/-- C04: whatever the (unstable) library sort does within its contract, the head stays, the arguments are
permuted, and no argument is canonically before an earlier one. -/
theorem C04_sort_ordered_permutation (e e' : Ex) (h : SortsTo e e')
    (hd : ∀ hd as, e = .expr (hd :: as) → ∀ x ∈ as, HeadOnly x) :
    ∃ hd as as', e = .expr (hd :: as) ∧ e' = .expr (hd :: as') ∧ as'.Perm as ∧
      as'.Pairwise (fun a b => 0 ≤ exOrder a b) := by
  obtain ⟨hd', as, as', rfl, rfl, hp, hs⟩ := h
  refine ⟨hd', as, as', rfl, rfl, hp, ?_⟩
  have dom : ∀ x ∈ as, Dom x := fun x hx => (hd hd' as rfl x hx).dom
  have := hs (exOrder_strictWeak dom)
  refine this.imp_of_mem ?_
  intro a b ha hb hlt
  have o := exOrder_opp (dom a (hp.mem_iff.1 ha)) (dom b (hp.mem_iff.1 hb))
  simp [exLess] at hlt
  omega

/-- C04: every expression has a sorted form within the contract: the insertion sort the library uses on up to
12 elements is one. -/
theorem C04_insertionSort (h : Ex) (as : List Ex) :
    SortsTo (.expr (h :: as)) (.expr (h :: insertionSort exLess as)) :=
  ⟨h, as, _, rfl, rfl, insertionSort_contract exLess as⟩

/-- C04: sorting an already sorted argument list of at most 12 elements leaves it alone (Sort is
idempotent there). -/
theorem C04_insertionSort_sorted (as : List Ex) (h : as.Pairwise (fun a b => exOrder b a ≠ 1)) :
    insertionSort exLess as = as := by
  have key : ∀ (ys acc : List Ex), (acc.reverse ++ ys).Pairwise (fun a b => exOrder b a ≠ 1) →
      (ys.foldl (fun acc x => insertR exLess x acc) acc) = ys.reverse ++ acc := by
    intro ys
    induction ys with
    | nil => intro acc _; rfl
    | cons y ys ih =>
      intro acc hs
      have e : insertR exLess y acc = y :: acc := by
        cases acc with
        | nil => rfl
        | cons z zs =>
          have : exOrder y z ≠ 1 := by
            rw [List.pairwise_append] at hs
            exact hs.2.2 z (by simp) y (by simp)
          simp [insertR, exLess, this]
      simp only [List.foldl_cons, e]
      rw [ih (y :: acc) (by simpa using hs)]
      simp
  unfold insertionSort
  rw [key as [] (by simpa using h)]
  simp

/-! ## C05 -/

/-- C05 (partial: uniqueness only up to ties): sorting two rearrangements of the same arguments gives lists
that agree position by position up to canonical ties. -/
theorem C05_canonical_form_partial (h : Ex) (as bs as' bs' : List Ex) (hp : as.Perm bs)
    (hd : ∀ x ∈ as, HeadOnly x)
    (ha : SortsTo (.expr (h :: as)) (.expr (h :: as'))) (hb : SortsTo (.expr (h :: bs)) (.expr (h :: bs'))) :
    List.Forall₂ (fun a b => exOrder a b = 0) as' bs' := by
  obtain ⟨h1, xs, xs', e1, e1', p1, s1⟩ := C04_sort_ordered_permutation _ _ ha (by
    intro hd' as0 e x hx; simp only [Ex.expr.injEq, List.cons.injEq] at e; exact hd x (e.2 ▸ hx))
  obtain ⟨h2, ys, ys', e2, e2', p2, s2⟩ := C04_sort_ordered_permutation _ _ hb (by
    intro hd' as0 e x hx; simp only [Ex.expr.injEq, List.cons.injEq] at e
    exact hd x (hp.mem_iff.2 (e.2 ▸ hx)))
  simp only [Ex.expr.injEq, List.cons.injEq] at e1 e1' e2 e2'
  obtain ⟨_, rfl⟩ := e1; obtain ⟨_, rfl⟩ := e1'; obtain ⟨_, rfl⟩ := e2; obtain ⟨_, rfl⟩ := e2'
  exact sorted_perm_tie (fun x hx => (hd x (p1.mem_iff.1 hx)).dom) (p1.trans (hp.trans p2.symm)) s1 s2

/-- C05: the canonical form is not unique: two orders of the same two complex numbers are both left as they
are by the library sort (ties: complex numbers are compared by real part only). -/
theorem C05_not_unique :
    let a := Ex.cplx (.int 1) (.int 2)
    let b := Ex.cplx (.int 1) (.int 3)
    [a, b].Perm [b, a] ∧ insertionSort exLess [a, b] = [a, b] ∧ insertionSort exLess [b, a] = [b, a] ∧
      [a, b] ≠ [b, a] := by
  intro a b
  have h : ∀ i j : Int, exOrder (.cplx (.int 1) (.int i)) (.cplx (.int 1) (.int j)) = 0 := by
    intro i j
    exact (C03_number_order _ _ _ _ rfl rfl).2.2.2.2.1 rfl rfl rfl
  refine ⟨List.Perm.swap _ _ _, C04_insertionSort_sorted _ ?_, C04_insertionSort_sorted _ ?_, by simp [a, b]⟩
  · simp [a, b, h]
  · simp [a, b, h]

/-- C05: further ties of different expressions: `1/2` and `0.5`, and `x` and `Times[1, x]`. -/
theorem C05_other_ties (x : String) :
    exOrder (.rat 1 2) (.flt (rnd53 (1 / 2))) = 0 ∧
    exOrder (.sym x) (.expr [.sym "System`Times", .int 1, .sym x]) = 0 := by
  constructor
  · refine (C03_number_order _ _ (rnd53 (1/2)) (rnd53 (1/2)) ?_ rfl).2.2.2.2.1 rfl rfl rfl
    simp [toFlt]
  · rw [exOrder_times rfl rfl (Or.inr rfl)]
    have hT : exOrder (.sym "System`Times") (.sym "System`Times") = 0 := exOrder_TT
    have h11 : exOrder (.int 1) (.int 1) = 0 := by rw [exOrder_int]; rfl
    have hx : exOrder (.sym x) (.sym x) = 0 := by rw [exOrder_sym, compareStrings_eq_zero]
    simp [tParts, Ex.hasHead, timesP, lexP, skipNum, onlyNum, Ex.numberQ, hT, thenI, h11, hx, lenCmp]

/-! ## C06 -/

/-- Lexicographic order on byte strings: a proper prefix is smaller; else the first difference decides. -/
inductive LexLt : List UInt8 → List UInt8 → Prop
  | nil (b bs) : LexLt [] (b :: bs)
  | head (a b as bs) : a.toNat < b.toNat → LexLt (a :: as) (b :: bs)
  | tail (a as bs) : LexLt as bs → LexLt (a :: as) (a :: bs)

theorem compareBytes_lexLt (a b : List UInt8) : compareBytes a b = 1 ↔ LexLt a b := by
  induction a generalizing b with
  | nil =>
    cases b with
    | nil => simp [compareBytes]; intro h; cases h
    | cons y b => simp [compareBytes]; exact LexLt.nil y b
  | cons x a ih =>
    cases b with
    | nil => simp [compareBytes]; intro h; cases h
    | cons y b =>
      simp only [compareBytes, gt_iff_lt]
      rcases u8_tri x y with h | h | h
      · simp only [h, if_true, if_false, true_iff]
        exact LexLt.head _ _ _ _ (UInt8.lt_iff_toNat_lt.1 h.1)
      · subst h
        have : ¬ x < x := by rw [UInt8.lt_iff_toNat_lt]; omega
        simp only [this, if_false, ih b]
        constructor
        · exact LexLt.tail x a b
        · intro h; cases h with
          | head _ _ _ _ h => omega
          | tail _ _ _ h => exact h
      · simp only [h, if_true]
        constructor
        · intro h'; omega
        · intro h'
          cases h' with
          | head _ _ _ _ h' => have := UInt8.lt_iff_toNat_lt.1 h.1; omega
          | tail _ _ _ _ => exact absurd rfl h.2.2

/-- C06: symbols are ordered by the bytewise lexicographic order of their names, and so are strings; a tie
means the names are equal. -/
theorem C06_names_lexicographic (s t : String) :
    (exOrder (.sym s) (.sym t) = 1 ↔ LexLt (bytes s) (bytes t)) ∧
    (exOrder (.sym s) (.sym t) = -1 ↔ LexLt (bytes t) (bytes s)) ∧
    (exOrder (.sym s) (.sym t) = 0 ↔ s = t) ∧
    exOrder (.str s) (.str t) = exOrder (.sym s) (.sym t) := by
  rw [exOrder_sym, exOrder_str]
  refine ⟨compareBytes_lexLt _ _, ?_, compareStrings_eq_zero s t, rfl⟩
  rw [← compareBytes_lexLt]
  have h := compareStrings_AS s t
  unfold AS compareStrings at h
  unfold compareStrings
  have hne := exOrder_ne_aux _ (.sym s) (.sym t) (.sym s) (.sym t) le_rfl
  rw [exOrder_sym] at hne
  unfold compareStrings at hne
  omega

/-- C06: numbers come first, then strings, then symbols and expressions. -/
theorem C06_type_order (a b : Ex) (ha : HeadOnly a) (hb : HeadOnly b) :
    (a.numberQ = true → b.numberQ = false → exOrder a b = 1) ∧
    ((∃ s, a = .str s) → b.numberQ = false → (∀ s, b ≠ .str s) → exOrder a b = 1) := by
  constructor
  · intro h1 h2
    refine (exOrder_rank ha.dom hb.dom ?_).1
    cases a <;> cases b <;> simp [Ex.numberQ, rank] at *
  · rintro ⟨s, rfl⟩ h2 h3
    refine (exOrder_rank ha.dom hb.dom ?_).1
    cases b <;> simp [Ex.numberQ, rank] at *

end Expreduce
