import Verif.Model.Matrix
import Verif.Spec.Matrix
import Verif.Proofs.Arith
import Verif.Props.Functional3
import Verif.Props.Eval
import Mathlib.Data.Matrix.Mul
import Mathlib.Algebra.BigOperators.Fin

/-! Property C46 (Dimensions, Transpose, Dot), C80 (Distribute), C25 (Thread). -/

namespace Expreduce
open Ex

theorem isSameQ_refl' (h : Ex) : isSameQ h h = true := by
  unfold isSameQ
  split
  · split <;> simp_all [almostEqual]
  · simp

theorem dimsElem_leaf {h e : Ex} (hl : IsArray h [] e) (hx : HeadsExact h [e]) (hh : Headed e) : dimsElem h e = some none := by
  cases e with
  | expr ps =>
    cases ps with
    | nil => exact absurd rfl (hh _ (.inl rfl))
    | cons h' as =>
      have := hx (.expr (h' :: as)) (by simp) h' as (.inl rfl)
      rw [dimsElem, dimsSub, if_neg]
      intro h1
      obtain rfl := this.1 h1
      exact hl as rfl
  | _ => simp [dimsElem]

theorem HeadsExact.arg {h e : Ex} {as : List Ex} (hx : HeadsExact h [.expr (h :: as)]) (he : e ∈ as) : HeadsExact h [e] :=
  fun b hb => by
    obtain rfl := List.mem_singleton.1 hb
    exact HeadsExact.part (h' := h) hx (by simp) b he

theorem Headed.arg {h e : Ex} {as : List Ex} (hh : Headed (.expr (h :: as))) (he : e ∈ as) : Headed e := hh.parts.2 e (List.mem_cons_of_mem _ he)

theorem dimsLoop_leaves {h : Ex} {as : List Ex} (ha : ∀ a ∈ as, dimsElem h a = some none) : ∃ r, dimsLoop h none as = some r ∧ r.getD [] = [] := by
  cases as with
  | nil => exact ⟨some [], by simp [dimsLoop], rfl⟩
  | cons a as => exact ⟨none, by simp [dimsLoop, ha a (by simp)], rfl⟩

theorem dimsAgree_self (ds : List Nat) : dimsAgree (some ds) ds = true := by
  simp [dimsAgree]

theorem dimsLoop_same {h : Ex} {ds : List Nat} : ∀ {as : List Ex}, (∀ a ∈ as, dimsElem h a = some (some ds)) → dimsLoop h (some ds) as = some (some ds)
  | [], _ => by simp [dimsLoop]
  | a :: as, ha => by
    simp only [dimsLoop, ha a (by simp), Option.bind_some, dimsAgree_self, if_true]
    exact dimsLoop_same (fun b hb => ha b (List.mem_cons_of_mem _ hb))

/-- The dimensions behind the first one. -/
theorem dimsLoop_array {h : Ex} {ds : List Nat} {as : List Ex} (h0 : as = [] → ds = [])
    (ha : ∀ a ∈ as, dimsElem h a = some (if ds = [] then none else some ds)) : ∃ r, dimsLoop h none as = some r ∧ r.getD [] = ds := by
  by_cases e : ds = []
  · subst e
    exact dimsLoop_leaves ha
  · simp only [if_neg e] at ha
    cases as with
    | nil => exact absurd (h0 rfl) e
    | cons a as =>
      refine ⟨some ds, ?_, rfl⟩
      simp only [dimsLoop, ha a (by simp), Option.bind_some, dimsAgree, if_true]
      exact dimsLoop_same (fun b hb => ha b (List.mem_cons_of_mem _ hb))

theorem dimsElem_array {h : Ex} : ∀ {ds : List Nat} {e : Ex}, IsArray h ds e → HeadsExact h [e] → Headed e →
    dimsElem h e = some (if ds = [] then none else some ds)
  | [], e, ha, hx, hh => by simpa using dimsElem_leaf ha hx hh
  | n :: ds, e, ⟨as, he, hn, h0, ha⟩, hx, hh => by
    subst he
    obtain ⟨r, hr, hr2⟩ := dimsLoop_array (h := h) (ds := ds) (as := as) (fun e => h0 (by simp [← hn, e]))
      (fun a ha' => dimsElem_array (ha a ha') (hx.arg ha') (hh.arg ha'))
    rw [dimsElem, dimsSub, if_pos (isSameQ_refl' h), hr, Option.map_some, hr2, hn]
    simp

theorem dimensions_array {h : Ex} {n : Nat} {ds : List Nat} {as : List Ex} (ha : IsArray h (n :: ds) (.expr (h :: as)))
    (hx : HeadsExact h [.expr (h :: as)]) (hh : Headed (.expr (h :: as))) : dimensions (h :: as) = some (n :: ds) := by
  obtain ⟨as', he, hn, h0, ha⟩ := ha
  cases he
  obtain ⟨r, hr, hr2⟩ := dimsLoop_array (h := h) (ds := ds) (as := as) (fun e => h0 (by simp [← hn, e]))
    (fun a ha' => dimsElem_array (ha a ha') (hx.arg ha') (hh.arg ha'))
  simp [dimensions, hr, hr2, hn]

/-- C46. `Dimensions` of a full array gives its dimensions, of an atom the empty list. -/
theorem C46_dimensions_partial (P h e : Ex) (n : Nat) (ds : List Nat) (ha : IsArray h (n :: ds) e) (hx : HeadsExact h [e]) (hh : Headed e) :
    dimensionsFn [P, e] = some (.expr (S "List" :: (n :: ds).map (fun k : Nat => Ex.int k))) := by
  obtain ⟨as, rfl, -⟩ := id ha
  simp only [dimensionsFn, dimensions_array ha hx hh, Option.map_some]

theorem C46_dimensions_atom (P e : Ex) (he : ∀ ps, e ≠ .expr ps) : dimensionsFn [P, e] = some (.expr [S "List"]) := by
  unfold dimensionsFn
  split
  · rename_i h
    cases h
    exact absurd rfl (he _)
  · rfl
  · rename_i x
    exact absurd rfl (x P e)

/-- C46. Of arrays that are not full, `Dimensions` may be wrong: `{{{1}, {2}}, {3, 4, 5}}` is a list of two lists of different lengths, but has dimensions
`{2, 3}`; `{{1, 2}, {{3}, {4}}}` has dimensions `{2, 2, 1}` although the entries 1 and 2 are no lists. -/
theorem C46_dimensions_wrong :
    dimensionsFn [S "Dimensions", listOf [listOf [listOf [.int 1], listOf [.int 2]], listOf [.int 3, .int 4, .int 5]]] = some (listOf [.int 2, .int 3]) ∧
    dimensionsFn [S "Dimensions", listOf [listOf [.int 1, .int 2], listOf [listOf [.int 3], listOf [.int 4]]]] = some (listOf [.int 2, .int 2, .int 1]) := by
  decide +kernel

/-! ### Matrices -/

theorem collect_eq {f : Nat → Option Ex} {g : Nat → Ex} : ∀ (k i : Nat), (∀ j, i ≤ j → j < i + k → f j = some (g j)) →
    collect f k i = some ((List.range' i k).map g)
  | 0, _, _ => rfl
  | k + 1, i, h => by
    rw [collect, h i (by omega) (by omega), Option.bind_some, collect_eq k (i + 1) (fun j h1 h2 => h j (by omega) (by omega))]
    simp [List.range'_succ]

theorem collect_fin {f : Nat → Option Ex} {k i : Nat} {g : Fin k → Ex} (h : ∀ j : Fin k, f (i + j) = some (g j)) :
    collect f k i = some (List.ofFn g) := by
  induction k generalizing i with
  | zero => simp [collect]
  | succ k ih =>
    rw [collect, show f i = some (g 0) from h 0, Option.bind_some, ih (g := fun j => g j.succ)]
    · simp [List.ofFn_succ]
    · intro j
      have := h j.succ
      rw [← this]
      congr 1
      simp
      omega

theorem getElem2_matrix {m n : Nat} (A : Fin m → Fin n → Ex) (i : Fin m) (j : Fin n) :
    getElem2 (S "List" :: List.ofFn (fun i => vectorEx (A i))) (1 + i) (1 + j) = some (A i j) := by
  simp only [getElem2, Nat.add_comm 1, List.getElem?_cons_succ]
  rw [List.getElem?_eq_getElem (by simp)]
  simp [vectorEx, exprParts]

theorem part_of_sub {ps : List Ex} {z : Ex} (hz : z ∈ Headed.subs (.expr ps)) : ∃ a ∈ ps, z = a ∨ z ∈ Headed.subs a := by
  change z ∈ Headed.subsL ps at hz
  induction ps with
  | nil => simp [Headed.subsL] at hz
  | cons b l ih =>
    simp only [Headed.subsL, List.mem_cons, List.mem_append, List.cons_append] at hz
    rcases hz with rfl | hz | hz
    · exact ⟨_, by simp, .inl rfl⟩
    · exact ⟨b, by simp, .inr hz⟩
    · obtain ⟨a, ha, h⟩ := ih hz
      exact ⟨a, List.mem_cons_of_mem _ ha, h⟩

theorem HeadsExact.list {as : List Ex} (h : ∀ a ∈ as, HeadsExact (S "List") [a]) : HeadsExact (S "List") [.expr (S "List" :: as)] := by
  intro b hb h' bs hs
  obtain rfl := List.mem_singleton.1 hb
  rcases hs with hs | hs
  · cases hs
    exact ⟨fun _ => rfl, fun _ => isSameQ_refl' _⟩
  · obtain ⟨a, ha, hz⟩ := part_of_sub hs
    rcases List.mem_cons.1 ha with rfl | ha
    · simp [S, Headed.subs] at hz
    · exact h a ha a (by simp) h' bs hz

theorem Headed.list {as : List Ex} (h : ∀ a ∈ as, Headed a) : Headed (.expr (S "List" :: as)) := by
  intro p hp
  rcases hp with rfl | hp
  · simp
  · obtain ⟨a, ha, hz⟩ := part_of_sub hp
    rcases List.mem_cons.1 ha with rfl | ha
    · rcases hz with rfl | hz
      · simp [S]
      · simp [S, Headed.subs] at hz
    · exact h a ha p hz

/-- The entries are arrays of lists with the dimensions `ds` (no lists, if `ds` is empty), and no expression without parts and no head with the fingerprint of
`List` occurs in them. -/
structure Entries {m n : Nat} (A : Fin m → Fin n → Ex) (ds : List Nat) : Prop where
  arr : ∀ i j, IsArray (S "List") ds (A i j)
  exact : ∀ i j, HeadsExact (S "List") [A i j]
  headed : ∀ i j, Headed (A i j)

theorem isArray_matrix {m n : Nat} {A : Fin m → Fin n → Ex} {ds : List Nat} (hm : 1 ≤ m) (hn : n = 0 → ds = []) (h : ∀ i j, IsArray (S "List") ds (A i j)) :
    IsArray (S "List") (m :: n :: ds) (matrixEx A) := by
  refine ⟨_, rfl, by simp, by omega, ?_⟩
  intro a ha
  obtain ⟨i, rfl⟩ := (List.mem_ofFn' _ _).1 ha
  refine ⟨_, rfl, by simp, hn, ?_⟩
  intro a ha
  obtain ⟨j, rfl⟩ := (List.mem_ofFn' _ _).1 ha
  exact h i j

theorem dimensions_matrix {m n : Nat} {A : Fin m → Fin n → Ex} {ds : List Nat} (hm : 1 ≤ m) (hn : n = 0 → ds = []) (hA : Entries A ds) :
    dimensions (S "List" :: List.ofFn (fun i => vectorEx (A i))) = some (m :: n :: ds) :=
  by
  refine dimensions_array (isArray_matrix hm hn hA.arr) (HeadsExact.list ?_) (Headed.list ?_)
  all_goals
    intro a ha
    obtain ⟨i, rfl⟩ := (List.mem_ofFn' _ _).1 ha
  · refine HeadsExact.list ?_
    intro a ha
    obtain ⟨j, rfl⟩ := (List.mem_ofFn' _ _).1 ha
    exact hA.exact i j
  · refine Headed.list ?_
    intro a ha
    obtain ⟨j, rfl⟩ := (List.mem_ofFn' _ _).1 ha
    exact hA.headed i j

/-- C46. `Transpose` exchanges rows and columns of a matrix with at least one row (entries that are themselves arrays of lists must have equal dimensions). -/
theorem C46_transpose_partial (P : Ex) {m n : Nat} (A : Fin m → Fin n → Ex) (ds : List Nat) (hm : 1 ≤ m) (hn : n = 0 → ds = []) (hA : Entries A ds) :
    transposeFn [P, matrixEx A] = some (matrixEx (fun j i => A i j)) := by
  have h1 : argsOf "System`List" (matrixEx A) = some (List.ofFn (fun i => vectorEx (A i))) := rfl
  simp only [transposeFn, h1, transposeIn, dimensions_matrix hm hn hA, Option.bind_some]
  rw [collect_fin (g := fun j => vectorEx (fun i => A i j))]
  · rfl
  · intro j
    rw [collect_fin (g := fun i => A i j)]
    · rfl
    · intro i
      exact getElem2_matrix A i j

/-- C46. Transposing twice gives the matrix again. -/
theorem C46_transpose_twice (P Q : Ex) {m n : Nat} (A : Fin m → Fin n → Ex) (ds : List Nat) (hm : 1 ≤ m) (hn : 1 ≤ n) (hA : Entries A ds) :
    ∃ B, transposeFn [P, matrixEx A] = some B ∧ transposeFn [Q, B] = some (matrixEx A) :=
  ⟨_, C46_transpose_partial P A ds hm (by omega) hA,
    C46_transpose_partial Q (fun j i => A i j) ds hn (by omega) ⟨fun j i => hA.arr i j, fun j i => hA.exact i j, fun j i => hA.headed i j⟩⟩

/-- C46. `Transpose` of a list of lists of different lengths may crash. -/
theorem C46_transpose_crashes :
    transposeFn [S "Transpose", listOf [listOf [listOf [.int 1], listOf [.int 2]], listOf [.int 3, .int 4, .int 5]]] = none := by
  decide +kernel

/-- C46. A rectangular matrix whose entries are lists of different lengths is not transposed. -/
theorem C46_transpose_unevaluated :
    let call := [S "Transpose", matrixEx (m := 2) (n := 1) (fun i _ => if i = 0 then listOf [.int 1] else listOf [.int 2, .int 3])]
    transposeFn call = some (.expr call) := by
  decide +kernel

theorem matrixQ_matrix {m n : Nat} {A : Fin m → Fin n → Ex} (hm : 1 ≤ m) (hA : Entries A []) : matrixQ (matrixEx A) = some true := by
  have h1 : argsOf "System`List" (matrixEx A) = some (List.ofFn (fun i => vectorEx (A i))) := rfl
  simp only [matrixQ, h1, dimensions_matrix hm (fun _ => rfl) hA, Option.map_some]
  rfl

theorem vectorQ_matrix {m n : Nat} {A : Fin m → Fin n → Ex} (hm : 1 ≤ m) : vectorQ (matrixEx A) = false := by
  have h1 : argsOf "System`List" (matrixEx A) = some (List.ofFn (fun i => vectorEx (A i))) := rfl
  simp only [vectorQ, h1]
  rw [List.all_eq_false]
  refine ⟨vectorEx (A ⟨0, hm⟩), (List.mem_ofFn' _ _).2 ⟨_, rfl⟩, ?_⟩
  simp [vectorEx, argsOf, S]

/-- Entry of the matrix product. -/
def productEntry {m k n : Nat} (A : Fin m → Fin k → Ex) (B : Fin k → Fin n → Ex) (i : Fin m) (j : Fin n) : Ex :=
  .expr (S "Plus" :: List.ofFn (fun l => .expr [S "Times", A i l, B l j]))

theorem calcIJ_eq {m k n : Nat} (A : Fin m → Fin k → Ex) (B : Fin k → Fin n → Ex) (i : Fin m) (j : Fin n) :
    calcIJ (1 + i) (1 + j) k (S "List" :: List.ofFn (fun i => vectorEx (A i))) (S "List" :: List.ofFn (fun i => vectorEx (B i))) = some (productEntry A B i j) := by
  rw [calcIJ, collect_fin (g := fun l => .expr [S "Times", A i l, B l j])]
  · rfl
  · intro l
    simp only [getElem2_matrix, Option.bind_some, Option.map_some]

theorem dot_matrices {m k n : Nat} (P : Ex) (A : Fin m → Fin k → Ex) (B : Fin k → Fin n → Ex) (hm : 1 ≤ m) (hk : 1 ≤ k) (hA : Entries A []) (hB : Entries B []) :
    dotFn [P, matrixEx A, matrixEx B] = some (matrixEx (productEntry A B)) := by
  have hp : ∀ {m n : Nat} (A : Fin m → Fin n → Ex), exprParts (matrixEx A) = some (S "List" :: List.ofFn (fun i => vectorEx (A i))) := fun _ => rfl
  simp only [dotFn, vectorQ_matrix hm, Bool.false_and, Bool.false_eq_true, if_false, matrixQ_matrix hm hA, matrixQ_matrix hk hB, Option.bind_some, Bool.and_self,
    if_true, hp, Option.getD_some, dotMatrices, dimensions_matrix hm (fun _ => rfl) hA, dimensions_matrix hk (fun _ => rfl) hB, ne_eq, not_true]
  rw [collect_fin (g := fun i => vectorEx (productEntry A B i))]
  · rfl
  · intro i
    rw [collect_fin (g := productEntry A B i)]
    · rfl
    · intro j
      exact calcIJ_eq A B i j

/-- C46. `Dot` of an `m × k` and a `k × n` matrix (`m, k ≥ 1`) is an `m × n` matrix whose values are the entries of the matrix product, for every
interpretation of the symbols (`Plus` and `Times` as sum and product). -/
theorem C46_dot_partial {K : Type} [Field K] [CharZero K] (ρ : Ex → K) (iu : K) {m k n : Nat} (P : Ex) (A : Fin m → Fin k → Ex) (B : Fin k → Fin n → Ex) (hm : 1 ≤ m) (hk : 1 ≤ k)
    (hA : Entries A []) (hB : Entries B []) :
    ∃ C : Fin m → Fin n → Ex, dotFn [P, matrixEx A, matrixEx B] = some (matrixEx C) ∧
      Matrix.of (fun i j => value ρ iu (C i j)) = Matrix.of (fun i j => value ρ iu (A i j)) * Matrix.of (fun i j => value ρ iu (B i j)) := by
  refine ⟨_, dot_matrices P A B hm hk hA hB, ?_⟩
  ext i j
  rw [Matrix.mul_apply]
  simp only [Matrix.of_apply, productEntry]
  rw [value_plus, List.map_ofFn, List.sum_ofFn]
  refine Finset.sum_congr rfl (fun l _ => ?_)
  simp only [Function.comp_apply, value_times, List.map_cons, List.map_nil, List.prod_cons, List.prod_nil, mul_one]

theorem vectorQ_vector {n : Nat} {v : Fin n → Ex} (hv : ∀ i, IsArray (S "List") [] (v i)) : vectorQ (vectorEx v) = true := by
  have h1 : argsOf "System`List" (vectorEx v) = some (List.ofFn v) := rfl
  simp only [vectorQ, h1, List.all_eq_true]
  intro a ha
  obtain ⟨i, rfl⟩ := (List.mem_ofFn' _ _).1 ha
  have := hv i
  unfold argsOf
  split
  · rename_i s as he
    split
    · rename_i hs
      exact absurd he (hs ▸ this as)
    · rfl
  · rfl

/-- C46. `Dot` of two vectors of the same length (without lists as entries) is their inner product; of vectors of different lengths it stays. -/
theorem C46_dot_vectors {K : Type} [Field K] [CharZero K] (ρ : Ex → K) (iu : K) {m n : Nat} (P : Ex) (u : Fin m → Ex) (v : Fin n → Ex) (hu : ∀ i, IsArray (S "List") [] (u i))
    (hv : ∀ i, IsArray (S "List") [] (v i)) :
    (∀ h : m = n, ∃ r, dotFn [P, vectorEx u, vectorEx v] = some r ∧ value ρ iu r = ∑ i : Fin m, value ρ iu (u i) * value ρ iu (v (h ▸ i))) ∧
    (m ≠ n → dotFn [P, vectorEx u, vectorEx v] = some (.expr [P, vectorEx u, vectorEx v])) := by
  have hp : ∀ {n : Nat} (v : Fin n → Ex), exprParts (vectorEx v) = some (S "List" :: List.ofFn v) := fun _ => rfl
  constructor
  · rintro rfl
    refine ⟨.expr (S "Plus" :: List.ofFn (fun i => .expr [S "Times", u i, v i])), ?_, ?_⟩
    · simp only [dotFn, vectorQ_vector hu, vectorQ_vector hv, Bool.and_self, if_true, hp, Option.getD_some, dotVectors, List.length_cons, List.length_ofFn, ne_eq,
        not_true, if_false, Nat.add_sub_cancel]
      rw [collect_fin (g := fun i => .expr [S "Times", u i, v i])]
      · rfl
      · intro i
        simp
    · rw [value_plus, List.map_ofFn, List.sum_ofFn]
      refine Finset.sum_congr rfl (fun l _ => ?_)
      simp only [Function.comp_apply, value_times, List.map_cons, List.map_nil, List.prod_cons, List.prod_nil, mul_one]
  · intro h
    simp only [dotFn, vectorQ_vector hu, vectorQ_vector hv, Bool.and_self, if_true, hp, Option.getD_some, dotVectors, List.length_cons, List.length_ofFn, ne_eq,
      Nat.add_right_cancel_iff, h, not_false_eq_true]

/-- C46. `Dot` of a list of lists of different lengths that `Dimensions` takes for a matrix crashes. -/
theorem C46_dot_crashes :
    dotFn [S "Dot", listOf [listOf [listOf [.int 1], listOf [.int 2]], listOf [.int 3, .int 4, .int 5]], listOf [listOf [.int 1], listOf [.int 2], listOf [.int 3]]] =
      none := by
  decide +kernel

/-- The hypotheses are met: `{{1, 2}, {3, 4}}`. -/
example : Entries (m := 2) (n := 2) (fun i j => .int (2 * i + j + 1)) [] ∧
    transposeFn [S "Transpose", listOf [listOf [.int 1, .int 2], listOf [.int 3, .int 4]]] = some (listOf [listOf [.int 1, .int 3], listOf [.int 2, .int 4]]) := by
  refine ⟨⟨fun i j as => by simp, fun i j => ?_, fun i j => ?_⟩, by decide +kernel⟩
  · intro a ha h' bs hs
    obtain rfl := List.mem_singleton.1 ha
    simp [Headed.subs] at hs
  · intro p hp
    simp [Headed.subs] at hp
    simp [hp]

/-- C46. `MatrixQ` of a full array of lists tells whether it has two dimensions, `VectorQ` whether it has one; both are false of everything else than a list. -/
theorem C46_matrixQ (e : Ex) :
    (∀ n ds, IsArray (S "List") (n :: ds) e → HeadsExact (S "List") [e] → Headed e →
      matrixQ e = some (decide (ds.length = 1)) ∧ vectorQ e = decide (ds = [])) ∧
    (IsArray (S "List") [] e → matrixQ e = some false ∧ vectorQ e = false) := by
  constructor
  · intro n ds ha hx hh
    obtain ⟨as, rfl, hn, h0, hel⟩ := id ha
    have h1 : argsOf "System`List" (.expr (S "List" :: as)) = some as := rfl
    constructor
    · simp only [matrixQ, h1, dimensions_array ha hx hh, Option.map_some]
      simp [Bool.beq_eq_decide_eq]
    · simp only [vectorQ, h1]
      cases ds with
      | nil =>
        simp only [decide_true, List.all_eq_true]
        intro a ha'
        have := hel a ha'
        unfold argsOf
        split
        · rename_i s bs
          split
          · rename_i hs
            exact absurd rfl (hs ▸ this bs)
          · rfl
        · rfl
      | cons k ds =>
        simp only [List.cons_ne_nil, decide_false]
        rw [List.all_eq_false]
        cases as with
        | nil => simp at hn; subst hn; simp at h0
        | cons a as =>
          obtain ⟨bs, rfl, -⟩ := hel a (by simp)
          exact ⟨.expr (S "List" :: bs), by simp, by simp [argsOf, S]⟩
  · intro ha
    have h1 : argsOf "System`List" e = none := by
      unfold argsOf
      split
      · rename_i s bs
        split
        · rename_i hs
          exact absurd rfl (hs ▸ ha bs)
        · rfl
      · rfl
    simp [matrixQ, vectorQ, h1]

/-- C46. `Dot` of matrices whose inner dimensions differ stays as it is. -/
theorem C46_dot_mismatch {m k k' n : Nat} (P : Ex) (A : Fin m → Fin k → Ex) (B : Fin k' → Fin n → Ex) (hm : 1 ≤ m) (hk : 1 ≤ k') (hne : k ≠ k') (hA : Entries A [])
    (hB : Entries B []) : dotFn [P, matrixEx A, matrixEx B] = some (.expr [P, matrixEx A, matrixEx B]) := by
  have hp : ∀ {m n : Nat} (A : Fin m → Fin n → Ex), exprParts (matrixEx A) = some (S "List" :: List.ofFn (fun i => vectorEx (A i))) := fun _ => rfl
  simp only [dotFn, vectorQ_matrix hm, Bool.false_and, Bool.false_eq_true, if_false, matrixQ_matrix hm hA, matrixQ_matrix hk hB, Option.bind_some, Bool.and_self,
    if_true, hp, Option.getD_some, dotMatrices, dimensions_matrix hm (fun _ => rfl) hA, dimensions_matrix hk (fun _ => rfl) hB, ne_eq, hne, not_false_eq_true]

/-! ### C80: Distribute -/

theorem distribute_eq {d : Ex} : ∀ (rest built : List Ex),
    (∀ h as, .expr (h :: as) ∈ rest → (hash h = hash d ↔ h = d)) → (.expr [] ∉ rest) →
    distribute d built rest = some ((choices (rest.map (options d))).map (fun c => .expr (built ++ c)))
  | [], built, _, _ => by simp [distribute, choices]
  | .expr [] :: rest, built, _, h0 => by simp at h0
  | .expr (h :: as) :: rest, built, hx, h0 => by
    have ih := fun built => distribute_eq (d := d) rest built (fun h as hm => hx h as (List.mem_cons_of_mem _ hm)) (fun hm => h0 (List.mem_cons_of_mem _ hm))
    have hiff := hx h as (by simp)
    rw [distribute]
    by_cases e : h = d
    · rw [if_pos (hiff.2 e)]
      simp only [ih]
      have : as.mapM (fun a => some ((choices (rest.map (options d))).map (fun c => Ex.expr (built ++ [a] ++ c)))) =
          some (as.map (fun a => (choices (rest.map (options d))).map (fun c => Ex.expr (built ++ [a] ++ c)))) := List.mapM_pure
      rw [this]
      simp [choices, options, e, List.flatMap_def, Function.comp_def]
    · rw [if_neg (fun h => e (hiff.1 h)), ih]
      simp [choices, options, e]
  | .sym _ :: rest, built, hx, h0 | .str _ :: rest, built, hx, h0 | .int _ :: rest, built, hx, h0 | .rat _ _ :: rest, built, hx, h0
  | .flt _ :: rest, built, hx, h0 | .cplx _ _ :: rest, built, hx, h0 => by
    have ih := fun built => distribute_eq (d := d) rest built (fun h as hm => hx h as (List.mem_cons_of_mem _ hm)) (fun hm => h0 (List.mem_cons_of_mem _ hm))
    rw [distribute, ih]
    · simp [choices, options]
    all_goals simp

/-- C80. `Distribute[f[as], d]` is the call of `d` on all calls of `f` that arise by choosing an argument from each argument that is a call of `d`, in order. -/
theorem C80_distribute (P f d : Ex) (as : List Ex) (hx : ∀ h bs, .expr (h :: bs) ∈ as → (hash h = hash d ↔ h = d)) (h0 : .expr [] ∉ as) :
    distributeFn [P, .expr (f :: as), d] = some (.expr (d :: (choices (as.map (options d))).map (fun c => .expr (f :: c)))) := by
  simp only [distributeFn, distribute_eq as [f] hx h0, Option.map_some]
  rfl

/-- C80. The number of terms is the product of the numbers of choices. -/
theorem C80_count (ls : List (List Ex)) : (choices ls).length = (ls.map List.length).prod := by
  induction ls with
  | nil => rfl
  | cons c cs ih => simp [choices, List.length_flatMap, ih]

/-- C80. A list is one of the choices if and only if it takes an element from each list. -/
theorem C80_choices (ls : List (List Ex)) (c : List Ex) : c ∈ choices ls ↔ List.Forall₂ (fun x l => x ∈ l) c ls := by
  induction ls generalizing c with
  | nil => simp [choices]
  | cons l ls ih =>
    simp only [choices, List.mem_flatMap, List.mem_map]
    constructor
    · rintro ⟨x, hx, c', hc, rfl⟩
      exact .cons hx ((ih _).1 hc)
    · rintro (_ | ⟨hx, hc⟩)
      exact ⟨_, hx, _, (ih _).2 hc, rfl⟩

/-- The hypotheses are met: `Distribute[f[g[a, b], c, g[]], g]` is `g[]`, `Distribute[f[g[a, b], c], g]` is `g[f[a, c], f[b, c]]`. -/
example :
    let f := Ex.sym "Global`f"; let g := Ex.sym "Global`g"; let a := Ex.sym "Global`a"; let b := Ex.sym "Global`b"; let c := Ex.sym "Global`c"
    distributeFn [S "Distribute", .expr [f, .expr [g, a, b], c], g] = some (.expr [g, .expr [f, a, c], .expr [f, b, c]]) ∧
    distributeFn [S "Distribute", .expr [f, .expr [g, a, b], c, .expr [g]], g] = some (.expr [g]) := by
  decide +kernel

/-! ### C25: Thread -/

/-- C25. `Thread[h[args]]` is a list of calls of `h` if `args` contains lists and all of them have the same length; otherwise it is `h[args]`. -/
theorem C25_Thread (P h : Ex) (args : List Ex) :
    (∀ (rows : List (List Ex)), (∃ xs, app "System`List" xs ∈ args) → (∀ xs, app "System`List" xs ∈ args → xs.length = rows.length) →
      (∀ i (hi : i < rows.length), List.Forall₂ (IsEntry i) args rows[i]) →
      threadFn [P, .expr (h :: args)] = some (app "System`List" (rows.map (fun r => .expr (h :: r))))) ∧
    ((∀ xs, app "System`List" xs ∉ args) → threadFn [P, .expr (h :: args)] = some (.expr (h :: args))) ∧
    ((∃ xs ys, app "System`List" xs ∈ args ∧ app "System`List" ys ∈ args ∧ xs.length ≠ ys.length) →
      threadFn [P, .expr (h :: args)] = some (.expr (h :: args))) := by
  refine ⟨fun rows h1 h2 h3 => ?_, fun h1 => ?_, fun ⟨xs, ys, h1, h2, h3⟩ => ?_⟩
  · have := (C25_thread h args _).2 ⟨rows.length, rows, h1, h2, rfl, rfl, h3⟩
    simp [threadFn, this]
  · have : threadExpr (h :: args) = none := by
      by_contra hne
      obtain ⟨e, he⟩ := Option.ne_none_iff_exists'.1 hne
      obtain ⟨l, rows, ⟨xs, hxs⟩, -⟩ := (C25_thread h args e).1 he
      exact h1 xs hxs
    simp [threadFn, this]
  · have : threadExpr (h :: args) = none := by
      by_contra hne
      obtain ⟨e, he⟩ := Option.ne_none_iff_exists'.1 hne
      obtain ⟨l, rows, -, hl, -⟩ := (C25_thread h args e).1 he
      exact h3 ((hl _ h1).trans (hl _ h2).symm)
    simp [threadFn, this]

end Expreduce
