import Verif.Model.Summary
import Verif.Spec.Summary
import Verif.Props.Arith
import Verif.Props.Compare
import Verif.Props.Functional

/-!
# C126: Total, Mean, AllTrue, ListQ and Boole

See `Verif/Model/Summary.lean` and `Verif/Spec/Summary.lean`.
-/

namespace Expreduce
open Ex Sm

theorem Sm.apply_plus (ev : Ex → Option Ex) (xs : List Ex) : totalProg ev [listOf xs] = ev (.expr (S "Plus" :: xs)) := by
  have h := (C38_simple (S "Apply") (S "Plus") (S "List") (.int 0) "System`Plus" xs ev rfl).2.1
  unfold totalProg
  rw [if_pos ⟨by simp, by rfl⟩]
  exact h

theorem Sm.mean_eq (ev : Ex → Option Ex) (xs : List Ex) : meanProg ev [listOf xs] =
    (ev (.expr (S "Plus" :: xs))).bind (fun t => (ev (.expr [S "Power", .int xs.length, .int (-1)])).bind (fun p => ev (.expr [S "Times", t, p]))) := by
  have hl : lengthFn [S "Length", listOf xs] = some (.int xs.length) := by
    show some (Ex.int (((S "List" :: xs).length : Int) - 1)) = _
    simp
  unfold meanProg
  rw [if_pos ⟨by simp, by rfl⟩, apply_plus]
  simp only [hl, Option.bind_some]

section
variable {K : Type} [Field K] [CharZero K]

/-- C126. `Total` of a list of exact numbers is their sum in normal form, in whatever way the arguments of `Plus` are sorted. -/
theorem C126_total_partial (sort : List Ex → List Ex) (hs : ∀ l, (sort l).Perm l) (toN : Ex → Ex) (ρ : Ex → K) (iu : K) (hi : iu * iu = -1) (xs : List Ex)
    (hx : ∀ a ∈ xs, ExactNum a) :
    ∃ r, totalProg (arith sort toN) [listOf xs] = some r ∧ CanonNum r ∧ value ρ iu r = (xs.map (value ρ iu)).sum := by
  refine ⟨evalNumber (plusEval toN (sort xs)), by rw [apply_plus]; rfl, ?_⟩
  by_cases h : xs = []
  · have : sort xs = [] := by have := (hs xs); rw [h] at this; rw [h]; exact this.eq_nil
    rw [this, h]
    exact ⟨trivial, by simp [plusEval, evalNumber, value]⟩
  · have hne : sort xs ≠ [] := fun e => h (by have := hs xs; rw [e] at this; exact this.symm.eq_nil)
    obtain ⟨h1, h2⟩ := C14_plus_exact toN ρ iu hi (sort xs) hne (fun a ha => hx a ((hs xs).mem_iff.1 ha))
    refine ⟨h1.evalNumber_canon, ?_⟩
    rw [h1.value_evalNumber, h2]
    exact ((hs xs).map _).sum_eq

/-- C126. `Total` of a list of exact numbers and symbolic terms has the value of the sum of its elements, whatever the symbols stand for; no two terms may collide (C09). -/
theorem C126_total_symbolic (sort : List Ex → List Ex) (hs : ∀ l, (sort l).Perm l) (toN : Ex → Ex) (ρ : Ex → K) (iu : K) (hi : iu * iu = -1) (xs : List Ex)
    (hx : ∀ a ∈ xs, Exact a)
    (hnc : ∀ a ∈ xs, ∀ b ∈ xs, ∀ c d u v, splitTerm a = some (c, u) → splitTerm b = some (d, v) → hash u = hash v → u = v) (r : Ex)
    (h : totalProg (fun e => match e with | .expr (.sym "System`Plus" :: as) => some (plusEval toN (sort as)) | e => some e) [listOf xs] = some r) :
    value ρ iu r = (xs.map (value ρ iu)).sum := by
  rw [apply_plus] at h
  have h : some (plusEval toN (sort xs)) = some r := h
  cases h
  have hm : ∀ a, a ∈ sort xs ↔ a ∈ xs := fun a => (hs xs).mem_iff
  have := (C15_plus_value_partial toN ρ iu hi (sort xs) (fun a ha => hx a ((hm a).1 ha))
    (fun a ha b hb => hnc a ((hm a).1 ha) b ((hm b).1 hb))).2
  rw [this]
  have key : ∀ l : List Ex, value ρ iu (.expr (S "Plus" :: l)) = (l.map (value ρ iu)).sum := by
    intro l
    have e : value ρ iu (.expr (S "Plus" :: l)) = sumValue ρ iu l := by simp [value]
    rw [e]
    induction l with
    | nil => simp [sumValue]
    | cons a l ih => simp [sumValue, ih (by simp [value])]
  rw [key]
  exact ((hs xs).map _).sum_eq

/-- C126. `Mean` of a nonempty list of exact numbers is their mean, in normal form. -/
theorem C126_mean_partial (sort : List Ex → List Ex) (hs : ∀ l, (sort l).Perm l) (toN : Ex → Ex) (ρ : Ex → K) (iu : K) (hi : iu * iu = -1) (xs : List Ex) (hne : xs ≠ [])
    (hx : ∀ a ∈ xs, ExactNum a) :
    ∃ r, meanProg (arith sort toN) [listOf xs] = some r ∧ CanonNum r ∧ IsMean ρ iu xs r := by
  obtain ⟨t, h1, h2, h3⟩ := C126_total_partial sort hs toN ρ iu hi xs hx
  rw [apply_plus] at h1
  have hlen : xs.length ≠ 0 := by simpa using hne
  obtain ⟨p1, p2⟩ := C16_power_exact ρ iu (xs.length : Int) (-1) (.inl (by exact_mod_cast hlen))
  have ht : ExactNum t := by
    cases t <;> simp only [CanonNum, CanonReal] at h2
    · trivial
    · exact (by simp [ExactNum]; omega)
    · obtain ⟨ha, hb, -⟩ := h2
      have key : ∀ a, CanonReal a → ExactReal a := by
        intro a ha; cases a <;> simp_all [CanonReal, ExactReal]; omega
      exact ⟨key _ ha, key _ hb⟩
  have hp : ExactNum (powerIntVal xs.length (-1)) := by
    revert p1; generalize powerIntVal xs.length (-1) = p; intro p1
    cases p <;> simp_all [CanonReal, ExactNum]; omega
  have hs2 := hs [t, powerIntVal xs.length (-1)]
  have hne2 : sort [t, powerIntVal xs.length (-1)] ≠ [] := fun e => by rw [e] at hs2; exact absurd hs2.symm.eq_nil (by simp)
  obtain ⟨q1, q2⟩ := C14_times_exact toN ρ iu hi _ hne2 (fun a ha => by
    have := hs2.mem_iff.1 ha
    simp at this
    rcases this with rfl | rfl
    exacts [ht, hp])
  refine ⟨evalNumber (timesEval toN (sort [t, powerIntVal xs.length (-1)])), ?_, q1.evalNumber_canon, ?_⟩
  · rw [mean_eq, h1]; rfl
  · unfold IsMean
    rw [q1.value_evalNumber, q2, (hs2.map _).prod_eq]
    have hK : ((xs.length : Int) : K) ≠ 0 := by exact_mod_cast hlen
    simp only [List.map_cons, List.map_nil, List.prod_cons, List.prod_nil, mul_one]
    rw [p2, h3]
    push_cast at *
    field_simp

/-- C126. The order of the elements of a list of exact numbers does not matter to `Total` and `Mean`. -/
theorem C126_order (sort : List Ex → List Ex) (hs : ∀ l, (sort l).Perm l) (toN : Ex → Ex) (xs ys : List Ex) (hp : xs.Perm ys) (hx : ∀ a ∈ xs, ExactNum a) :
    totalProg (arith sort toN) [listOf xs] = totalProg (arith sort toN) [listOf ys] ∧
    meanProg (arith sort toN) [listOf xs] = meanProg (arith sort toN) [listOf ys] := by
  have hii : (Complex.I : ℂ) * Complex.I = -1 := Complex.I_mul_I
  have ht : totalProg (arith sort toN) [listOf xs] = totalProg (arith sort toN) [listOf ys] := by
    rw [apply_plus, apply_plus]
    show some (evalNumber (plusEval toN (sort xs))) = some (evalNumber (plusEval toN (sort ys)))
    have h := ((hs xs).trans hp).trans (hs ys).symm
    by_cases hne : sort xs = []
    · rw [hne] at h; rw [hne, h.symm.eq_nil]
    · rw [C14_plus_order_independent toN _ _ h hne Complex.I hii (fun a ha => hx a ((hs xs).mem_iff.1 ha))]
  refine ⟨ht, ?_⟩
  rw [mean_eq, mean_eq, hp.length_eq]
  rw [apply_plus, apply_plus] at ht
  rw [ht]

end

/-- C126. The total of no elements is 0; their mean is `Indeterminate`. -/
theorem C126_empty (toN : Ex → Ex) : totalProg (arith id toN) [listOf []] = some (.int 0) ∧ meanProg (arith id toN) [listOf []] = some (S "Indeterminate") := by
  constructor
  · rfl
  · rw [mean_eq]; rfl

/-- C126. Refuted: the rules accept several lists, whose tail then is read as the level specification of `Apply`: `Total[{{1, 2}, {3}}, {1}]` gives `{3, 3}`, and `Total[{1}, {2}]` its first argument. -/
theorem C126_total_lists : totalProg (fun e => some e) [listOf [listOf [.int 1, .int 2], listOf [.int 3]], listOf [.int 1]] =
      some (listOf [.expr [S "Plus", .int 1, .int 2], .expr [S "Plus", .int 3]]) ∧
    totalProg (fun e => some e) [listOf [.int 1], listOf [.int 2]] = some (listOf [.int 1]) := by decide +kernel

/-- C126 (test): the mean of 5 and 6 is 11/2, that of 1/2 and 3/2 is 1. -/
example : meanProg (arith id id) [listOf [.int 5, .int 6]] = some (.rat 11 2) ∧ meanProg (arith id id) [listOf [.rat 1 2, .rat 3 2]] = some (.int 1) := by decide +kernel

/-! ### AllTrue -/

theorem Sm.evalEach_eq {σ : Type} (ev : Ex → σ → Ex × σ) : ∀ (l : List Ex) (s : σ), evalEach ev l s = evalSeq ev l s
  | [], _ => rfl
  | a :: l, s => by simp only [evalEach, evalSeq, evalEach_eq ev l]

theorem Sm.evalSeq_stable {σ : Type} (ev : Ex → σ → Ex × σ) : ∀ (vs : List Ex) (s : σ), Stable ev vs → evalSeq ev vs s = (vs, s)
  | [], _, _ => rfl
  | v :: vs, s, h => by
    have h1 := h v (by simp) s
    simp only [evalSeq, h1, evalSeq_stable ev vs s (fun w hw => h w (by simp [hw]))]

theorem Sm.boolLoop_stable {σ : Type} (ev : Ex → σ → Ex × σ) (stop : Ex) (hst : booleanQ stop = true) : ∀ (vs : List Ex) (s : σ), Stable ev vs →
    boolLoop ev stop vs s = (if stop ∈ vs then none else some (vs.filter (fun v => !booleanQ v)), s)
  | [], s, _ => rfl
  | v :: vs, s, h => by
    have h1 := h v (by simp) s
    have ih := boolLoop_stable ev stop hst vs s (fun w hw => h w (by simp [hw]))
    rw [boolLoop]
    simp only [h1, ih]
    by_cases e : v = stop
    · simp [e, hst]
    · have e' : ¬ stop = v := fun x => e x.symm
      by_cases hb : booleanQ v = true
      · simp [hb, e, e']
      · have hb : booleanQ v = false := by simpa using hb
        by_cases hm : stop ∈ vs <;> simp [hb, e', hm]

/-- C126. `AllTrue[h[e1, ..., en], cond]` evaluates every test once, in order, also after one that is `False`; the answer is `False` if some test gives `False`, otherwise `True` if all give
`True`, and otherwise the conjunction of the undecided values (one of them alone is the answer itself). -/
theorem C126_allTrue_partial {σ : Type} (ev : Ex → σ → Ex × σ) (h cond : Ex) (es : List Ex) (s : σ)
    (hv : Stable ev (evalSeq ev (es.map (fun x => .expr [cond, x])) s).1) :
    let r := evalSeq ev (es.map (fun x => .expr [cond, x])) s
    let rest := r.1.filter (fun v => v ≠ S "True")
    (allTrueProg ev (.expr (h :: es)) cond s).2 = r.2 ∧
    (S "False" ∈ r.1 → (allTrueProg ev (.expr (h :: es)) cond s).1 = S "False") ∧
    ((∀ v ∈ r.1, v = S "True") → (allTrueProg ev (.expr (h :: es)) cond s).1 = S "True") ∧
    (S "False" ∉ r.1 → rest.length = 1 → [(allTrueProg ev (.expr (h :: es)) cond s).1] = rest) ∧
    (S "False" ∉ r.1 → 2 ≤ rest.length → (allTrueProg ev (.expr (h :: es)) cond s).1 = .expr (S "And" :: rest)) := by
  intro r rest
  have hr : (allTrueProg ev (.expr (h :: es)) cond s) = andEval ev r.1 r.2 := by
    unfold allTrueProg
    simp only [evalEach_eq]
    rfl
  have hb := boolLoop_stable ev (S "False") (by decide) r.1 r.2 hv
  have hrest : S "False" ∉ r.1 → r.1.filter (fun v => !booleanQ v) = rest := by
    intro hn
    apply List.filter_congr
    intro v hv
    have : v ≠ S "False" := fun e => hn (e ▸ hv)
    by_cases h2 : v = S "True" <;> simp [booleanQ, this, h2]
  rw [hr]
  unfold andEval
  simp only [hb, true_and]
  refine ⟨fun hm => by rw [if_pos hm]; rfl, fun hall => ?_, fun hn h1 => ?_, fun hn h2 => ?_⟩
  · have hn : S "False" ∉ r.1 := fun hm => absurd (hall _ hm) (by decide)
    have : rest = [] := by
      show r.1.filter _ = []
      rw [List.filter_eq_nil_iff]
      intro v hv; simp [hall v hv]
    rw [if_neg hn, hrest hn, this]; rfl
  · rw [if_neg hn, hrest hn]
    match rest, h1 with
    | [x], _ => rfl
  · rw [if_neg hn, hrest hn]
    match rest, h2 with
    | x :: y :: zs, _ => rfl

/-- C126. Over an atom `AllTrue` is left alone. -/
theorem C126_allTrue_atom {σ : Type} (ev : Ex → σ → Ex × σ) (e cond : Ex) (s : σ) (he : ∀ ps, e ≠ .expr ps) : allTrueProg ev e cond s = (.expr [S "AllTrue", e, cond], s) := by
  cases e with
  | expr ps => exact absurd rfl (he ps)
  | _ => rfl

/-- C126 (test): the hypothesis of `C126_allTrue_partial` is met; all three tests are made although the first one is `False`. -/
example : let ev : Ex → Nat → Ex × Nat := fun e n => match e with | .expr [_, .int k] => (if 0 < k then S "True" else S "False", n + 1) | e => (e, n)
    allTrueProg ev (listOf [.int (-1), .int 2, .int 3]) (.sym "Global`p") 0 = (S "False", 3) ∧
    (evalSeq ev ([.int (-1), .int 2, .int 3].map (fun x => .expr [.sym "Global`p", x])) 0).1 = [S "False", S "True", S "True"] := by decide +kernel

/-! ### ListQ and Boole -/

/-- C126. `ListQ` is true of every list, false of every atom, and, unless the fingerprint of a head collides with that of the symbol `List` (C09), true of nothing else; `Boole` maps `True` and `False` to 1 and 0 and
leaves everything else alone. -/
theorem C126_listQ_boole (e : Ex) : (∀ xs, listQProg (listOf xs) = true) ∧ ((∀ ps, e ≠ .expr ps) → listQProg e = false) ∧
    ((∀ h xs, e = .expr (h :: xs) → hash h = hash (S "List") → h = S "List") → listQProg e = true → ∃ xs, e = listOf xs) ∧
    (booleProg e = .int 1 ↔ e = S "True") ∧ (booleProg e = .int 0 ↔ e = S "False") ∧ (e ≠ S "True" → e ≠ S "False" → booleProg e = .expr [S "Boole", e]) := by
  have hd : S "False" ≠ S "True" := by decide
  refine ⟨?_, ?_, ?_, ?_, ?_, ?_⟩
  · intro xs
    simp only [listOf, listQProg, S, isSameQ]
    decide
  · intro h
    cases e with
    | expr ps => exact absurd rfl (h ps)
    | _ => rfl
  · intro hc h
    cases e with
    | expr ps =>
      cases ps with
      | nil => simp [listQProg] at h
      | cons a xs =>
        have h : isSameQ a (S "List") = true := h
        have : hash a = hash (S "List") := by cases a <;> simpa [isSameQ, S] using h
        exact ⟨xs, by rw [hc a xs rfl this]; rfl⟩
    | _ => simp [listQProg] at h
  · unfold booleProg
    by_cases h1 : e = S "True"
    · simp [h1]
    · by_cases h2 : e = S "False" <;> simp [h1, h2, hd]
  · unfold booleProg
    by_cases h1 : e = S "True"
    · simp [h1, hd.symm]
    · by_cases h2 : e = S "False" <;> simp [h1, h2, hd]
  · intro h1 h2; simp [booleProg, h1, h2]

end Expreduce
