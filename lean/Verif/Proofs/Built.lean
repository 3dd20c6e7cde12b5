import Verif.Proofs.Arith2
import Mathlib.Data.Complex.Basic

/-! The results of `Plus` and `Times` are built from numbers and parts of the arguments. -/

namespace Expreduce
open Ex

/-- Built from exact numbers and expressions with `P` by sums and products. -/
inductive Built (P : Ex → Prop) : Ex → Prop
  | num {e} : ExactNum e → Built P e
  | plus {as} : (∀ a ∈ as, Built P a) → Built P (.expr (S "Plus" :: as))
  | times {as} : (∀ a ∈ as, Built P a) → Built P (.expr (S "Times" :: as))
  | other {e} : P e → Built P e

/-- The arguments of a sum or product with `P` have `P`. -/
structure OpenArith (P : Ex → Prop) : Prop where
  plus : ∀ as, P (.expr (S "Plus" :: as)) → ∀ a ∈ as, P a
  times : ∀ as, P (.expr (S "Times" :: as)) → ∀ a ∈ as, P a
  exact : ∀ e, P e → Exact e

variable {P : Ex → Prop}

theorem splitTerm_built (hP : OpenArith P) {e c v : Ex} (h : splitTerm e = some (c, v)) (he : P e) :
    ExactNum c ∧ ∃ rest, v = .expr (S "Times" :: rest) ∧ ∀ r ∈ rest, P r := by
  have h0 := splitTerm_ok (ρ := fun _ => (0 : ℂ)) (iu := Complex.I) h (hP.exact e he)
  refine ⟨h0.1, ?_⟩
  unfold splitTerm at h
  split at h
  · cases h; exact ⟨[_], rfl, by simpa using he⟩
  · split at h
    · rename_i args
      have ha := hP.times args he
      split at h
      · cases h
      · rename_i a rest
        split at h
        · split at h
          · cases h; exact ⟨rest, rfl, fun r hr => ha r (by simp [hr])⟩
          · cases h; exact ⟨[_], rfl, by simpa using he⟩
        · cases h; exact ⟨_, rfl, ha⟩
    · cases h; exact ⟨[_], rfl, by simpa using he⟩
  · cases h

theorem collectedToTerm_built {cs : List Ex} {v f : Ex} (hcs : ∀ c ∈ cs, ExactNum c) (hne : cs ≠ [])
    (hv : ∃ rest, v = .expr (S "Times" :: rest) ∧ ∀ r ∈ rest, P r) (hf : P f) : Built P (collectedToTerm cs v f) := by
  unfold collectedToTerm
  split
  · exact .other hf
  · obtain ⟨w, hw, hw1, _⟩ := computeNumericPart_ok (fun _ => (0 : ℂ)) Complex.I Complex.I_mul_I .add cs [] hcs hne (by simp)
    rw [List.append_nil] at hw
    rw [hw]
    simp only [Option.getD_some]
    obtain ⟨rest, rfl, hrest⟩ := hv
    have hvars : Built P (unwrapTimes (Ex.expr (S "Times" :: rest))) := by
      unfold unwrapTimes
      split
      · rename_i v' heq
        have h2 := List.cons.inj (Ex.expr.inj heq)
        exact .other (hrest v' (by rw [h2.2]; simp))
      · exact .times (fun a ha => .other (hrest a ha))
    split
    · exact hvars
    · refine Built.times ?_
      intro a ha
      simp only [List.mem_cons, List.not_mem_nil, or_false] at ha
      rcases ha with rfl | rfl
      · exact .num hw1
      · exact hvars

/-- Invariant of the loop of `collectTerms`. -/
structure CollBuilt (P : Ex → Prop) (s : Coll) : Prop where
  out : ∀ e ∈ s.out, Built P e
  pend : ∀ v f cs, s.pending = some (v, f, cs) → (∀ c ∈ cs, ExactNum c) ∧ cs ≠ [] ∧
    (∃ rest, v = .expr (S "Times" :: rest) ∧ ∀ r ∈ rest, P r) ∧ P f

theorem collStep_built (hP : OpenArith P) {s : Coll} (hs : CollBuilt P s) {p : Ex} (hp : ExactNum p ∨ P p) : CollBuilt P (collStep s p) := by
  unfold collStep
  cases hsp : splitTerm p with
  | none =>
    simp only
    refine ⟨?_, hs.pend⟩
    intro e he
    rcases List.mem_append.1 he with he | he
    · exact hs.out e he
    · simp only [List.mem_singleton] at he
      subst he
      rcases hp with hp | hp
      · exact .num hp
      · exact .other hp
  | some cv =>
    obtain ⟨c, v⟩ := cv
    have hp' : P p := by
      rcases hp with hp | hp
      · exfalso
        cases p <;> simp [ExactNum] at hp <;> simp [splitTerm] at hsp
      · exact hp
    obtain ⟨h1, h2⟩ := splitTerm_built hP hsp hp'
    simp only
    split
    · refine ⟨hs.out, ?_⟩
      intro v' f' cs' he
      cases he
      exact ⟨by simpa using h1, by simp, h2, hp'⟩
    · rename_i lv lf cs heq
      obtain ⟨k1, k2, k3, k4⟩ := hs.pend _ _ _ heq
      split
      · refine ⟨hs.out, ?_⟩
        intro v' f' cs' he
        cases he
        refine ⟨?_, by simp, k3, k4⟩
        intro c' hc'
        rcases List.mem_append.1 hc' with hc' | hc'
        · exact k1 c' hc'
        · simp only [List.mem_singleton] at hc'; subst hc'; exact h1
      · refine ⟨?_, ?_⟩
        · intro e he
          rcases List.mem_append.1 he with he | he
          · exact hs.out e he
          · simp only [List.mem_singleton] at he; subst he; exact collectedToTerm_built k1 k2 k3 k4
        · intro v' f' cs' he
          cases he
          exact ⟨by simpa using h1, by simp, h2, hp'⟩

theorem collectTerms_built (hP : OpenArith P) {args : List Ex} (ha : ∀ a ∈ args, ExactNum a ∨ P a) : ∀ e ∈ collectTerms args, Built P e := by
  have key : ∀ (l : List Ex) (s : Coll), CollBuilt P s → (∀ a ∈ l, ExactNum a ∨ P a) → CollBuilt P (l.foldl collStep s) := by
    intro l
    induction l with
    | nil => intro s hs _; exact hs
    | cons a l ih => intro s hs h; exact ih _ (collStep_built hP hs (h a (by simp))) (fun b hb => h b (by simp [hb]))
  have h := key args {} ⟨by simp, by simp⟩ ha
  unfold collectTerms
  simp only
  split
  · rename_i v f cs heq
    obtain ⟨k1, k2, k3, k4⟩ := h.pend _ _ _ heq
    intro e he
    rcases List.mem_append.1 he with he | he
    · exact h.out e he
    · simp only [List.mem_singleton] at he; subst he; exact collectedToTerm_built k1 k2 k3 k4
  · exact h.out

theorem plusFinish_built (toN : Ex → Ex) {l : List Ex} (h : ∀ e ∈ l, Built P e) : Built P (plusFinish toN false l) := by
  unfold plusFinish
  split
  · exact h _ (by simp)
  · simpa using Built.plus h

theorem plusEval_built (hP : OpenArith P) (toN : Ex → Ex) {args : List Ex} (ha : ∀ a ∈ args, P a) : Built P (plusEval toN args) := by
  by_cases hne : args = []
  · subst hne; exact .num (by simp [plusEval, ExactNum])
  obtain ⟨nums, rest, h0, h1, h2, h3, h4⟩ := plusEval_shape (fun _ => (0 : ℂ)) Complex.I toN Complex.I_mul_I (fun a h => hP.exact a (ha a h)) hne
  rcases h4 with ⟨h5, h6⟩ | ⟨v, hv, hv2, h6⟩
  · rw [h6]
    exact plusFinish_built toN (collectTerms_built hP (fun a h => .inr (ha a h)))
  · rw [h6]
    split
    · exact .num hv
    · refine plusFinish_built toN (collectTerms_built hP ?_)
      intro a h
      rcases List.mem_append.1 h with h | h
      · split at h
        · simp at h
        · simp at h; subst h; exact .inl hv
      · exact .inr (ha a (by rw [h0]; simp [h]))

theorem timesFinish_built (hP : OpenArith P) (toN : Ex → Ex) {l : List Ex} (h : ∀ e ∈ l, ExactNum e ∨ P e) : Built P (timesFinish toN false l) := by
  have h' : ∀ e ∈ l, Built P e := fun e he => (h e he).elim .num .other
  unfold timesFinish
  split
  · exact h' _ (by simp)
  · rename_i addends
    have hp : P (.expr (S "Plus" :: addends)) := by
      rcases h (.expr (.sym "System`Plus" :: addends)) (by simp) with h | h
      · simp [ExactNum] at h
      · exact h
    refine Built.plus ?_
    intro a ha
    obtain ⟨b, hb, rfl⟩ := List.mem_map.1 ha
    refine Built.times ?_
    intro a ha
    simp only [List.mem_cons, List.not_mem_nil, or_false] at ha
    rcases ha with rfl | rfl
    · exact .other (hP.plus _ hp _ hb)
    · exact .num trivial
  · simpa using Built.times h'

theorem timesEval_built (hP : OpenArith P) (toN : Ex → Ex) {args : List Ex} (ha : ∀ a ∈ args, P a) :
    timesEval toN args = S "Indeterminate" ∧ (∃ a ∈ args, isInfinite a = true) ∨ Built P (timesEval toN args) := by
  by_cases hne : args = []
  · subst hne; right; exact .num (by simp [timesEval, ExactNum])
  have hx : ∀ a ∈ args, Exact a := fun a h => hP.exact a (ha a h)
  obtain ⟨nums, rest, h0, h1, h2, h3⟩ := split_nums args hx
  cases nums with
  | nil =>
    right
    rw [List.nil_append] at h0
    subst h0
    cases args with
    | nil => exact absurd rfl hne
    | cons x xs =>
      have := cnp_none .mul x xs (h2 x rfl)
      unfold timesEval
      rw [if_neg hne, this]
      simp only
      have hz : decide ((none : Option Ex) = some (.int 0)) = false := by simp
      rw [hz]
      simp only [Bool.false_and, Bool.false_eq_true, if_false]
      exact timesFinish_built hP toN (fun e he => .inr (ha e he))
  | cons n ns =>
    obtain ⟨v, hv, hv1, _⟩ := computeNumericPart_ok (fun _ => (0 : ℂ)) Complex.I Complex.I_mul_I .mul (n :: ns) rest h1 (by simp) h2
    by_cases hr : rest = []
    · right
      have : timesEval toN args = v := by
        unfold timesEval
        rw [if_neg hne, h0, hv]
        simp [hr]
      rw [this]
      exact .num hv1
    · have hd : List.drop (1 + (n :: ns).length - 1) (n :: ns ++ rest) = rest := by
        rw [Nat.add_sub_cancel_left]; exact List.drop_left
      unfold timesEval
      rw [if_neg hne, h0, hv]
      simp only [hr, if_false, Option.getD_some]
      rw [hd]
      split
      · rename_i hz
        left
        simp only [Bool.and_eq_true, List.any_eq_true] at hz
        obtain ⟨a, h4, h5⟩ := hz.2
        exact ⟨rfl, a, by simp [h4], h5⟩
      · right
        split
        · exact .num trivial
        · rw [hv1.not_forces]
          refine timesFinish_built hP toN ?_
          intro e he
          rcases List.mem_append.1 he with he | he
          · split at he
            · simp at he
            · simp at he; subst he; exact .inl hv1
          · exact .inr (ha e (by rw [h0]; simp [he]))

end Expreduce
