import Verif.Proofs.Arith

namespace Expreduce
open Ex

section
variable {K : Type _} [Field K] [CharZero K] (ρ : Ex → K) (iu : K)

theorem Exact.of_numberQ {e : Ex} (h : Exact e) (hq : e.numberQ = true) : ExactNum e := by
  cases h with
  | sym => simp [numberQ] at hq
  | str => simp [numberQ] at hq
  | num _ h => exact h
  | expr => simp [numberQ] at hq

theorem Exact.parts {ps : List Ex} (h : Exact (.expr ps)) : ∀ p ∈ ps, Exact p := by
  cases h with
  | num _ h => simp [ExactNum] at h
  | expr _ h => exact h

/-- What `splitTerm` returns. -/
theorem splitTerm_ok {e c v : Ex} (h : splitTerm e = some (c, v)) (he : Exact e) :
    ExactNum c ∧ (∃ rest, v = .expr (S "Times" :: rest) ∧ rest ≠ [] ∧ ∀ r ∈ rest, Exact r) ∧ value ρ iu e = value ρ iu c * value ρ iu v := by
  have hT : Ex.sym "System`Times" = S "Times" := rfl
  have one : ∀ x, Exact x → splitTerm e = some (.int 1, .expr [.sym "System`Times", x]) → e = x →
      ExactNum c ∧ (∃ rest, v = .expr (S "Times" :: rest) ∧ rest ≠ [] ∧ ∀ r ∈ rest, Exact r) ∧ value ρ iu e = value ρ iu c * value ρ iu v := by
    intro x hx h1 hex
    rw [h] at h1
    obtain ⟨rfl, rfl⟩ := Prod.mk.inj (Option.some.inj h1)
    refine ⟨trivial, ⟨[x], rfl, by simp, by simpa using hx⟩, ?_⟩
    rw [hT, value_times]; simp [value, hex]
  cases e with
  | sym s => exact one _ he rfl rfl
  | expr ps =>
    unfold splitTerm at h
    simp only at h
    split at h
    · rename_i args
      split at h
      · simp at h
      · rename_i a rest
        have hp := he.parts
        split at h
        · rename_i hnum
          split at h
          · rename_i hr
            obtain ⟨rfl, rfl⟩ := Prod.mk.inj (Option.some.inj h)
            refine ⟨(hp a (by simp)).of_numberQ hnum, ⟨rest, rfl, hr, fun r hr => hp r (by simp [hr])⟩, ?_⟩
            rw [hT, value_times, value_times]; simp
          · obtain ⟨rfl, rfl⟩ := Prod.mk.inj (Option.some.inj h)
            refine ⟨trivial, ⟨_, rfl, by simp, by simpa using he⟩, ?_⟩
            rw [hT, value_times ρ iu [_]]; simp only [List.map, List.prod_cons, List.prod_nil, mul_one]
            rw [value.eq_def ρ iu (.int 1)]; simp
        · obtain ⟨rfl, rfl⟩ := Prod.mk.inj (Option.some.inj h)
          refine ⟨trivial, ⟨_, rfl, by simp, fun r hr => hp r (by simp at hr ⊢; tauto)⟩, ?_⟩
          simp [value]
    · obtain ⟨rfl, rfl⟩ := Prod.mk.inj (Option.some.inj h)
      refine ⟨trivial, ⟨_, rfl, by simp, by simpa using he⟩, ?_⟩
      rw [hT, value_times]; simp [value]
  | str s => simp [splitTerm] at h
  | int s => simp [splitTerm] at h
  | rat s => simp [splitTerm] at h
  | flt s => simp [splitTerm] at h
  | cplx s => simp [splitTerm] at h

theorem Exact.times {c v : Ex} (hc : Exact c) (hv : Exact v) : Exact (.expr [.sym "System`Times", c, v]) := by
  refine .expr _ ?_
  intro p hp
  simp at hp
  rcases hp with rfl | rfl | rfl
  · exact .sym _
  · exact hc
  · exact hv

/-- A collected group has the value of the sum of its coefficients times the common factor. -/
theorem collectedToTerm_ok (hi : iu * iu = -1) {cs : List Ex} {v f : Ex} (hcs : ∀ c ∈ cs, ExactNum c) (hne : cs ≠ [])
    (hv : ∃ rest, v = .expr (S "Times" :: rest) ∧ rest ≠ [] ∧ ∀ r ∈ rest, Exact r)
    (hf : Exact f) (hfv : ∀ c, cs = [c] → value ρ iu f = value ρ iu c * value ρ iu v) :
    Exact (collectedToTerm cs v f) ∧
    value ρ iu (collectedToTerm cs v f) = (cs.map (value ρ iu)).sum * value ρ iu v := by
  unfold collectedToTerm
  split
  · rename_i hl
    obtain ⟨c, rfl⟩ := List.length_eq_one_iff.1 hl
    exact ⟨hf, by rw [hfv c rfl]; simp⟩
  · obtain ⟨w, hw, hw1, hw2⟩ := computeNumericPart_ok ρ iu hi .add cs [] hcs hne (by simp)
    rw [List.append_nil] at hw
    rw [hw]
    simp only [Option.getD_some]
    rw [foldK_add] at hw2
    obtain ⟨rest, rfl, hrne, hrest⟩ := hv
    have hvars : ∃ x, unwrapTimes (Ex.expr (S "Times" :: rest)) = x ∧ Exact x ∧ value ρ iu x = value ρ iu (.expr (S "Times" :: rest)) := by
      refine ⟨_, rfl, ?_⟩
      unfold unwrapTimes
      split
      · rename_i v' heq
        have h2 := List.cons.inj (Ex.expr.inj heq)
        rw [h2.2]
        refine ⟨hrest v' (by rw [h2.2]; simp), ?_⟩
        rw [value_times]; simp
      · refine ⟨.expr _ ?_, rfl⟩
        intro p hp
        rcases List.mem_cons.1 hp with rfl | hp
        · exact .sym _
        · exact hrest p hp
    obtain ⟨x, hx, hx1, hx2⟩ := hvars
    rw [hx]
    split
    · rename_i h1
      refine ⟨hx1, ?_⟩
      rw [← hw2, h1, hx2]; simp [value]
    · refine ⟨Exact.times (.num _ hw1) hx1, ?_⟩
      have hT : Ex.sym "System`Times" = S "Times" := rfl
      rw [hT, value_times, ← hx2, ← hw2]; simp

/-- No two of the terms have different non-numeric parts with the same fingerprint. -/
def NoClash (args : List Ex) : Prop :=
  ∀ a ∈ args, ∀ b ∈ args, ∀ c d u v, splitTerm a = some (c, u) → splitTerm b = some (d, v) → hash u = hash v → u = v

/-- Invariant of the loop of `collectTerms`. -/
structure CollOk (all : List Ex) (s : Coll) : Prop where
  out : ∀ e ∈ s.out, Exact e
  pend : ∀ v f cs, s.pending = some (v, f, cs) → (∀ c ∈ cs, ExactNum c) ∧ cs ≠ [] ∧
    (∃ rest, v = .expr (S "Times" :: rest) ∧ rest ≠ [] ∧ ∀ r ∈ rest, Exact r) ∧ Exact f ∧
    (∀ c, cs = [c] → value ρ iu f = value ρ iu c * value ρ iu v) ∧ ∃ a ∈ all, ∃ c, splitTerm a = some (c, v)

/-- Value represented by the loop state. -/
def collV (s : Coll) : K :=
  (s.out.map (value ρ iu)).sum + (match s.pending with
    | none => 0
    | some (v, _, cs) => (cs.map (value ρ iu)).sum * value ρ iu v)

theorem collStep_ok (hi : iu * iu = -1) {all : List Ex} (hnc : NoClash all) {s : Coll} (hs : CollOk ρ iu all s) {p : Ex}
    (hmem : p ∈ all) (hp : Exact p) :
    CollOk ρ iu all (collStep s p) ∧ collV ρ iu (collStep s p) = collV ρ iu s + value ρ iu p := by
  unfold collStep
  cases hsp : splitTerm p with
  | none =>
    refine ⟨⟨?_, hs.pend⟩, ?_⟩
    · intro e he
      simp at he
      rcases he with he | rfl
      · exact hs.out e he
      · exact hp
    · simp only [collV, List.map_append, List.sum_append, List.map, List.sum_cons, List.sum_nil]; ring
  | some cv =>
    obtain ⟨c, v⟩ := cv
    obtain ⟨h1, h2, h3⟩ := splitTerm_ok ρ iu hsp hp
    cases hpd : s.pending with
    | none =>
      refine ⟨⟨hs.out, ?_⟩, ?_⟩
      · intro v' f' cs' h
        simp only [Option.some.injEq, Prod.mk.injEq] at h
        obtain ⟨rfl, rfl, rfl⟩ := h
        refine ⟨by simpa using h1, by simp, h2, hp, ?_, p, hmem, c, hsp⟩
        intro c' hc'
        simp at hc'; subst hc'; exact h3
      · simp only [collV, hpd, List.map, List.sum_cons, List.sum_nil, h3]; ring
    | some q =>
      obtain ⟨lv, lf, cs⟩ := q
      obtain ⟨g1, g2, g3, g4, g5, a0, ha0, c0, hc0⟩ := hs.pend lv lf cs hpd
      by_cases hv : hash v = hash lv
      · have hvl : v = lv := hnc p hmem a0 ha0 c c0 v lv hsp hc0 hv
        subst hvl
        simp only [if_true]
        refine ⟨⟨hs.out, ?_⟩, ?_⟩
        · intro v' f' cs' h
          simp only [Option.some.injEq, Prod.mk.injEq] at h
          obtain ⟨rfl, rfl, rfl⟩ := h
          refine ⟨?_, by simp, g3, g4, ?_, a0, ha0, c0, hc0⟩
          · intro c' hc'
            simp at hc'
            rcases hc' with h | rfl
            · exact g1 c' h
            · exact h1
          · intro c' hc'
            exfalso
            cases cs with
            | nil => exact g2 rfl
            | cons a as => simp at hc'
        · simp only [collV, hpd, List.map_append, List.sum_append, List.map, List.sum_cons, List.sum_nil, h3]; ring
      · simp only [if_neg hv]
        obtain ⟨k1, k2⟩ := collectedToTerm_ok ρ iu hi g1 g2 g3 g4 g5
        refine ⟨⟨?_, ?_⟩, ?_⟩
        · intro e he
          simp at he
          rcases he with he | rfl
          · exact hs.out e he
          · exact k1
        · intro v' f' cs' h
          simp only [Option.some.injEq, Prod.mk.injEq] at h
          obtain ⟨rfl, rfl, rfl⟩ := h
          refine ⟨by simpa using h1, by simp, h2, hp, ?_, p, hmem, c, hsp⟩
          intro c' hc'
          simp at hc'; subst hc'; exact h3
        · simp only [collV, hpd, List.map_append, List.sum_append, List.map, List.sum_cons, List.sum_nil, h3, k2]; ring

theorem collectTerms_ok (hi : iu * iu = -1) {args : List Ex} (ha : ∀ a ∈ args, Exact a) (hnc : NoClash args) :
    (∀ e ∈ collectTerms args, Exact e) ∧ ((collectTerms args).map (value ρ iu)).sum = (args.map (value ρ iu)).sum := by
  have key : ∀ (l : List Ex) (s : Coll), CollOk ρ iu args s → (∀ a ∈ l, a ∈ args) → (∀ a ∈ l, Exact a) →
      CollOk ρ iu args (l.foldl collStep s) ∧ collV ρ iu (l.foldl collStep s) = collV ρ iu s + (l.map (value ρ iu)).sum := by
    intro l
    induction l with
    | nil => intro s hs _ _; exact ⟨hs, by simp⟩
    | cons a as ih =>
      intro s hs hm hl
      obtain ⟨h1, h2⟩ := collStep_ok ρ iu hi hnc hs (hm a (by simp)) (hl a (by simp))
      obtain ⟨h3, h4⟩ := ih _ h1 (fun x hx => hm x (by simp [hx])) (fun x hx => hl x (by simp [hx]))
      refine ⟨h3, ?_⟩
      simp only [List.foldl_cons, h4, h2, List.map, List.sum_cons]; ring
  obtain ⟨h1, h2⟩ := key args {} ⟨by simp, by simp⟩ (fun _ h => h) ha
  have h3 : collV ρ iu {} = 0 := by simp [collV]
  rw [h3, zero_add] at h2
  unfold collectTerms
  simp only
  cases hp : (args.foldl collStep {}).pending with
  | none =>
    refine ⟨h1.out, ?_⟩
    simp only [collV, hp] at h2
    rw [← h2]; simp
  | some q =>
    obtain ⟨v, f, cs⟩ := q
    obtain ⟨g1, g2, g3, g4, g5, _⟩ := h1.pend v f cs hp
    obtain ⟨k1, k2⟩ := collectedToTerm_ok ρ iu hi g1 g2 g3 g4 g5
    refine ⟨?_, ?_⟩
    · intro e he
      simp at he
      rcases he with he | rfl
      · exact h1.out e he
      · exact k1
    · simp only [collV, hp] at h2
      rw [← h2]; simp [k2]

/-- Split the arguments at the first non-number. -/
theorem split_nums (args : List Ex) (ha : ∀ a ∈ args, Exact a) : ∃ nums rest, args = nums ++ rest ∧
    (∀ e ∈ nums, ExactNum e) ∧ (∀ x, rest.head? = some x → x.numberQ = false) ∧ (∀ e ∈ rest, Exact e) := by
  refine ⟨args.takeWhile numberQ, args.dropWhile numberQ, List.takeWhile_append_dropWhile.symm, ?_, ?_, ?_⟩
  · intro e he
    exact (ha e (List.takeWhile_subset _ he)).of_numberQ (by
      have := List.all_takeWhile (l := args) (p := numberQ)
      rw [List.all_eq_true] at this
      exact this e he)
  · intro x hx
    have := List.head?_dropWhile_not numberQ args
    rw [hx] at this
    simpa using this
  · intro e he
    exact ha e ((List.dropWhile_suffix _).subset he)

theorem cnp_none (fn : FoldFn) (x : Ex) (xs : List Ex) (hx : x.numberQ = false) :
    computeNumericPart fn (x :: xs) = (none, some 1) := by
  simp [computeNumericPart, cnpF, accLoop, accStep_stop _ _ _ hx, typedRealPart]

theorem ExactNum.not_forces {v : Ex} (h : ExactNum v) : forcesN (some v) = false := by
  cases v <;> simp only [ExactNum] at h <;> simp only [forcesN]
  rename_i a b
  obtain ⟨h1, h2⟩ := h
  cases a <;> first | exact h1.elim | (cases b <;> first | exact h2.elim | rfl)

/-- Shape of `Plus` evaluation on exact arguments. -/
theorem plusEval_shape (toN : Ex → Ex) (hi : iu * iu = -1) {args : List Ex} (ha : ∀ a ∈ args, Exact a) (hne : args ≠ []) :
    ∃ nums rest, args = nums ++ rest ∧ (∀ e ∈ nums, ExactNum e) ∧ (∀ x, rest.head? = some x → x.numberQ = false) ∧
    (∀ e ∈ rest, Exact e) ∧
    ((nums = [] ∧ plusEval toN args = plusFinish toN false (collectTerms args)) ∨
     (∃ v, ExactNum v ∧ value ρ iu v = (nums.map (value ρ iu)).sum ∧
       plusEval toN args = if rest = [] then v else
         plusFinish toN false (collectTerms ((if v = .int 0 then [] else [v]) ++ rest)))) := by
  obtain ⟨nums, rest, h0, h1, h2, h3⟩ := split_nums args ha
  refine ⟨nums, rest, h0, h1, h2, h3, ?_⟩
  cases nums with
  | nil =>
    left
    refine ⟨rfl, ?_⟩
    rw [List.nil_append] at h0
    subst h0
    cases args with
    | nil => exact absurd rfl hne
    | cons x xs =>
      have := cnp_none .add x xs (h2 x rfl)
      unfold plusEval
      rw [if_neg hne, this]
      simp only [forcesN]
  | cons n ns =>
    right
    obtain ⟨v, hv, hv1, hv2⟩ := computeNumericPart_ok ρ iu hi .add (n :: ns) rest h1 (by simp) h2
    rw [foldK_add] at hv2
    refine ⟨v, hv1, hv2, ?_⟩
    unfold plusEval
    rw [if_neg hne, h0, hv]
    by_cases hr : rest = []
    · simp [hr]
    · simp only [hr, if_false]
      have hd : List.drop (1 + (n :: ns).length - 1) (n :: ns ++ rest) = rest := by
        rw [Nat.add_sub_cancel_left]; exact List.drop_left
      rw [hd, hv1.not_forces]

theorem Exact.plus {l : List Ex} (h : ∀ e ∈ l, Exact e) : Exact (.expr (S "Plus" :: l)) := by
  refine .expr _ ?_
  intro p hp
  rcases List.mem_cons.1 hp with rfl | hp
  · exact .sym _
  · exact h p hp

theorem Exact.timesL {l : List Ex} (h : ∀ e ∈ l, Exact e) : Exact (.expr (S "Times" :: l)) := by
  refine .expr _ ?_
  intro p hp
  rcases List.mem_cons.1 hp with rfl | hp
  · exact .sym _
  · exact h p hp

theorem wrap_plus (toN : Ex → Ex) {l : List Ex} (h : ∀ e ∈ l, Exact e) :
    Exact (plusFinish toN false l) ∧
    value ρ iu (plusFinish toN false l) = (l.map (value ρ iu)).sum := by
  unfold plusFinish
  split
  · rename_i x
    exact ⟨h x (by simp), by simp⟩
  · exact ⟨by simpa using Exact.plus h, by simpa using value_plus ρ iu _⟩

theorem plusEval_ok (toN : Ex → Ex) (hi : iu * iu = -1) {args : List Ex} (ha : ∀ a ∈ args, Exact a) (hnc : NoClash args) :
    Exact (plusEval toN args) ∧ value ρ iu (plusEval toN args) = (args.map (value ρ iu)).sum := by
  by_cases hne : args = []
  · subst hne; exact ⟨.num _ trivial, by simp [plusEval, value]⟩
  obtain ⟨nums, rest, h0, h1, h2, h3, h4⟩ := plusEval_shape ρ iu toN hi ha hne
  rcases h4 with ⟨h5, h6⟩ | ⟨v, hv, hv2, h6⟩
  · rw [h6]
    obtain ⟨c1, c2⟩ := collectTerms_ok ρ iu hi ha hnc
    obtain ⟨w1, w2⟩ := wrap_plus ρ iu toN c1
    exact ⟨w1, w2.trans c2⟩
  · rw [h6]
    split
    · rename_i hr
      refine ⟨.num _ hv, ?_⟩
      rw [hv2, h0, hr]; simp
    · have hall : ∀ e ∈ (if v = .int 0 then [] else [v]) ++ rest, Exact e := by
        intro e he
        rcases List.mem_append.1 he with he | he
        · split at he
          · simp at he
          · simp at he; subst he; exact .num _ hv
        · exact h3 e he
      have hnum : ∀ c u, splitTerm v ≠ some (c, u) := by
        intro c u; cases v <;> simp [ExactNum] at hv <;> simp [splitTerm]
      have hin : ∀ e c u, e ∈ (if v = .int 0 then [] else [v]) ++ rest → splitTerm e = some (c, u) → e ∈ args := by
        intro e c u he hs
        rcases List.mem_append.1 he with he | he
        · split at he
          · simp at he
          · simp at he; subst he; exact absurd hs (hnum c u)
        · rw [h0]; simp [he]
      have hnc' : NoClash ((if v = .int 0 then [] else [v]) ++ rest) := by
        intro a ha' b hb' c d u w h1 h2 h3
        exact hnc a (hin a c u ha' h1) b (hin b d w hb' h2) c d u w h1 h2 h3
      obtain ⟨c1, c2⟩ := collectTerms_ok ρ iu hi hall hnc'
      obtain ⟨w1, w2⟩ := wrap_plus ρ iu toN c1
      refine ⟨w1, ?_⟩
      rw [w2, c2, h0, List.map_append, List.map_append, List.sum_append, List.sum_append, ← hv2]
      congr 1
      split
      · rename_i h; rw [h]; simp [value]
      · simp

/-- `Times` evaluation on exact arguments: either the value is preserved, or `0` met an infinite symbol. -/
theorem timesEval_ok (toN : Ex → Ex) (hi : iu * iu = -1) {args : List Ex} (ha : ∀ a ∈ args, Exact a) :
    (timesEval toN args = S "Indeterminate" ∧ (∃ a ∈ args, isInfinite a = true) ∧ (args.map (value ρ iu)).prod = 0) ∨
    (Exact (timesEval toN args) ∧ value ρ iu (timesEval toN args) = (args.map (value ρ iu)).prod) := by
  by_cases hne : args = []
  · subst hne; right; exact ⟨.num _ trivial, by simp [timesEval, value]⟩
  obtain ⟨nums, rest, h0, h1, h2, h3⟩ := split_nums args ha
  have finish : ∀ (l : List Ex) (r : Option Ex), forcesN r = false → (∀ e ∈ l, Exact e) → (l.map (value ρ iu)).prod = (args.map (value ρ iu)).prod →
      Exact (timesFinish toN (forcesN r) l) ∧
      value ρ iu (timesFinish toN (forcesN r) l) = (args.map (value ρ iu)).prod := by
    intro l r hr hl hp
    rw [hr]
    unfold timesFinish
    split
    · rename_i x
      exact ⟨hl x (by simp), by rw [← hp]; simp⟩
    · rename_i addends
      have hpl := (hl (.expr (.sym "System`Plus" :: addends)) (by simp)).parts
      refine ⟨Exact.plus ?_, ?_⟩
      · intro e he
        obtain ⟨a, ha', rfl⟩ := List.mem_map.1 he
        exact Exact.timesL (by intro p hp; simp at hp; rcases hp with rfl | rfl; exacts [hpl _ (by simp [ha']), .num _ trivial])
      · rw [← hp, value_plus]
        have hP : Ex.sym "System`Plus" = S "Plus" := rfl
        simp only [List.map, List.prod_cons, List.prod_nil, hP, value_plus]
        rw [List.map_map]
        clear hl hp hpl
        induction addends with
        | nil => simp
        | cons a as ih =>
          simp only [List.map, List.sum_cons, ih, Function.comp, value_times, List.prod_cons, List.prod_nil]
          simp [value]; ring
    · exact ⟨Exact.timesL hl, by simp only [Bool.false_eq_true, if_false]; rw [value_times, hp]⟩
  cases nums with
  | nil =>
    right
    rw [List.nil_append] at h0
    subst h0
    cases args with
    | nil => exact absurd rfl hne
    | cons x xs =>
      have := cnp_none .mul x xs (h2 x rfl)
      unfold timesEval
      rw [if_neg hne, this]
      simp only
      have hz : decide ((none : Option Ex) = some (.int 0)) = false := by simp
      rw [hz]
      simp only [Bool.false_and, Bool.false_eq_true, if_false]
      exact finish (x :: xs) none rfl ha rfl
  | cons n ns =>
    obtain ⟨v, hv, hv1, hv2⟩ := computeNumericPart_ok ρ iu hi .mul (n :: ns) rest h1 (by simp) h2
    rw [foldK_mul] at hv2
    have hprod : (args.map (value ρ iu)).prod = value ρ iu v * (rest.map (value ρ iu)).prod := by
      rw [h0, List.map_append, List.prod_append, hv2]
    by_cases hr : rest = []
    · right
      have : timesEval toN args = v := by
        unfold timesEval
        rw [if_neg hne, h0, hv]; simp [hr]
      rw [this, hprod, hr]
      exact ⟨.num _ hv1, by simp⟩
    · have hd : List.drop (1 + (n :: ns).length - 1) args = rest := by
        rw [h0, Nat.add_sub_cancel_left]; exact List.drop_left
      by_cases hz : v = .int 0
      · have hp0 : (args.map (value ρ iu)).prod = 0 := by rw [hprod, hz]; simp [value]
        by_cases hinf : rest.any isInfinite = true
        · left
          refine ⟨?_, ?_, hp0⟩
          · unfold timesEval
            rw [if_neg hne]
            rw [← h0] at hv
            rw [hv]
            simp only [hr, if_false, Option.getD_some, hd, hz, hinf]
            simp
          · obtain ⟨a, ha1, ha2⟩ := List.any_eq_true.1 hinf
            exact ⟨a, by rw [h0]; simp [ha1], ha2⟩
        · right
          have : timesEval toN args = .int 0 := by
            unfold timesEval
            rw [if_neg hne]
            rw [← h0] at hv
            rw [hv]
            simp only [hr, if_false, Option.getD_some, hd, hz, hinf]
            simp
          rw [this, hp0]
          exact ⟨.num _ trivial, by simp [value]⟩
      · right
        have hall : ∀ e ∈ (if v = .int 1 then [] else [v]) ++ rest, Exact e := by
          intro e he
          rcases List.mem_append.1 he with he | he
          · split at he
            · simp at he
            · simp at he; subst he; exact .num _ hv1
          · exact h3 e he
        have hval : (((if v = .int 1 then [] else [v]) ++ rest).map (value ρ iu)).prod = (args.map (value ρ iu)).prod := by
          rw [hprod, List.map_append, List.prod_append]
          congr 1
          split
          · rename_i h; rw [h]; simp [value]
          · simp
        have := finish _ (some v) hv1.not_forces hall hval
        unfold timesEval
        rw [if_neg hne]
        rw [← h0] at hv
        rw [hv]
        simp only [hr, if_false, Option.getD_some, hd]
        have hzd : decide (some v = some (.int 0)) = false := by simpa using hz
        rw [hzd]
        simp only [Bool.false_and, Bool.false_eq_true, if_false]
        exact this

end
end Expreduce
