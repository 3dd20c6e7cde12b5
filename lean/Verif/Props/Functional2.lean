import Verif.Props.Functional
import Verif.Proofs.EvalIdem

/-! Properties C37 (Count), C38 (Count), C39, C76, C77, C78, C79: counting, folding, nesting, flattening, selecting. -/

namespace Expreduce
open Ex

/-! ### Count -/

mutual
theorem below_id {sel} {path : List Nat} : ∀ e : Ex, below sel (fun _ x => x) path e = e
  | .expr ps => by rw [below, mapAtParts_id ps]
  | .sym _ | .str _ | .int _ | .rat _ _ | .flt _ | .cplx _ _ => by simp [below]
theorem mapAtParts_id {sel} {path : List Nat} : ∀ ps : List Ex, mapAtParts sel (fun _ x => x) path ps = ps
  | [] => by simp [mapAtParts]
  | h :: as => by rw [mapAtParts, mapAtArgs_id 1 as]
theorem mapAtArgs_id {sel} {path : List Nat} (i : Nat) : ∀ as : List Ex, mapAtArgs sel (fun _ x => x) path i as = as
  | [] => by simp [mapAtArgs]
  | a :: as => by rw [mapAtArgs, mapAt_eq, below_id a, mapAtArgs_id (i + 1) as]; simp
end

mutual
theorem sum_count {sel} {q : Ex → Bool} {path : List Nat} : ∀ e : Ex,
    sumBelow sel (fun _ y => if q y then 1 else 0) path e + (if sel path e then (if q e then 1 else 0) else 0) =
      (countAt (fun p y => sel p y && q y) path e : Int)
  | .expr ps => by
    rw [sumBelow, countAt, sumParts_count ps]
    by_cases h1 : sel path (.expr ps) = true <;> by_cases h2 : q (.expr ps) = true <;> simp [h1, h2] <;> omega
  | .sym _ | .str _ | .int _ | .rat _ _ | .flt _ | .cplx _ _ => by
    simp only [sumBelow, countAt, Bool.and_eq_true]
    split_ifs <;> simp_all
theorem sumParts_count {sel} {q : Ex → Bool} {path : List Nat} : ∀ ps : List Ex,
    sumParts sel (fun _ y => if q y then 1 else 0) path ps = (countAtParts (fun p y => sel p y && q y) path ps : Int)
  | [] => by simp [sumParts, countAtParts]
  | h :: as => by rw [sumParts, countAtParts, sumArgs_count 1 as]
theorem sumArgs_count {sel} {q : Ex → Bool} {path : List Nat} (i : Nat) : ∀ as : List Ex,
    sumArgs sel (fun _ y => if q y then 1 else 0) path i as = (countAtArgs (fun p y => sel p y && q y) path i as : Int)
  | [] => by simp [sumArgs, countAtArgs]
  | a :: as => by rw [sumArgs, countAtArgs, sum_count a, sumArgs_count (i + 1) as]; push_cast; rfl
end

/-- The expression has heads everywhere and the pattern can be matched against all its subexpressions. -/
def Matchable (env : MEnv) (k : Nat) (pat e : Ex) : Prop := Headed e ∧ ∀ z, z = e ∨ z ∈ Headed.subs e → isMatchQ env k z pat [] ≠ none

theorem acts_count (env : MEnv) (k : Nat) (pat : Ex) (sel) :
    Acts (Matchable env k pat) (countStep env k pat) sel (fun _ x => x) (fun _ y => if matchesP env k pat y then 1 else 0) :=
  ⟨fun ps h => ⟨h.1.parts.1, fun a ha => ⟨h.1.parts.2 a ha, fun z hz => h.2 z (.inr (sub_of_part ha hz))⟩⟩, fun y p g hy => by
    rw [below_id]
    have := hy.2 y (.inl rfl)
    cases hm : isMatchQ env k y pat [] with
    | none => exact absurd hm this
    | some r =>
      obtain ⟨b, pd⟩ := r
      simp only [countStep, hm, Option.map_some, matchesP]
      cases b <;> simp⟩

/-- C38. `Count[e, pat, {m, n}]` is the number of subexpressions on the requested levels that match; nonnegative bounds other than `{1, 0}`. -/
theorem C38_count (env : MEnv) (k : Nat) (P e pat sp : Ex) (m n : Int) (ev : Ex → Option Ex) (hsp : LevelsAre sp m n) (hm : 0 ≤ m) (hn : 0 ≤ n)
    (h10 : ¬ (m = 1 ∧ n = 0)) (he : Matchable env k pat e) :
    countFn env k ev [P, e, pat, sp] = some (.int (countAt (fun p y => inLevels m n p y && matchesP env k pat y) [] e)) := by
  rw [← atLevels_inLevels hm hn]
  simp only [countFn, levelSpecFunction, parse_levels hsp, if_true]
  rw [levelWalk_levels hm hn h10 true (acts_count env k pat _) e he]
  simp only [exOrGenerated, if_true]
  rw [sum_count]

theorem countAtArgs_level {q : Ex → Bool} : ∀ (as : List Ex) (i : Nat),
    countAtArgs (fun p y => inLevels 1 1 p y && q y) [] i as = (as.filter q).length
  | [], _ => by simp [countAtArgs]
  | a :: as, i => by
    have hb := below_none (F := fun _ x => x) (c := fun _ y => if q y then 1 else 0) (sel := inLevels 1 1) (path := [] ++ [i]) a (fun p y hp => by
      simp at hp
      simp [inLevels]
      omega)
    have := sum_count (sel := inLevels 1 1) (q := q) (path := [] ++ [i]) a
    rw [hb.2] at this
    have hs : inLevels 1 1 ([] ++ [i]) a = true := by simp [inLevels]
    rw [hs] at this
    have ih := countAtArgs_level (q := q) as (i + 1)
    rw [countAtArgs, ih]
    by_cases hq : q a = true
    · rw [List.filter_cons_of_pos hq, List.length_cons]
      simp [hq] at this
      simp only [List.nil_append]
      omega
    · rw [List.filter_cons_of_neg hq]
      simp [hq] at this
      simp only [List.nil_append]
      omega

/-- C37. `Count[f[xs], pat, {1}]` (the definition of `Count[f[xs], pat]`) is the length of `Cases[f[xs], pat]`. -/
theorem C37_count (env : MEnv) (k : Nat) (P Q f pat : Ex) (xs : List Ex) (ev : Ex → Option Ex) (hpat : hasHead "System`Rule" pat = false)
    (he : Matchable env k pat (.expr (f :: xs))) :
    ∃ ys, casesFn env k [P, .expr (f :: xs), pat] = some (.expr (S "List" :: ys)) ∧
      countFn env k ev [Q, .expr (f :: xs), pat, .expr [S "List", .int 1]] = some (.int ys.length) := by
  have h1 := (C37_partition env k P P f pat xs hpat).1 (fun x hx => he.2 x (.inr (sub_of_part (List.mem_cons_of_mem _ hx) (.inl rfl))))
  refine ⟨_, h1.1, ?_⟩
  rw [C38_count env k Q _ pat _ 1 1 ev (.exactly (by norm_num) (by norm_num)) (by norm_num) (by norm_num) (by norm_num) he]
  simp only [countAt, countAtParts, countAtArgs_level]
  simp [inLevels]

/-! ### C39: folding and nesting -/

theorem foldListLoop_get (f : Ex) : ∀ (as : List Ex) (x : Ex) (k : Nat), k < as.length →
    (foldListLoop f x as)[k]? = some (folded f x (as.take (k + 1)))
  | a :: as, x, 0, _ => by simp [foldListLoop, folded]
  | a :: as, x, k + 1, h => by
    simp only [foldListLoop, List.getElem?_cons_succ, List.take_succ_cons]
    rw [foldListLoop_get f as _ k (by simpa using h)]
    simp [folded]

theorem foldListLoop_length (f : Ex) : ∀ (as : List Ex) (x : Ex), (foldListLoop f x as).length = as.length
  | [], _ => rfl
  | a :: as, x => by simp [foldListLoop, foldListLoop_length f as]

/-- C39. `FoldList[f, x, h[a₁, ..., aₙ]]` has head `h` and `n + 1` elements; element number `k` (from 0) is the fold of the first `k` values. -/
theorem C39_foldList (P f x h : Ex) (as : List Ex) :
    ∃ l, foldListFn [P, f, x, .expr (h :: as)] = some (.expr (h :: l)) ∧ l.length = as.length + 1 ∧
      ∀ k, k ≤ as.length → l[k]? = some (folded f x (as.take k)) := by
  refine ⟨x :: foldListLoop f x as, rfl, by simp [foldListLoop_length], ?_⟩
  intro k hk
  cases k with
  | zero => simp [folded]
  | succ k => rw [List.getElem?_cons_succ, foldListLoop_get f as x k (by omega)]

theorem nest_shift (f x : Ex) : ∀ k, nest f (.expr [f, x]) k = nest f x (k + 1)
  | 0 => rfl
  | k + 1 => by rw [nest, nest_shift f x k]; rfl

theorem nestListLoop_get (f : Ex) : ∀ (n : Nat) (x : Ex) (k : Nat), k < n → (nestListLoop f x n)[k]? = some (nest f x (k + 1))
  | n + 1, x, 0, _ => by simp [nestListLoop, nest]
  | n + 1, x, k + 1, h => by
    simp only [nestListLoop, List.getElem?_cons_succ]
    rw [nestListLoop_get f n _ k (by omega), nest_shift]

theorem nestListLoop_length (f : Ex) : ∀ (n : Nat) (x : Ex), (nestListLoop f x n).length = n
  | 0, _ => rfl
  | n + 1, x => by simp [nestListLoop, nestListLoop_length f n]

theorem nestListLoop_eq (f : Ex) (n : Nat) (x : Ex) : nestListLoop f x n = (List.range' 1 n).map (nest f x) := by
  refine List.ext_getElem? (fun k => ?_)
  by_cases hk : k < n
  · rw [nestListLoop_get f n x k hk]
    simp [List.getElem?_range', hk, Nat.add_comm]
  · rw [List.getElem?_eq_none (by rw [nestListLoop_length]; omega), List.getElem?_eq_none (by simp; omega)]

/-- C39. `NestList[f, x, n]` for `0 ≤ n < 2⁶³` is `{x, f[x], ..., fⁿ[x]}`; a negative `n` leaves the call as it is. -/
theorem C39_nestList (P f x : Ex) (n : Nat) (hn : n < 2 ^ 63) (m : Int) (hm : m < 0) (hm' : -2 ^ 63 ≤ m) :
    nestListFn [P, f, x, .int n] = some (.expr (S "List" :: (List.range (n + 1)).map (nest f x))) ∧
    nestListFn [P, f, x, .int m] = some (.expr [P, f, x, .int m]) := by
  have e1 : wrap64 (n : Int) = n := wrap64_of_fits (by omega) (by omega)
  have e2 : wrap64 m = m := wrap64_of_fits hm' (by omega)
  constructor
  · simp only [nestListFn, e1]
    rw [if_neg (by omega), Int.toNat_natCast, nestListLoop_eq, List.range_succ_eq_map, List.map_cons]
    rw [List.map_map, List.range'_eq_map_range, List.map_map]
    simp [nest, Function.comp_def, Nat.add_comm]
  · simp only [nestListFn, e2, if_pos hm]

/-- C39. `Array[f, n]` is `{f[1], ..., f[n]}` (empty for a negative `n`). -/
theorem C39_array (P f : Ex) (n : Int) (h1 : -2 ^ 63 ≤ n) (h2 : n < 2 ^ 63) :
    arrayFn [P, f, .int n] = some (.expr (S "List" :: (List.range n.toNat).map (fun k => .expr [f, .int (k + 1)]))) := by
  simp only [arrayFn, wrap64_of_fits h1 h2]

/-! ### C79: FixedPoint -/

theorem fixedPointLoop_run {f : Ex} {ev : Evaluator} {st0 : EState} {x0 : Ex} : ∀ (k : Nat) (j : Nat) (stj st : EState) (curr next : Ex),
    Iterates ev f j st0 x0 stj curr → ev stj (.expr [f, curr]) = .ok (st, next) →
    (∀ i a b sa sb, i < j → Iterates ev f i st0 x0 sa a → ev sa (.expr [f, a]) = .ok (sb, b) → isSameQ a b = false) →
    ∀ st' v, fixedPointLoop f ev k st curr next = .ok (st', v) →
      ∃ n sn y, Iterates ev f n st0 x0 sn y ∧ ev sn (.expr [f, y]) = .ok (st', v) ∧ isSameQ y v = true ∧
        ∀ i a b sa sb, i < n → Iterates ev f i st0 x0 sa a → ev sa (.expr [f, a]) = .ok (sb, b) → isSameQ a b = false
  | 0, _, _, _, _, _, _, _, _, _, _, h => by simp [fixedPointLoop] at h
  | k + 1, j, stj, st, curr, next, hit, hev, hno, st', v, h => by
    rw [fixedPointLoop] at h
    by_cases hs : isSameQ curr next = true
    · rw [if_pos hs] at h
      cases h
      exact ⟨j, stj, curr, hit, hev, hs, hno⟩
    · rw [if_neg hs] at h
      replace h := Res.bind_ok h
      obtain ⟨⟨st1, nx⟩, h1, h2⟩ := h
      refine fixedPointLoop_run k (j + 1) st st1 next nx (.step hit hev) h1 ?_ st' v h2
      intro i a b sa sb hi hia hib
      rcases Nat.lt_succ_iff_lt_or_eq.1 hi with hi | rfl
      · exact hno i a b sa sb hi hia hib
      · obtain ⟨rfl, rfl⟩ := iterates_unique hit hia
        rw [hev] at hib
        cases hib
        simpa using hs
where
  iterates_unique {f : Ex} {ev : Evaluator} {k st x s1 y1 s2 y2} (h1 : Iterates ev f k st x s1 y1) (h2 : Iterates ev f k st x s2 y2) : s1 = s2 ∧ y1 = y2 := by
    induction h1 generalizing s2 y2 with
    | zero => cases h2; exact ⟨rfl, rfl⟩
    | step a b ih =>
      cases h2 with
      | step c d =>
        obtain ⟨rfl, rfl⟩ := ih c
        rw [b] at d
        cases d
        exact ⟨rfl, rfl⟩

theorem fixedPointLoop_stop {f : Ex} {ev : Evaluator} {st0 : EState} {x0 : Ex} {n : Nat} {sn st' : EState} {y v : Ex}
    (hn : Iterates ev f n st0 x0 sn y) (hv : ev sn (.expr [f, y]) = .ok (st', v)) (hs : isSameQ y v = true)
    (hno : ∀ i a b sa sb, i < n → Iterates ev f i st0 x0 sa a → ev sa (.expr [f, a]) = .ok (sb, b) → isSameQ a b = false) :
    ∀ (k j : Nat) (stj st : EState) (curr next : Ex), j + k = n → Iterates ev f j st0 x0 stj curr → ev stj (.expr [f, curr]) = .ok (st, next) →
      fixedPointLoop f ev (k + 1) st curr next = .ok (st', v)
  | 0, j, stj, st, curr, next, hj, hit, hev => by
    obtain rfl : j = n := by omega
    obtain ⟨rfl, rfl⟩ := fixedPointLoop_run.iterates_unique hn hit
    rw [hv] at hev
    cases hev
    simp [fixedPointLoop, hs]
  | k + 1, j, stj, st, curr, next, hj, hit, hev => by
    have hne := hno j curr next stj st (by omega) hit hev
    have hit' := Iterates.step hit hev
    have : ∃ s2 z, ev st (.expr [f, next]) = .ok (s2, z) := by
      by_cases e : j + 1 = n
      · subst e
        obtain ⟨rfl, rfl⟩ := fixedPointLoop_run.iterates_unique hn hit'
        exact ⟨_, _, hv⟩
      · have : ∀ m s z, j + 1 < m → Iterates ev f m st0 x0 s z → ∃ s2 w, ev st (.expr [f, next]) = .ok (s2, w) := by
          intro m s z hm hmz
          induction hmz with
          | zero => omega
          | @step q _ s1 s2 _ w z a b ih =>
            by_cases hq : j + 1 < q
            · exact ih hn hno hit hit' hq
            · obtain rfl : q = j + 1 := by omega
              obtain ⟨rfl, rfl⟩ := fixedPointLoop_run.iterates_unique a hit'
              exact ⟨_, _, b⟩
        exact this n sn y (by omega) hn
    obtain ⟨s2, z, hz⟩ := this
    rw [fixedPointLoop, hne]
    simp only [Bool.false_eq_true, if_false, hz]
    exact fixedPointLoop_stop hn hv hs hno k (j + 1) st s2 next z (by omega) hit' hz

/-- C79. `FixedPoint[f, x]` returns `v` (in state `st'`) for some number of rounds exactly if `v` is the first of the values `f[x]`, `f[f[x]]`, ... that is the same
as the one before. -/
theorem C79_fixedPoint (P f x v : Ex) (ev : Evaluator) (st st' : EState) :
    (∃ k, fixedPointFn k ev st [P, f, x] = .ok (st', v)) ↔
      ∃ n sn y, Iterates ev f n st x sn y ∧ ev sn (.expr [f, y]) = .ok (st', v) ∧ isSameQ y v = true ∧
        ∀ i a b sa sb, i < n → Iterates ev f i st x sa a → ev sa (.expr [f, a]) = .ok (sb, b) → isSameQ a b = false := by
  constructor
  · rintro ⟨k, h⟩
    simp only [fixedPointFn] at h
    replace h := Res.bind_ok h
    obtain ⟨⟨s1, y1⟩, h1, h2⟩ := h
    exact fixedPointLoop_run k 0 st s1 x y1 (.zero _ _) h1 (fun i _ _ _ _ hi => by omega) st' v h2
  · rintro ⟨n, sn, y, hn, hv, hs, hno⟩
    have : ∃ s1 z, ev st (.expr [f, x]) = .ok (s1, z) := by
      have : ∀ m s z, Iterates ev f m st x s z → 0 < m → ∃ s2 w, ev st (.expr [f, x]) = .ok (s2, w) := by
        intro m s z hm h0
        clear hn hv hs hno
        induction hm with
        | zero => omega
        | @step q _ s1 s2 _ w z a b ih =>
          cases q with
          | zero => cases a; exact ⟨_, _, b⟩
          | succ q => exact ih (by omega)
      cases n with
      | zero => cases hn; exact ⟨_, _, hv⟩
      | succ n => exact this _ _ _ hn (by omega)
    obtain ⟨s1, z, hz⟩ := this
    refine ⟨n + 1, ?_⟩
    simp only [fixedPointFn, hz]
    exact fixedPointLoop_stop hn hv hs hno n 0 st s1 x z (by omega) (.zero _ _) hz

/-! ### C78: Select and Scan -/

theorem selectLoop_all {f : Ex} {ev : Evaluator} {st st' : EState} {xs : List Ex} {bs : List Bool} (h : Tests ev f st xs st' bs) :
    ∀ (maxN added : Int), added + xs.length ≤ maxN → selectLoop f ev maxN added st xs = .ok (st', chosen xs bs) := by
  induction h with
  | nil st => intro maxN added _; simp [selectLoop, chosen]
  | @cons st st1 st2 x v xs bs hx _ ih =>
    intro maxN added hle
    simp only [List.length_cons] at hle
    rw [selectLoop, if_neg (by omega), hx, Res.bind]
    by_cases hv : v = S "True"
    · simp only [hv, if_true, decide_true, chosen]
      rw [ih maxN (added + 1) (by omega)]
      rfl
    · simp only [hv, if_false, decide_false, chosen, Bool.false_eq_true]
      exact ih maxN added (by omega)

theorem selectLoop_limit {f : Ex} {ev : Evaluator} {st st' : EState} {ys : List Ex} {bs : List Bool} (h : Tests ev f st ys st' bs) (zs : List Ex) :
    ∀ (maxN added : Int), added + (bs.filter id).length = maxN → (bs.getLast? = some true ∨ bs = []) →
      selectLoop f ev maxN added st (ys ++ zs) = .ok (st', chosen ys bs) := by
  induction h with
  | nil st =>
    intro maxN added he _
    simp only [List.filter_nil, List.length_nil] at he
    cases zs with
    | nil => simp [selectLoop, chosen]
    | cons z zs => simp only [List.nil_append, selectLoop, chosen]; rw [if_pos (by omega)]
  | @cons st st1 st2 x v xs bs hx _ ih =>
    intro maxN added he hl
    have hpos : (decide (v = S "True") :: bs).filter id ≠ [] := by
      rcases hl with hl | hl
      · have hm := List.mem_of_getLast? hl
        intro e
        have : true ∈ (decide (v = S "True") :: bs).filter id := List.mem_filter.2 ⟨hm, rfl⟩
        rw [e] at this
        exact absurd this (by simp)
      · simp at hl
    have hl' : bs.getLast? = some true ∨ bs = [] := by
      cases bs with
      | nil => exact .inr rfl
      | cons b bs =>
        rcases hl with hl | hl
        · left
          rw [List.getLast?_cons_cons] at hl
          exact hl
        · simp at hl
    have hlen := List.length_pos_iff.2 hpos
    rw [List.cons_append, selectLoop, if_neg (by omega), hx, Res.bind]
    by_cases hv : v = S "True"
    · simp only [hv, if_true, decide_true, chosen]
      rw [ih maxN (added + 1) (by simp [hv] at he; omega) hl']
      rfl
    · simp only [hv, if_false, decide_false, chosen, Bool.false_eq_true]
      exact ih maxN added (by simpa [hv] using he) hl'

/-- C78. `Select[h[xs], f]` keeps, in order, the elements whose test gives `True`; with a limit `n` it stops after the `n`-th one and the tests behind it are not
evaluated. -/
theorem C78_select (P f h : Ex) (xs ys zs : List Ex) (ev : Evaluator) (st st' : EState) (bs : List Bool) (n : Nat) (hn : (n : Int) < 2 ^ 63)
    (hx : (xs.length : Int) < 2 ^ 63) :
    (Tests ev f st xs st' bs → selectFn ev st [P, .expr (h :: xs), f] = .ok (st', .expr (h :: chosen xs bs))) ∧
    (Tests ev f st ys st' bs → (bs.filter id).length = n → (bs.getLast? = some true ∨ bs = []) →
      selectFn ev st [P, .expr (h :: (ys ++ zs)), f, .int n] = .ok (st', .expr (h :: chosen ys bs))) ∧
    (Tests ev f st xs st' bs → xs.length ≤ n →
      selectFn ev st [P, .expr (h :: xs), f, .int n] = .ok (st', .expr (h :: chosen xs bs))) := by
  have e1 : wrap64 (n : Int) = n := wrap64_of_fits (by omega) hn
  refine ⟨fun ht => ?_, fun ht hb hl => ?_, fun ht hl => ?_⟩
  · simp only [selectFn, selectIn]
    rw [selectLoop_all ht _ 0 (by omega)]
    rfl
  · simp only [selectFn, selectIn, e1]
    rw [if_neg (by omega), selectLoop_limit ht zs n 0 (by omega) hl]
    rfl
  · simp only [selectFn, selectIn, e1]
    rw [if_neg (by omega), selectLoop_all ht n 0 (by omega)]
    rfl

theorem scanLoop_visits {f : Ex} {ev : Evaluator} {st st' : EState} {xs : List Ex} (h : ScanVisits ev f st xs st') (rest : List Ex) :
    scanLoop f ev st (xs ++ rest) = scanLoop f ev st' rest := by
  induction h with
  | nil => rfl
  | cons hx ht hr _ ih =>
    rw [List.cons_append, scanLoop, hx, Res.bind]
    simp only [ht, hr, ih]

/-- C78. `Scan[f, h[xs]]` evaluates `f` on the elements in order and returns `Null`; a `Return[v]` ends it with `v`, a throw ends it too; the elements behind are
not visited. -/
theorem C78_scan (P f h x v t : Ex) (xs rest : List Ex) (ev : Evaluator) (st st1 st2 : EState) (hv : ScanVisits ev f st xs st1) :
    scanFn ev st [P, f, .expr (h :: xs)] = .ok (st1, S "Null") ∧
    (ev st1 (.expr [f, x]) = .ok (st2, .expr [S "Return", v]) → st2.thrown = none →
      scanFn ev st [P, f, .expr (h :: (xs ++ x :: rest))] = .ok (st2, v)) ∧
    (ev st1 (.expr [f, x]) = .ok (st2, v) → st2.thrown = some t →
      scanFn ev st [P, f, .expr (h :: (xs ++ x :: rest))] = .ok (st2, t)) := by
  refine ⟨?_, fun h1 h2 => ?_, fun h1 h2 => ?_⟩
  · have := scanLoop_visits hv []
    rw [List.append_nil] at this
    simp only [scanFn, this, scanLoop]
  · simp only [scanFn, scanLoop_visits hv, scanLoop, h1, Res.bind, h2]
    simp [argsOf, S]
  · simp only [scanFn, scanLoop_visits hv, scanLoop, h1, Res.bind, h2]

/-- The hypotheses of C38_count and C37_count are met: `Count[{1, a}, _Integer, {1}]` is 1. -/
example : Matchable envP 10 (.expr [S "Blank", S "Integer"]) (listOf [.int 1, .sym "Global`a"]) ∧
    countFn envP 10 some [S "Count", listOf [.int 1, .sym "Global`a"], .expr [S "Blank", S "Integer"], .expr [S "List", .int 1]] = some (.int 1) := by
  refine ⟨⟨?_, ?_⟩, by decide +kernel⟩
  · intro ps h
    simp [Headed.subs, Headed.subsL, listOf] at h
    rintro rfl
    simp [S, Headed.subs] at h
  · have : ∀ z ∈ listOf [.int 1, .sym "Global`a"] :: Headed.subs (listOf [.int 1, .sym "Global`a"]),
        isMatchQ envP 10 z (.expr [S "Blank", S "Integer"]) [] ≠ none := by decide +kernel
    exact fun z hz => this z (List.mem_cons.2 hz)

/-- The evaluator of the examples: `t[1]` is `True`, everything else stays. -/
def trueAtOne : Evaluator := fun st e => .ok (st, if e = .expr [.sym "Global`t", .int 1] then S "True" else e)

/-- The hypotheses of C78_select are met: `Select[{1, 2}, t]` is `{1}`. -/
example (st : EState) : Tests trueAtOne (.sym "Global`t") st [.int 1, .int 2] st [true, false] ∧
    selectFn trueAtOne st [S "Select", listOf [.int 1, .int 2], .sym "Global`t"] = .ok (st, listOf [.int 1]) := by
  have h : Tests trueAtOne (.sym "Global`t") st [.int 1, .int 2] st [true, false] := by
    have := Tests.cons (ev := trueAtOne) (f := .sym "Global`t") (st := st) (x := .int 1) rfl (Tests.cons (x := .int 2) rfl (Tests.nil st))
    convert this using 2 <;> decide +kernel
  exact ⟨h, (C78_select (S "Select") (.sym "Global`t") (S "List") [.int 1, .int 2] [] [] trueAtOne st st [true, false] 0 (by norm_num) (by norm_num)).1 h⟩

/-- The hypotheses of C78_scan are met. -/
example (st : EState) (h : st.thrown = none) : ScanVisits trueAtOne (.sym "Global`g") st [.int 1, .int 2] st :=
  .cons rfl h (by decide +kernel) (.cons rfl h (by decide +kernel) (.nil st))

/-- The hypotheses of C79_fixedPoint are met: an evaluator that takes `g[a]` and `g[b]` to `b`. -/
example (st : EState) : let ev : Evaluator := fun st _ => .ok (st, .sym "Global`b")
    ∃ k, fixedPointFn k ev st [S "FixedPoint", .sym "Global`g", .sym "Global`a"] = .ok (st, .sym "Global`b") := by
  intro ev
  refine (C79_fixedPoint _ _ _ _ _ _ _).2 ⟨1, st, .sym "Global`b", .step (.zero st _) rfl, rfl, by decide +kernel, ?_⟩
  intro i a b sa sb hi hit he
  obtain rfl : i = 0 := by omega
  cases hit
  cases he
  decide +kernel

end Expreduce
