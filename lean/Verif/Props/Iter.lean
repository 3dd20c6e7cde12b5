import Verif.Proofs.IterFn
import Verif.Props.EvalEx

/-! Properties C32, C33, C74: iteration. -/

namespace Expreduce
open Ex

/-! ### C32: the order of the rows -/

/-- C32. The rows are exactly the choices of one value per iterator. -/
theorem C32_rows (ls : List (List Ex)) (row : List Ex) : row ∈ combinations ls ↔ List.Forall₂ (fun x l => x ∈ l) row ls := by
  induction ls generalizing row with
  | nil => cases row <;> simp [combinations]
  | cons l ls ih =>
    simp only [combinations, List.mem_flatMap, List.mem_map]
    constructor
    · rintro ⟨x, hx, r, hr, rfl⟩
      exact .cons hx ((ih r).1 hr)
    · intro h
      cases h with
      | cons hx hr => exact ⟨_, hx, _, (ih _).2 hr, rfl⟩

/-- C32. There are as many rows as the product of the numbers of values. -/
theorem C32_number (ls : List (List Ex)) : (combinations ls).length = (ls.map List.length).prod := by
  induction ls with
  | nil => rfl
  | cons l ls ih => simp [combinations, List.length_flatMap, ih]

theorem getElem?_flatMap_const {f : Ex → List (List Ex)} {m : Nat} (hf : ∀ x, (f x).length = m) (l : List Ex) (q r : Nat) (hr : r < m) :
    (l.flatMap f)[q * m + r]? = (l[q]?).bind (fun x => (f x)[r]?) := by
  induction l generalizing q with
  | nil => simp
  | cons x l ih =>
    rw [List.flatMap_cons]
    cases q with
    | zero => rw [Nat.zero_mul, Nat.zero_add, List.getElem?_append_left (by rw [hf]; exact hr)]; rfl
    | succ q =>
      rw [List.getElem?_append_right (by rw [hf]; nlinarith), hf]
      have : (q + 1) * m + r - m = q * m + r := by rw [Nat.succ_mul]; omega
      rw [this, ih]
      rfl

/-- C32. The last iterator varies fastest: if the later iterators have `m` rows together, then row number `q m + r` consists of value number `q` of the
first iterator and row number `r` of the later ones. -/
theorem C32_order (l : List Ex) (ls : List (List Ex)) (q r : Nat) (hr : r < (combinations ls).length) :
    (combinations (l :: ls))[q * (combinations ls).length + r]? = (l[q]?).bind (fun x => ((combinations ls)[r]?).map (x :: ·)) := by
  have := getElem?_flatMap_const (f := fun x => (combinations ls).map (x :: ·)) (m := (combinations ls).length) (by simp) l q r hr
  simpa [combinations] using this

/-! ### C32: the functions -/

/-- The conditions under which a call of an iteration function `f[body, {i, ...}, ...]` is considered: `f` is the built-in function `F`, holds its
arguments, and no user rule rewrites the call. -/
structure IterCall (c : Ctx) (st : EState) (f : String) (F : Nat → Evaluator → EState → List Ex → Res (EState × Ex)) (args : List Ex) : Prop extends
    Command c f F st where
  noMark : c.skip st (app f args) = false
  notThrown : st.thrown = none
  holdAll : (attrsOf st f).holdAll = true
  plainArgs : ∀ p ∈ args, plainPart (attrsOf st f) p

theorem IterCall.evals {c : Ctx} (hc : c.Mono) {st st' : EState} {f : String} {F} {args : List Ex} {v : Ex} (h : IterCall c st f F args)
    (hF : ∃ N, ∀ n, N ≤ n → F n (eval c n) st (.sym f :: args) = .ok (st', v)) (hnr : ∀ ev e, c.find ev st' f e = .ok (st', none))
    (hd : Done c st' v) : Evals c st (app f args) st' v :=
  evals_builtin hc h.noMark h.notThrown h.noValue h.plain h.toBuiltin hnr
    (evalSeq_held args 1 (fun j _ => .inr (.inr (.inl h.holdAll)))) h.plainArgs hF hd

/-- C32. `Table[body, {i₁, ...}, ..., {iₖ, ...}]`, for any number of iterators with symbols as variables: the body is evaluated once for every
row of iterator values, in the order of nested loops with the last iterator innermost, with the variables assigned to the row; the values are listed
in that order (in one flat list); then the variables get their old values back. -/
theorem C32_table {c : Ctx} (hc : c.Mono) (hsort : ∀ l, (c.sort l).Perm l) {strLen : Ex → Nat} {st st1 st2 st3 : EState} {body : Ex} {lists : List Ex}
    {names : List String} {values : List (List Ex)} {vals : List Ex} (hne : lists ≠ []) (hlen : names.length = values.length)
    (hcall : IterCall c st "System`Table" (tableFn strLen c.find) (body :: lists))
    (hi : IterSeq c st lists st1 ((names.map Ex.sym).zip values))
    (hv : Visits c strLen (fun s acc s' acc' => ∃ v, Evals c s body s' v ∧ acc' = acc ++ [v]) (names.map Ex.sym) st1 [] (combinations values) st2 vals)
    (hres : restoreAll strLen st2 (valuesOf st1 names) = .ok st3)
    (hnr : ∀ ev e, c.find ev st3 "System`Table" e = .ok (st3, none)) (hd : Done c st3 (app "System`List" vals)) :
    Evals c st (app "System`Table" (body :: lists)) st3 (app "System`List" vals) := by
  refine hcall.evals hc ?_ hnr hd
  obtain ⟨N, hN⟩ := iterRun_spec hc hsort (find := c.find) (act := fun ev => tableAct ev body) (by
    rintro s acc s' acc' ⟨v, hv, rfl⟩
    obtain ⟨N, hN⟩ := hv.at hc
    exact ⟨N, fun n hn => by simp [tableAct, hN n hn, Res.bind]⟩) hlen hi hv hres
  refine ⟨N, fun n hn => ?_⟩
  obtain ⟨l, ls, rfl⟩ := List.exists_cons_of_ne_nil hne
  simp only [tableFn, hN n hn, Res.bind, tableResult]
  rfl

/-- C32. `Do` visits the same rows in the same order, if no round throws or returns. -/
theorem C32_do {c : Ctx} (hc : c.Mono) (hsort : ∀ l, (c.sort l).Perm l) {strLen : Ex → Nat} {st st1 st2 st3 : EState} {body : Ex} {lists : List Ex}
    {names : List String} {values : List (List Ex)} (hne : lists ≠ []) (hlen : names.length = values.length)
    (hcall : IterCall c st "System`Do" (doFn strLen c.find) (body :: lists))
    (hi : IterSeq c st lists st1 ((names.map Ex.sym).zip values))
    (hv : Visits c strLen (fun s _ s' _ => ∃ v, Evals c s body s' v ∧ s'.thrown = none ∧ hasHead "System`Return" v = false) (names.map Ex.sym) st1 ()
      (combinations values) st2 ())
    (hres : restoreAll strLen st2 (valuesOf st1 names) = .ok st3)
    (hnr : ∀ ev e, c.find ev st3 "System`Do" e = .ok (st3, none)) (hd : Done c st3 (S "Null")) :
    Evals c st (app "System`Do" (body :: lists)) st3 (S "Null") := by
  refine hcall.evals hc ?_ hnr hd
  obtain ⟨N, hN⟩ := iterRun_spec hc hsort (find := c.find) (act := fun ev => doAct ev body) (by
    rintro s acc s' acc' ⟨v, hv, ht, hr⟩
    obtain ⟨N, hN⟩ := hv.at hc
    have hr' : returned v = none := by simp [returned, (argsOf_noneE _ _).2 hr]
    exact ⟨N, fun n hn => by simp [doAct, hN n hn, Res.bind, ht, hr']⟩) hlen hi hv hres
  refine ⟨N, fun n hn => ?_⟩
  obtain ⟨l, ls, rfl⟩ := List.exists_cons_of_ne_nil hne
  simp only [doFn, hN n hn, Res.bind, doResult]

/-- C32. `Sum` starts with 0 and adds, by `Plus`, the value of the body for every row, in the same order; `Product` likewise with 1 and `Times`. -/
theorem C32_sum {c : Ctx} (hc : c.Mono) (hsort : ∀ l, (c.sort l).Perm l) {strLen : Ex → Nat} {st st1 st2 st3 : EState} {body v : Ex} {lists : List Ex}
    {names : List String} {values : List (List Ex)} (hne : lists ≠ []) (hlen : names.length = values.length) {f op : String} {init : Ex}
    (hop : f = "System`Sum" ∧ op = "System`Plus" ∧ init = .int 0 ∨ f = "System`Product" ∧ op = "System`Times" ∧ init = .int 1)
    (hcall : IterCall c st f (foldFn op init strLen c.find) (body :: lists))
    (hi : IterSeq c st lists st1 ((names.map Ex.sym).zip values))
    (hv : Visits c strLen (fun s acc s' acc' => ∃ sm b, Evals c s body sm b ∧ Evals c sm (app op [acc, b]) s' acc') (names.map Ex.sym) st1 init
      (combinations values) st2 v)
    (hres : restoreAll strLen st2 (valuesOf st1 names) = .ok st3)
    (hnr : ∀ ev e, c.find ev st3 f e = .ok (st3, none)) (hd : Done c st3 v) :
    Evals c st (app f (body :: lists)) st3 v := by
  refine hcall.evals hc ?_ hnr hd
  obtain ⟨N, hN⟩ := iterRun_spec hc hsort (find := c.find) (act := fun ev => foldAct op ev body) (by
    rintro s acc s' acc' ⟨sm, b, hb, ho⟩
    obtain ⟨N, hN⟩ := hb.at hc
    obtain ⟨M, hM⟩ := ho.at hc
    exact ⟨max N M, fun n hn => by simp only [foldAct, hN n (by omega), Res.bind]; rw [app] at hM; rw [hM n (by omega)]⟩) hlen hi hv hres
  refine ⟨N, fun n hn => ?_⟩
  obtain ⟨l, ls, rfl⟩ := List.exists_cons_of_ne_nil hne
  simp only [foldFn, hN n hn, Res.bind, foldResult]

/-- For each row in turn the variables get these values and the body gives an integer; the integers are collected. -/
inductive VisitsInts (c : Ctx) (strLen : Ex → Nat) (body : Ex) (vars : List Ex) : EState → List (List Ex) → EState → List Int → Prop
  | nil {st} : VisitsInts c strLen body vars st [] st []
  | cons {st row st1 st2 i rows st3 is} : assignAll strLen st vars row = .ok st1 → Evals c st1 body st2 (.int i) → IntArith c st2 →
      VisitsInts c strLen body vars st2 rows st3 is → VisitsInts c strLen body vars st (row :: rows) st3 (i :: is)

/-- C32. The sum of integers: if the body has the integer values `i₁, i₂, ...` on the rows, then `Sum[body, ...]` is `i₁ + i₂ + ...` and
`Product[body, ...]` is `i₁ i₂ ...`. -/
theorem C32_sum_integers {c : Ctx} (hc : c.Mono) (hsort : ∀ l, (c.sort l).Perm l) {strLen : Ex → Nat} {st st1 st2 st3 : EState} {body : Ex} {lists : List Ex}
    {names : List String} {values : List (List Ex)} {is : List Int} (hne : lists ≠ []) (hlen : names.length = values.length)
    (hi : IterSeq c st lists st1 ((names.map Ex.sym).zip values))
    (hv : VisitsInts c strLen body (names.map Ex.sym) st1 (combinations values) st2 is)
    (hres : restoreAll strLen st2 (valuesOf st1 names) = .ok st3)
    (hnr : ∀ f ev e, c.find ev st3 f e = .ok (st3, none)) :
    (IterCall c st "System`Sum" (foldFn "System`Plus" (.int 0) strLen c.find) (body :: lists) →
      Evals c st (app "System`Sum" (body :: lists)) st3 (.int is.sum)) ∧
    (IterCall c st "System`Product" (foldFn "System`Times" (.int 1) strLen c.find) (body :: lists) →
      Evals c st (app "System`Product" (body :: lists)) st3 (.int is.prod)) := by
  have hplus : ∀ {st rows st' is}, VisitsInts c strLen body (names.map Ex.sym) st rows st' is → ∀ k : Int,
      Visits c strLen (fun s acc s' acc' => ∃ sm b, Evals c s body sm b ∧ Evals c sm (app "System`Plus" [acc, b]) s' acc') (names.map Ex.sym) st (.int k)
        rows st' (.int (k + is.sum)) := by
    intro st rows st' is h
    induction h with
    | nil => intro k; simpa using Visits.nil
    | @cons _ _ _ _ i _ _ _ h1 h2 h3 _ ih =>
      intro k
      refine .cons h1 ⟨_, _, h2, evals_plus hc hsort h3 k _⟩ h3 ?_
      have := ih (k + i)
      rw [List.sum_cons, ← Int.add_assoc]
      exact this
  have htimes : ∀ {st rows st' is}, VisitsInts c strLen body (names.map Ex.sym) st rows st' is → ∀ k : Int,
      Visits c strLen (fun s acc s' acc' => ∃ sm b, Evals c s body sm b ∧ Evals c sm (app "System`Times" [acc, b]) s' acc') (names.map Ex.sym) st (.int k)
        rows st' (.int (k * is.prod)) := by
    intro st rows st' is h
    induction h with
    | nil => intro k; simpa using Visits.nil
    | @cons _ _ _ _ i _ _ _ h1 h2 h3 _ ih =>
      intro k
      refine .cons h1 ⟨_, _, h2, evals_times hc hsort h3 k _⟩ h3 ?_
      have := ih (k * i)
      rw [List.prod_cons, ← Int.mul_assoc]
      exact this
  constructor
  · intro hcall
    have := hplus hv 0
    rw [Int.zero_add] at this
    exact C32_sum hc hsort hne hlen (.inl ⟨rfl, rfl, rfl⟩) hcall hi this hres (hnr _) (done_intE _ _)
  · intro hcall
    have := htimes hv 1
    rw [Int.one_mul] at this
    exact C32_sum hc hsort hne hlen (.inr ⟨rfl, rfl, rfl⟩) hcall hi this hres (hnr _) (done_intE _ _)

/-- C32. Nothing is visited if one iterator is empty: `Table` gives `{}` without evaluating the body (which is arbitrary here). -/
theorem C32_empty {c : Ctx} (hc : c.Mono) (hsort : ∀ l, (c.sort l).Perm l) {strLen : Ex → Nat} {st st1 st3 : EState} {body : Ex} {lists : List Ex}
    {names : List String} {values : List (List Ex)} (hne : lists ≠ []) (hlen : names.length = values.length) (hemp : [] ∈ values)
    (hcall : IterCall c st "System`Table" (tableFn strLen c.find) (body :: lists))
    (hi : IterSeq c st lists st1 ((names.map Ex.sym).zip values))
    (hres : restoreAll strLen st1 (valuesOf st1 names) = .ok st3)
    (hnr : ∀ ev e, c.find ev st3 "System`Table" e = .ok (st3, none)) (hd : Done c st3 (app "System`List" [])) :
    Evals c st (app "System`Table" (body :: lists)) st3 (app "System`List" []) := by
  have h0 : combinations values = [] := by
    clear hlen hi
    induction values with
    | nil => simp at hemp
    | cons l ls ih =>
      rcases List.mem_cons.1 hemp with h | h
      · subst h; simp [combinations]
      · simp [combinations, ih h]
  exact C32_table hc hsort hne hlen hcall hi (by rw [h0]; exact .nil) hres hnr hd

/-- C32. An iterator whose bounds do not evaluate to numbers (for example because they mention an earlier iteration variable: the bounds are evaluated
once, before any variable gets a value) makes `Table` return the call as it is, if it is not a list either. -/
theorem C32_dependent {c : Ctx} (hc : c.Mono) (hsort : ∀ l, (c.sort l).Perm l) {strLen : Ex → Nat} {st st1 st2 : EState} {body v w : Ex} {first : List Ex}
    {rest : List Ex} {vals} {lo : List Ex}
    (hcall : IterCall c st "System`Table" (tableFn strLen c.find) (body :: (first ++ app "System`List" (v :: lo) :: rest)))
    (hi : IterSeq c st first st1 vals) {ws : List Ex} (hw : EvalSeq c (fun _ => False) 2 st1 lo st2 ws) (hwm : w ∈ ws) (hnum : w.numberQ = false)
    (hlist : hasHead "System`List" w = false)
    (hnr : ∀ ev e, c.find ev st2 "System`Table" e = .ok (st2, none))
    (hd : Done c st2 (app "System`Table" (body :: (first ++ app "System`List" (v :: lo) :: rest)))) :
    Evals c st (app "System`Table" (body :: (first ++ app "System`List" (v :: lo) :: rest))) st2
      (app "System`Table" (body :: (first ++ app "System`List" (v :: lo) :: rest))) := by
  refine hcall.evals hc ?_ hnr hd
  have hparse : parseIter (v :: ws) = none := by
    have hb : ∀ lo hi step : Ex, w = lo ∨ w = hi ∨ w = step → rangeSpec v lo hi step = none := by
      intro lo hi step h
      unfold rangeSpec
      cases iterName v with
      | none => rfl
      | some s => rcases h with rfl | rfl | rfl <;> simp [hnum]
    match ws, hwm with
    | [a], h =>
      simp only [List.mem_singleton] at h; subst h
      simp only [parseIter, hb _ _ _ (.inr (.inl rfl)), listSpec, (argsOf_noneE _ _).2 hlist]
      cases iterName v <;> rfl
    | [a, b], h =>
      simp only [List.mem_cons, List.not_mem_nil, or_false] at h
      exact hb _ _ _ (by tauto)
    | [a, b, d], h =>
      simp only [List.mem_cons, List.not_mem_nil, or_false] at h
      exact hb _ _ _ h
    | _ :: _ :: _ :: _ :: _, _ => rfl
  obtain ⟨M, hM⟩ := evalAll_of_evalSeq hc hw
  have hspecs : ∃ N, ∀ n, N ≤ n → specsFromLists (eval c n) st (first ++ app "System`List" (v :: lo) :: rest) = .ok (st2, none) := by
    clear hcall hd
    induction hi with
    | nil =>
      refine ⟨M, fun n hn => ?_⟩
      simp [specsFromLists, specFromList, iterCandidate, app, argsOf, hM n hn, Res.bind, hparse]
    | cons h1 ha hv _ ih =>
      obtain ⟨N, hN⟩ := ih hw hM
      obtain ⟨it, -, K, hK⟩ := specFromList_spec hc hsort h1 ha hv
      refine ⟨max N K, fun n hn => ?_⟩
      simp [specsFromLists, hK n (by omega), hN n (by omega), Res.bind]
  obtain ⟨N, hN⟩ := hspecs
  refine ⟨N, fun n hn => ?_⟩
  obtain ⟨l, ls, hls⟩ := List.exists_cons_of_ne_nil (show first ++ app "System`List" (v :: lo) :: rest ≠ [] by simp)
  have hN' := hN n hn
  rw [hls] at hN' ⊢
  simp [tableFn, iterRun, hN', Res.bind, tableResult, app]

/-! ### C33: ranges -/

/-- C33. What `progression lo hi step` is, for `step > 0`: the numbers `lo + k step` (`k = 0, 1, ...`) that do not exceed `hi`, in this order, each
once. -/
theorem C33_progression (lo hi step : Int) (hs : 0 < step) :
    (∀ k : Nat, (progression lo hi step)[k]? = if lo + k * step ≤ hi then some (.int (lo + k * step)) else none) ∧
    (progression lo hi step).length = (if hi < lo then 0 else ((hi - lo) / step).toNat + 1) := by
  refine ⟨fun k => ?_, by simp [progression, progressionLength]⟩
  induction k generalizing lo with
  | zero =>
    by_cases h : lo ≤ hi
    · rw [progression_cons h hs]; simp [h]
    · rw [progression_nil (by omega)]; simp [h]
  | succ k ih =>
    by_cases h : lo ≤ hi
    · rw [progression_cons h hs, List.getElem?_cons_succ, ih (lo + step)]
      have e : lo + step + (k : Int) * step = lo + ((k + 1 : Nat) : Int) * step := by push_cast; ring
      rw [e]
    · rw [progression_nil (by omega), if_neg]
      · simp
      · have : (0 : Int) ≤ ((k + 1 : Nat) : Int) * step := by positivity
        omega

/-- The conditions under which `Range[...]` with integers is considered. -/
structure RangeCall (c : Ctx) (st : EState) : Prop extends Builtin c st "System`Range" rangeFn where
  attrs : attrsOf st "System`Range" = { listable := true, prot := true }
  noMark : ∀ args, c.skip st (app "System`Range" args) = false
  noRule : ∀ ev e, c.find ev st "System`Range" e = .ok (st, none)
  arith : IntArith c st
  list : FreeHead c st "System`List"
  listAttrs : (attrsOf st "System`List").noRearrange = true
  listMark : ∀ args, c.skip st (app "System`List" args) = false

theorem pass_range {c : Ctx} (hc : c.Mono) {st : EState} (h : RangeCall c st) (is : List Int) :
    ∃ N, ∀ n, N ≤ n → pass c n (eval c n) st (.sym "System`Range" :: is.map Ex.int) =
      applyDefs c n (eval c n) "System`Range" st (.sym "System`Range" :: is.map Ex.int) (app "System`Range" (is.map Ex.int)) := by
  have hseq : EvalSeq c (holds (attrsOf st "System`Range")) 1 st (is.map Ex.int) st (is.map Ex.int) :=
    evalSeq_self h.arith.notThrown _ 1 (fun j hj _ => by rw [List.getElem_map]; exact done_intE _ _)
  obtain ⟨N, hN⟩ := evalArgs_app hc h.noValue h.arith.notThrown _ hseq
  refine ⟨N, fun n hn => ?_⟩
  have hcond : conditional (attrsOf st "System`Range") (.sym "System`Range" :: is.map Ex.int) = none := by simp [conditional, h.attrs]
  have hthr : threadExpr (.sym "System`Range" :: is.map Ex.int) = none := by
    have : listLengths (is.map Ex.int) = [] := by
      unfold listLengths
      rw [List.filterMap_eq_nil_iff]
      intro a ha
      obtain ⟨i, -, rfl⟩ := List.mem_map.1 ha
      rfl
    simp [threadExpr, this]
  have hpl : ∀ p ∈ (Ex.sym "System`Range" :: is.map Ex.int), plainPart (attrsOf st "System`Range") p := by
    intro p hp
    rcases List.mem_cons.1 hp with rfl | hp
    · exact plain_sym _ _
    · obtain ⟨i, -, rfl⟩ := List.mem_map.1 hp
      exact ⟨.inr (.inr rfl), .inr rfl, rfl⟩
  simp only [pass, headAttrs, hcond, hN n hn, Res.bind, callSym, afterArgs, Option.isSome, spliceParts_plain _ _ _ _ hpl]
  simp only [symbolCase, h.attrs, if_true, Bool.false_eq_true, if_false, hthr, app]

theorem rangeLoop_spec {c : Ctx} (hc : c.Mono) (hsort : ∀ l, (c.sort l).Perm l) {st : EState} (ha : IntArith c st) {v all} :
    ∀ (rest : List Ex) (it : IterSpec), At it v all rest → ∃ N, ∀ n, N ≤ n → ∀ k, rest.length < k → ∀ acc,
      rangeLoop (eval c n) k st it acc = .ok (st, acc ++ rest)
  | [], it, h => ⟨0, fun n _ k hk acc => by
      obtain ⟨k, rfl⟩ : ∃ m, k = m + 1 := ⟨k - 1, by omega⟩
      have : it.cont = false := by have := h.cont; simpa using this
      simp [rangeLoop, this]⟩
  | x :: rest, it, h => by
    obtain ⟨it', h', N, hN⟩ := h.next hc hsort ha
    obtain ⟨M, hM⟩ := rangeLoop_spec hc hsort ha rest it' h'
    refine ⟨max N M, fun n hn k hk acc => ?_⟩
    obtain ⟨k, rfl⟩ : ∃ m, k = m + 1 := ⟨k - 1, by omega⟩
    simp only [List.length_cons] at hk
    simp [rangeLoop, h.cont.2 (by simp), h.curr, Res.ofOption, Res.bind, hN n (by omega), hM n (by omega) k (by omega)]

theorem done_list_ints {c : Ctx} (hc : c.Mono) (hs : ∀ e, c.same e e = true) {st : EState} (h : RangeCall c st) (xs : List Ex) (hx : ∀ x ∈ xs, ∃ i, x = .int i) :
    Done c st (app "System`List" xs) := by
  refine C26_arguments hc hs xs xs (h.listMark _) h.list h.list rfl h.arith.notThrown h.arith.notThrown h.listAttrs
    (evalSeq_self h.arith.notThrown _ 1 (fun j hj _ => ?_)) ?_ (fun j hj _ => ?_)
  · obtain ⟨i, hi⟩ := hx _ (List.getElem_mem hj)
    rw [hi]; exact done_intE _ _
  · intro a ha
    obtain ⟨i, rfl⟩ := hx a ha
    exact ⟨.inr (.inr rfl), .inr rfl, rfl⟩
  · obtain ⟨i, hi⟩ := hx _ (List.getElem_mem hj)
    rw [hi]; exact done_intE _ _

theorem range_evals {c : Ctx} (hc : c.Mono) (hs : ∀ e, c.same e e = true) (hsort : ∀ l, (c.sort l).Perm l) {st : EState} (h : RangeCall c st)
    {is : List Int} {it : IterSpec} {xs : List Ex}
    (hp : parseIter (S "$DUMMY" :: is.map Ex.int) = some it)
    (hrun : ∃ N, ∀ n, N ≤ n → ∃ it', it.reset (eval c n) st = .ok (st, it') ∧ ∀ k, xs.length < k → rangeLoop (eval c n) k st it' [] = .ok (st, xs))
    (hx : ∀ x ∈ xs, ∃ i, x = .int i) : Evals c st (app "System`Range" (is.map Ex.int)) st (app "System`List" xs) := by
  obtain ⟨N, hN⟩ := pass_range hc h is
  obtain ⟨M, hM⟩ := hrun
  obtain ⟨K, hK⟩ := evalAll_of_evalSeq hc (evalSeq_self (c := c) (held := fun _ => False) h.arith.notThrown (is.map Ex.int) 2
    (fun j hj _ => by rw [List.getElem_map]; exact done_intE _ _))
  refine evals_of_pass_done hc (N := max (max N M) (max K (xs.length + 1))) (h.noMark _) (fun n hn => ?_) (done_list_ints hc hs h xs hx)
  rw [hN n (by omega)]
  have hr : rangeFn n (eval c n) st (.sym "System`Range" :: is.map Ex.int) = .ok (st, app "System`List" xs) := by
    obtain ⟨it', h1, h2⟩ := hM n (by omega)
    have h3 := h2 n (by omega)
    simp [rangeFn, specFromList, iterCandidate, argsOf, S, hK n (by omega), Res.bind, app, h1, h3]
    have hp' := hp
    simp only [S] at hp'
    simp [show "System`" ++ "$DUMMY" = "System`$DUMMY" from rfl] at hp'
    simp [hp', h1, h3]
  simp only [applyDefs, h.builtin, h.fn, if_true, hr, Res.bind]
  split
  · rw [h.noRule]
  · rfl

/-- C33. `Range[lo, hi, step]` for integers with `step > 0` is the list of `lo, lo + step, ...` up to `hi` (see `C33_progression`); in particular `{}` if
`hi < lo`. -/
theorem C33_range {c : Ctx} (hc : c.Mono) (hs : ∀ e, c.same e e = true) (hsort : ∀ l, (c.sort l).Perm l) {st : EState} (h : RangeCall c st)
    (lo hi step : Int) (hst : 0 < step) :
    Evals c st (app "System`Range" [.int lo, .int hi, .int step]) st (app "System`List" (progression lo hi step)) ∧
    Evals c st (app "System`Range" [.int lo, .int hi]) st (app "System`List" (progression lo hi 1)) ∧
    Evals c st (app "System`Range" [.int hi]) st (app "System`List" (progression 1 hi 1)) := by
  have hx : ∀ lo hi step : Int, ∀ x ∈ progression lo hi step, ∃ i, x = .int i := by
    intro lo hi step x hx
    obtain ⟨k, -, rfl⟩ := List.mem_map.1 hx
    exact ⟨_, rfl⟩
  have key : ∀ (is : List Int) (xs : List Ex), IterVals (S "$DUMMY" :: is.map Ex.int) (S "$DUMMY") xs → (∀ x ∈ xs, ∃ i, x = .int i) →
      Evals c st (app "System`Range" (is.map Ex.int)) st (app "System`List" xs) := by
    intro is xs hv hx
    obtain ⟨it, rest, hp, hat⟩ := parseIter_vals hv
    obtain ⟨it', hat', N, hN⟩ := hat.reset hc hsort h.arith
    obtain ⟨M, hM⟩ := rangeLoop_spec hc hsort h.arith _ it' hat'
    refine range_evals hc hs hsort h hp ⟨max N M, fun n hn => ⟨it', hN n (by omega), fun k hk => ?_⟩⟩ hx
    simpa using hM n (by omega) k hk []
  exact ⟨key [lo, hi, step] _ (.by _ lo hi step rfl hst) (hx _ _ _), key [lo, hi] _ (.fromTo _ lo hi rfl) (hx _ _ _),
    key [hi] _ (.upTo _ hi rfl) (hx _ _ _)⟩

/-- C33. A range that starts above its end is empty, whatever the step is: also `Range[5, 1, -1]` is `{}`. -/
theorem C33_empty {c : Ctx} (hc : c.Mono) (hs : ∀ e, c.same e e = true) (hsort : ∀ l, (c.sort l).Perm l) {st : EState} (h : RangeCall c st)
    (lo hi step : Int) (hlt : hi < lo) : Evals c st (app "System`Range" [.int lo, .int hi, .int step]) st (app "System`List" []) := by
  obtain ⟨N, hN⟩ := (evals_resetExpr hc hsort h.arith lo step).at hc
  refine range_evals (is := [lo, hi, step]) hc hs hsort h
    (it := .range (S "$DUMMY") "System`$DUMMY" (.int lo) (.int hi) (.int step) (.int lo)) rfl
    ⟨N, fun n hn => ⟨.range (S "$DUMMY") "System`$DUMMY" (.int lo) (.int hi) (.int step) (.int lo), ?_, fun k hk => ?_⟩⟩ (by simp)
  · simp [IterSpec.reset, hN n hn, Res.bind]
  · obtain ⟨k, rfl⟩ : ∃ m, k = m + 1 := ⟨k - 1, by omega⟩
    have : IterSpec.cont (.range (S "$DUMMY") "System`$DUMMY" (.int lo) (.int hi) (.int step) (.int lo)) = false := by
      simp only [IterSpec.cont, decide_eq_false_iff_not, exOrder_int_nonneg]; omega
    simp [rangeLoop, this]

theorem Evals.stuck_or {c : Ctx} (hc : c.Mono) {st e st' v} (h : Evals c st e st' v) (n : Nat) : eval c n st e = .stuck ∨ eval c n st e = .ok (st', v) := by
  obtain ⟨N, hN⟩ := h.at hc
  rcases eval_mono hc (Nat.le_max_left n N) st e with h | h
  · exact .inl h
  · exact .inr (by rw [h]; exact hN _ (by omega))

theorem rangeLoop_stuck {c : Ctx} (hc : c.Mono) (hsort : ∀ l, (c.sort l).Perm l) {st : EState} (ha : IntArith c st) (n : Nat) {v : Ex} {s : String}
    {lo hi step : Int} (hst : step ≤ 0) : ∀ (k : Nat) (cur : Int) (acc : List Ex), cur ≤ hi →
      rangeLoop (eval c n) k st (.range v s (.int lo) (.int hi) (.int step) (.int cur)) acc = .stuck
  | 0, _, _, _ => rfl
  | k + 1, cur, acc, hcur => by
    have hcont : IterSpec.cont (.range v s (.int lo) (.int hi) (.int step) (.int cur)) = true := by
      simp only [IterSpec.cont, decide_eq_true_eq, exOrder_int_nonneg]; exact hcur
    simp only [rangeLoop, hcont, if_true, IterSpec.curr, Res.ofOption, Res.bind, IterSpec.next]
    rcases (evals_plus hc hsort ha cur step).stuck_or hc n with h | h
    · rw [h]
    · rw [h]
      exact rangeLoop_stuck hc hsort ha n hst k (cur + step) _ (by omega)

/-- C33. A range with a step that is zero or negative never ends unless it is empty from the start: `Range[1, 5, 0]` and `Range[1, 5, -1]` loop for ever. -/
theorem C33_diverges {c : Ctx} (hc : c.Mono) (hsort : ∀ l, (c.sort l).Perm l) {st : EState} (h : RangeCall c st) (lo hi step : Int) (hle : lo ≤ hi)
    (hst : step ≤ 0) : Diverges c st (app "System`Range" [.int lo, .int hi, .int step]) := by
  intro n
  obtain ⟨N, hN⟩ := pass_range hc h [lo, hi, step]
  obtain ⟨K, hK⟩ := evalAll_of_evalSeq hc (evalSeq_self (c := c) (held := fun _ => False) h.arith.notThrown ([lo, hi, step].map Ex.int) 2
    (fun j hj _ => by rw [List.getElem_map]; exact done_intE _ _))
  obtain ⟨M, hM⟩ := (evals_resetExpr hc hsort h.arith lo step).at hc
  have key : ∀ m, max N (max K M) ≤ m → eval c (m + 1) st (app "System`Range" [.int lo, .int hi, .int step]) = .stuck := by
    intro m hm
    have hN' := hN m (by omega)
    have hK' := hK m (by omega)
    simp only [List.map_cons, List.map_nil] at hN' hK'
    have hr : rangeFn m (eval c m) st [.sym "System`Range", .int lo, .int hi, .int step] = .stuck := by
      have hres : IterSpec.reset (eval c m) st (.range (S "$DUMMY") "System`$DUMMY" (.int lo) (.int hi) (.int step) (.int lo)) =
          .ok (st, .range (S "$DUMMY") "System`$DUMMY" (.int lo) (.int hi) (.int step) (.int lo)) := by
        simp [IterSpec.reset, hM m (by omega), Res.bind]
      have hp : parseIter [S "$DUMMY", .int lo, .int hi, .int step] =
        some (.range (S "$DUMMY") "System`$DUMMY" (.int lo) (.int hi) (.int step) (.int lo)) := rfl
      have hcand : iterCandidate (eval c m) st (.expr [S "List", S "$DUMMY", .int lo, .int hi, .int step]) =
          .ok (st, some [S "$DUMMY", .int lo, .int hi, .int step]) := by
        have ha : argsOf "System`List" (.expr [S "List", S "$DUMMY", .int lo, .int hi, .int step]) = some [S "$DUMMY", .int lo, .int hi, .int step] := rfl
        simp only [iterCandidate, ha, hK', Res.bind]
      simp only [rangeFn, specFromList, List.tail_cons, hcand, Res.bind, Option.bind, hp, hres, rangeLoop_stuck hc hsort h.arith m hst m lo [] hle]
    rw [app, eval_expr]
    unfold evalLoop
    rw [if_neg (by simp [unchanged])]
    simp only [Bool.false_eq_true, if_false]
    have hsk := h.noMark [.int lo, .int hi, .int step]
    rw [app] at hsk
    rw [if_neg (by simp [hsk]), hN']
    simp only [applyDefs, h.builtin, h.fn, if_true, hr, Res.bind]
  rcases eval_mono hc (Nat.le_max_left n (max N (max K M) + 1)) st (app "System`Range" [.int lo, .int hi, .int step]) with h | h
  · exact h
  · rw [h]
    obtain ⟨m, hm⟩ : ∃ m, max n (max N (max K M) + 1) = m + 1 := ⟨max n (max N (max K M) + 1) - 1, by omega⟩
    rw [hm]
    exact key m (by omega)

/-! ### C74: the variables of iteration -/

theorem restore_ok (strLen : Ex → Nat) {st1 : EState} (names : List String) (hx : ∀ x ∈ names, x ≠ "")
    (hu : ∀ x ∈ names, ∀ d, getSymDef st1.toDState x = some d → Unconditional d) : ∀ st2 : EState, st2.frozen = false →
    (∀ x ∈ names, PlainRules x (rulesFor st2.toDState x)) →
    ∃ st3, restoreAll strLen st2 (valuesOf st1 names) = .ok st3 ∧ (∀ x ∈ names, getSymDef st3.toDState x = getSymDef st1.toDState x) ∧
      (∀ x ∈ names, getSymDef st1.toDState x = none → rulesFor st3.toDState x = [] ∧ attrsOf st3 x = {}) ∧
      (∀ s, s ∉ names → st3.defs s = st2.defs s) ∧ st3.thrown = st2.thrown := by
  induction names with
  | nil => intro st2 _ _; exact ⟨st2, rfl, by simp, by simp, by simp, rfl⟩
  | cons a l ih =>
    intro st2 hf hp
    have ih := ih (fun x h => hx x (by simp [h])) (fun x h => hu x (by simp [h]))
    have hrules : ∀ {s s' : DState} {n : String}, s'.defs n = s.defs n → rulesFor s' n = rulesFor s n := fun h => by simp [rulesFor, h]
    have step : ∃ d' : DState, (getSymDef d' a = getSymDef st1.toDState a ∧ (getSymDef st1.toDState a = none → rulesFor d' a = [] ∧
        attrsOf { st2 with toDState := d' } a = {}) ∧ PlainRules a (rulesFor d' a) ∧ d'.frozen = false ∧ ∀ n, n ≠ a → d'.defs n = st2.defs n) ∧
        restoreAll strLen st2 (valuesOf st1 (a :: l)) = restoreAll strLen { st2 with toDState := d' } (valuesOf st1 l) := by
      cases hd : getSymDef st1.toDState a with
      | some d =>
        obtain ⟨d', h1, h2, h3, h4, h5⟩ := define_symbol (strLen := strLen) (hx a (by simp)) hf (hp a (by simp)) (hu a (by simp) d hd)
        refine ⟨d', ⟨h2, by simp, h3, h4, h5⟩, ?_⟩
        simp [valuesOf, restoreAll, hd, defineIn, h1, Res.bind]
      | none =>
        obtain ⟨h1, h2, h3, h4⟩ := clear_symbol st2.toDState a
        refine ⟨clear st2.toDState a, ⟨h1, fun _ => ?_, h2, h3.trans hf, h4⟩, ?_⟩
        · unfold clear
          cases hda : st2.defs a with
          | none => simp [rulesFor, hda, attrsOf]
          | some d => simp [rulesFor, attrsOf, Table.set]
        · simp [valuesOf, restoreAll, hd, iterName]
    obtain ⟨d', ⟨h1, h2, h3, h4, h5⟩, h6⟩ := step
    have hp' : ∀ x ∈ l, PlainRules x (rulesFor d' x) := by
      intro x hxl
      by_cases e : x = a
      · subst e; exact h3
      · rw [hrules (h5 x e)]; exact hp x (by simp [hxl])
    obtain ⟨st3, g1, g2, g3, g4, g5⟩ := ih { st2 with toDState := d' } h4 hp'
    refine ⟨st3, h6 ▸ g1, ?_, ?_, ?_, g5⟩
    · intro x hxm
      by_cases hl : x ∈ l
      · exact g2 x hl
      · have : x = a := by simpa [hl] using hxm
        subst this
        have := g4 x hl
        rw [← h1]
        simp only [getSymDef, this]
    · intro x hxm hn
      by_cases hl : x ∈ l
      · exact g3 x hl hn
      · have : x = a := by simpa [hl] using hxm
        subst this
        obtain ⟨k1, k2⟩ := h2 hn
        have := g4 x hl
        exact ⟨by rw [hrules this]; exact k1, by simp only [attrsOf, this]; exact k2⟩
    · intro s hs
      simp only [List.mem_cons, not_or] at hs
      rw [g4 s hs.2]
      exact h5 s hs.1

/-- C74. When the loop ends normally (in the state `st2`, having started in `st1`), putting back the variables succeeds, every iteration variable has
the value it had before (or none), and no other symbol is touched; provided the old values and the present rules of the variables are plain. -/
theorem C74_restored_partial (strLen : Ex → Nat) (st1 st2 : EState) (names : List String) (hx : ∀ x ∈ names, x ≠ "") (hf : st2.frozen = false)
    (hu : ∀ x ∈ names, ∀ d, getSymDef st1.toDState x = some d → Unconditional d)
    (hp : ∀ x ∈ names, PlainRules x (rulesFor st2.toDState x)) :
    ∃ st3, restoreAll strLen st2 (valuesOf st1 names) = .ok st3 ∧ (∀ x ∈ names, getSymDef st3.toDState x = getSymDef st1.toDState x) ∧
      (∀ s, s ∉ names → st3.defs s = st2.defs s) := by
  obtain ⟨st3, h1, h2, -, h4, -⟩ := restore_ok strLen names hx hu st2 hf hp
  exact ⟨st3, h1, h2, h4⟩

/-- C74 for `Table`: the call ends in a state in which every iteration variable has the value it had when the iterators had been read, and every other
symbol is as the last round left it (`hnr`, `hd`: no rule of `Table`, and the list of the values is a value, in every state that differs from `st2` only
in the iteration variables). -/
theorem C74_table {c : Ctx} (hc : c.Mono) (hsort : ∀ l, (c.sort l).Perm l) {strLen : Ex → Nat} {st st1 st2 : EState} {body : Ex} {lists : List Ex}
    {names : List String} {values : List (List Ex)} {vals : List Ex} (hne : lists ≠ []) (hlen : names.length = values.length)
    (hcall : IterCall c st "System`Table" (tableFn strLen c.find) (body :: lists))
    (hi : IterSeq c st lists st1 ((names.map Ex.sym).zip values))
    (hv : Visits c strLen (fun s acc s' acc' => ∃ v, Evals c s body s' v ∧ acc' = acc ++ [v]) (names.map Ex.sym) st1 [] (combinations values) st2 vals)
    (hx : ∀ x ∈ names, x ≠ "") (hf : st2.frozen = false)
    (hu : ∀ x ∈ names, ∀ d, getSymDef st1.toDState x = some d → Unconditional d)
    (hp : ∀ x ∈ names, PlainRules x (rulesFor st2.toDState x))
    (hnr : ∀ st', (∀ s, s ∉ names → st'.defs s = st2.defs s) → ∀ ev e, c.find ev st' "System`Table" e = .ok (st', none))
    (hd : ∀ st', (∀ s, s ∉ names → st'.defs s = st2.defs s) → st'.thrown = st2.thrown → Done c st' (app "System`List" vals)) :
    ∃ st3, Evals c st (app "System`Table" (body :: lists)) st3 (app "System`List" vals) ∧
      (∀ x ∈ names, getSymDef st3.toDState x = getSymDef st1.toDState x) ∧ (∀ s, s ∉ names → st3.defs s = st2.defs s) := by
  obtain ⟨st3, h1, h2, -, h4, h5⟩ := restore_ok strLen names hx hu st2 hf hp
  exact ⟨st3, C32_table hc hsort hne hlen hcall hi hv h1 (hnr st3 h4) (hd st3 h4 h5), h2, h4⟩

/-- C74. But an iteration variable that had no value loses everything else: `f[x_] := x; Table[1, {f, 3}]` deletes the rules of `f`, and its attributes. -/
theorem C74_rules_lost (strLen : Ex → Nat) (st1 st2 : EState) (names : List String) (hx : ∀ x ∈ names, x ≠ "") (hf : st2.frozen = false)
    (hu : ∀ x ∈ names, ∀ d, getSymDef st1.toDState x = some d → Unconditional d)
    (hp : ∀ x ∈ names, PlainRules x (rulesFor st2.toDState x)) (x : String) (hm : x ∈ names) (hn : getSymDef st1.toDState x = none) :
    ∃ st3, restoreAll strLen st2 (valuesOf st1 names) = .ok st3 ∧ rulesFor st3.toDState x = [] ∧ attrsOf st3 x = {} := by
  obtain ⟨st3, h1, -, h3, -⟩ := restore_ok strLen names hx hu st2 hf hp
  exact ⟨st3, h1, h3 x hm hn⟩

/-- C74. A `Do` that is left by a throw does not put back its variables: the final state is the state of the throw, in which the variables have the
values of that round (`Catch[Do[Throw[1], {i, 5}]]` leaves `i = 1`). -/
theorem C74_throw_leaks {c : Ctx} (hc : c.Mono) (hsort : ∀ l, (c.sort l).Perm l) {strLen : Ex → Nat} {st st1 st2 st3 st4 : EState} {body v : Ex} {lists : List Ex}
    {names : List String} {values rows post : List (List Ex)} {row : List Ex} {f : String} {targs : List Ex} (hne : lists ≠ [])
    (hlen : names.length = values.length)
    (hcall : IterCall c st "System`Do" (doFn strLen c.find) (body :: lists))
    (hi : IterSeq c st lists st1 ((names.map Ex.sym).zip values)) (hrows : combinations values = rows ++ row :: post)
    (hv : Visits c strLen (fun s _ s' _ => ∃ v, Evals c s body s' v ∧ s'.thrown = none ∧ hasHead "System`Return" v = false) (names.map Ex.sym) st1 ()
      rows st2 ())
    (hrow : assignAll strLen st2 (names.map Ex.sym) row = .ok st3) (hb : Evals c st3 body st4 v) (ht : st4.thrown = some (app f targs))
    (hnr : ∀ ev e, c.find ev st4 "System`Do" e = .ok (st4, none)) (hd : Done c st4 (app f targs)) :
    Evals c st (app "System`Do" (body :: lists)) st4 (app f targs) := by
  refine hcall.evals hc ?_ hnr hd
  obtain ⟨N, hN⟩ := iterRun_exit hc hsort (find := c.find) (act := fun ev => doAct ev body) (by
    rintro s acc s' acc' ⟨v, hv, ht, hr⟩
    obtain ⟨N, hN⟩ := hv.at hc
    have hr' : returned v = none := by simp [returned, (argsOf_noneE _ _).2 hr]
    exact ⟨N, fun n hn => by simp [doAct, hN n hn, Res.bind, ht, hr']⟩) hlen hi hrows hv hrow (t := app f targs) (st4 := st4) (by
      obtain ⟨N, hN⟩ := hb.at hc
      exact ⟨N, fun n hn => by simp [doAct, hN n hn, Res.bind, ht]⟩)
  refine ⟨N, fun n hn => ?_⟩
  obtain ⟨l, ls, rfl⟩ := List.exists_cons_of_ne_nil hne
  simp only [doFn, hN n hn, Res.bind, doResult]

end Expreduce
