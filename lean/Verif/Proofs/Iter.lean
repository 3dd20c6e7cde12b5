import Verif.Spec.Iter
import Verif.Proofs.EvalFlow
import Verif.Proofs.Order

/-! Iterators: what they enumerate. -/

namespace Expreduce
open Ex

/-! ### Integer arithmetic by the evaluator -/

theorem plusEval_ints (toN : Ex → Ex) (a b : Int) : plusEval toN [.int a, .int b] = .int (a + b) := by
  simp [plusEval, computeNumericPart, cnpF, accLoop, accStep, typedRealPart, opInt]

theorem timesEval_ints (toN : Ex → Ex) (a b : Int) : timesEval toN [.int a, .int b] = .int (a * b) := by
  simp [timesEval, computeNumericPart, cnpF, accLoop, accStep, typedRealPart, opInt]

theorem done_intE {c : Ctx} (st : EState) (a : Int) : Done c st (.int a) := ⟨1, rfl⟩

theorem perm_two {l : List Ex} {a b : Ex} (h : l.Perm [a, b]) : l = [a, b] ∨ l = [b, a] := by
  have hl := h.length_eq
  match l, hl with
  | [x, y], _ =>
    have hx : x = a ∨ x = b := by
      have := (h.mem_iff (a := x)).1 (by simp)
      simpa using this
    rcases hx with rfl | rfl
    · have := List.perm_cons x |>.1 h
      simp at this; subst this; exact .inl rfl
    · have h' : [x, y].Perm [x, a] := h.trans (List.Perm.swap _ _ _)
      have := List.perm_cons x |>.1 h'
      simp at this; subst this; exact .inr rfl

theorem evals_intOp {c : Ctx} (hc : c.Mono) (hsort : ∀ l, (c.sort l).Perm l) {st : EState} {f : String} {F} (h : IntOp c st f F)
    (ht : st.thrown = none) {args : List Ex} {a b r : Int} (hcond : propagate (.sym f :: args) = none)
    (hseq : EvalSeq c (fun _ => False) 1 st args st [.int a, .int b])
    (hab : F [.int a, .int b] = .int r) (hba : F [.int b, .int a] = .int r) : Evals c st (app f args) st (.int r) := by
  have hnh : ∀ i, ¬ holds (attrsOf st f) i := by
    intro i hi
    obtain ⟨h1, h2, h3, h4⟩ := h.noHold
    simp [holds, h1, h2, h3, h4] at hi
  have hseq' : EvalSeq c (holds (attrsOf st f)) 1 st args st [.int a, .int b] := by
    have : holds (attrsOf st f) = fun _ => False := by funext i; simp [hnh i]
    rw [this]; exact hseq
  obtain ⟨N, hN⟩ := evalArgs_app hc h.noValue ht _ hseq'
  refine evals_of_pass_done hc (N := N) (h.noMark _) (fun n hn => ?_) (done_intE _ _)
  have hcnd : conditional (attrsOf st f) (.sym f :: args) = none := by
    unfold conditional; split
    · exact hcond
    · rfl
  simp only [pass, headAttrs, hcnd, hN n hn, Res.bind, callSym, afterArgs, Option.isSome]
  rw [spliceParts_plain _ _ _ _ (by
    intro p h
    simp only [List.mem_cons, List.not_mem_nil, or_false] at h
    rcases h with rfl | rfl | rfl
    · exact plain_sym _ _
    · exact ⟨.inr (.inr rfl), .inr rfl, rfl⟩
    · exact ⟨.inr (.inr rfl), .inr rfl, rfl⟩)]
  have hflat : mergeSeq f [.sym f, .int a, .int b] = [.sym f, .int a, .int b] := by simp [mergeSeq, hasHead]
  have key : ∀ cur : List Ex, cur = [.int a, .int b] ∨ cur = [.int b, .int a] → ∀ ce : Ex,
      applyDefs c n (eval c n) f st (.sym f :: cur) ce = .ok (st, .next (.int r) false) := by
    intro cur hcur ce
    have hf : F cur = .int r := by rcases hcur with rfl | rfl <;> assumption
    have hr : ∀ ev, c.find ev st f (.expr (.sym f :: cur)) = .ok (st, none) := by
      intro ev
      rcases hcur with rfl | rfl
      · exact h.noRule ev a b
      · exact h.noRule ev b a
    simp only [applyDefs, h.builtin, h.fn, if_true, Res.bind, List.tail_cons, hf]
    split
    · rw [hr]
    · rfl
  have hthr : ∀ cur : List Ex, cur = [.int a, .int b] ∨ cur = [.int b, .int a] → threadExpr (.sym f :: cur) = none := by
    rintro cur (rfl | rfl) <;> simp [threadExpr, listLengths, argsOf]
  have hcur : ∃ cur, (cur = [Ex.int a, .int b] ∨ cur = [.int b, .int a]) ∧
      (if (attrsOf st f).orderless then sortArgs c [.sym f, .int a, .int b] else [.sym f, .int a, .int b]) = .sym f :: cur := by
    split
    · exact ⟨c.sort [.int a, .int b], perm_two (hsort _), rfl⟩
    · exact ⟨_, .inl rfl, rfl⟩
  obtain ⟨cur, hcur, hcur'⟩ := hcur
  simp only [symbolCase, hflat, ite_self, hcur', hthr cur hcur, key cur hcur]

theorem EvalSeq.two {c : Ctx} {st : EState} (ht : st.thrown = none) {p q v w : Ex} (h1 : Evals c st p st v) (h2 : Evals c st q st w) (i : Nat) :
    EvalSeq c (fun _ => False) i st [p, q] st [v, w] :=
  .step (by simp) h1 ht (.step (by simp) h2 ht .nil)

theorem evals_plus {c : Ctx} (hc : c.Mono) (hsort : ∀ l, (c.sort l).Perm l) {st : EState} (h : IntArith c st) (a b : Int) :
    Evals c st (.expr [S "Plus", .int a, .int b]) st (.int (a + b)) := by
  obtain ⟨toN, hp⟩ := h.plus
  exact evals_intOp hc hsort hp h.notThrown (by simp [propagate, condExprArgs]) (.two h.notThrown (done_intE _ _) (done_intE _ _) 1)
    (plusEval_ints _ _ _) (by rw [plusEval_ints, Int.add_comm])

theorem evals_times {c : Ctx} (hc : c.Mono) (hsort : ∀ l, (c.sort l).Perm l) {st : EState} (h : IntArith c st) (a b : Int) :
    Evals c st (.expr [S "Times", .int a, .int b]) st (.int (a * b)) := by
  obtain ⟨toN, hp⟩ := h.times
  exact evals_intOp hc hsort hp h.notThrown (by simp [propagate, condExprArgs]) (.two h.notThrown (done_intE _ _) (done_intE _ _) 1)
    (timesEval_ints _ _ _) (by rw [timesEval_ints, Int.mul_comm])

theorem evals_resetExpr {c : Ctx} (hc : c.Mono) (hsort : ∀ l, (c.sort l).Perm l) {st : EState} (h : IntArith c st) (lo step : Int) :
    Evals c st (.expr [S "Plus", .int lo, .expr [S "Times", .int 0, .int step]]) st (.int lo) := by
  obtain ⟨toN, hp⟩ := h.plus
  have ht := evals_times hc hsort h 0 step
  rw [Int.zero_mul] at ht
  exact evals_intOp hc hsort hp h.notThrown (by simp [propagate, condExprArgs, S]) (.two h.notThrown (done_intE _ _) ht 1)
    (by rw [plusEval_ints, Int.add_zero]) (by rw [plusEval_ints, Int.zero_add])

/-! ### A single iterator -/

/-- The iterator has the variable `v`, runs over `all`, and `rest` is what is left (with the current value). -/
inductive At : IterSpec → Ex → List Ex → List Ex → Prop
  | list (v s pre rest) : iterName v = some s → At (.list v s (S "List" :: (pre ++ rest)) (pre.length + 1)) v (pre ++ rest) rest
  | range (v s lo hi step cur) : iterName v = some s → 0 < step → lo ≤ cur →
      At (.range v s (.int lo) (.int hi) (.int step) (.int cur)) v (progression lo hi step) (progression cur hi step)

theorem progression_nil {lo hi step : Int} (h : hi < lo) : progression lo hi step = [] := by
  simp [progression, progressionLength, h]

theorem progression_cons {lo hi step : Int} (h : lo ≤ hi) (hs : 0 < step) :
    progression lo hi step = .int lo :: progression (lo + step) hi step := by
  have h1 : progressionLength lo hi step = progressionLength (lo + step) hi step + 1 := by
    unfold progressionLength
    rw [if_neg (by omega)]
    have e : (hi - lo) = (hi - (lo + step)) + step := by omega
    split
    · rw [Int.ediv_eq_zero_of_lt (by omega) (by omega)]; rfl
    · rw [e, Int.add_ediv_of_dvd_right (Int.dvd_refl _), Int.ediv_self (by omega)]
      have := Int.ediv_nonneg (a := hi - (lo + step)) (b := step) (by omega) (by omega)
      omega
  unfold progression
  rw [h1, List.range_succ_eq_map]
  rw [List.map_cons, List.map_map]
  refine List.cons_eq_cons.2 ⟨by simp, ?_⟩
  apply List.map_congr_left
  intro k _
  simp only [Function.comp_apply, Ex.int.injEq]
  push_cast
  rw [Int.add_mul, Int.one_mul]
  omega

theorem exOrder_int_nonneg (a b : Int) : 0 ≤ exOrder (.int a) (.int b) ↔ a ≤ b := by
  rw [exOrder_int]; unfold cmpInt; split_ifs <;> omega

theorem At.cont {it v all rest} (h : At it v all rest) : it.cont = true ↔ rest ≠ [] := by
  cases h with
  | list v s pre rest _ =>
    cases rest <;> simp [IterSpec.cont]
  | range v s lo hi step cur _ hs _ =>
    simp only [IterSpec.cont, decide_eq_true_eq, exOrder_int_nonneg]
    by_cases h : cur ≤ hi
    · simp [h, progression_cons h hs]
    · simp [h, progression_nil (show hi < cur by omega)]

theorem At.curr {it v all x rest} (h : At it v all (x :: rest)) : it.curr = some x := by
  generalize hr : x :: rest = r at h
  cases h with
  | list v s pre _ _ => subst hr; simp [IterSpec.curr]
  | range v s lo hi step cur _ hs _ =>
    by_cases h : cur ≤ hi
    · rw [progression_cons h hs] at hr
      simp only [List.cons.injEq] at hr
      simp [IterSpec.curr, hr.1]
    · rw [progression_nil (by omega)] at hr; simp at hr

theorem At.var {it v all rest} (h : At it v all rest) : it.var = v ∧ iterName v = some it.name := by
  cases h with
  | list _ _ _ _ h => exact ⟨rfl, h⟩
  | range _ _ _ _ _ _ h => exact ⟨rfl, h⟩

theorem At.all_ne {it v all x rest} (h : At it v all (x :: rest)) : all ≠ [] := by
  generalize hr : x :: rest = r at h
  cases h with
  | list v s pre _ _ => subst hr; simp
  | range v s lo hi step cur _ hs hl =>
    by_cases h : cur ≤ hi
    · rw [progression_cons (show lo ≤ hi by omega) hs]; simp
    · rw [progression_nil (by omega)] at hr; simp at hr

theorem At.next {c : Ctx} (hc : c.Mono) (hsort : ∀ l, (c.sort l).Perm l) {st : EState} (ha : IntArith c st) {it v all x rest}
    (h : At it v all (x :: rest)) : ∃ it', At it' v all rest ∧ ∃ N, ∀ n, N ≤ n → it.next (eval c n) st = .ok (st, it') := by
  generalize hr : x :: rest = r at h
  cases h with
  | list v s pre _ hv =>
    subst hr
    refine ⟨.list v s (S "List" :: (pre ++ x :: rest)) (pre.length + 1 + 1), ?_, 0, fun n _ => rfl⟩
    have := At.list v s (pre ++ [x]) rest hv
    simpa using this
  | range v s lo hi step cur hv hs hl =>
    by_cases h : cur ≤ hi
    · rw [progression_cons h hs] at hr
      simp only [List.cons.injEq] at hr
      obtain ⟨N, hN⟩ := (evals_plus hc hsort ha cur step).at hc
      rw [hr.2]
      refine ⟨_, .range v s lo hi step (cur + step) hv hs (by omega), N, fun n hn => ?_⟩
      simp [IterSpec.next, hN n hn, Res.bind]
    · rw [progression_nil (by omega)] at hr; simp at hr

theorem At.reset {c : Ctx} (hc : c.Mono) (hsort : ∀ l, (c.sort l).Perm l) {st : EState} (ha : IntArith c st) {it v all rest}
    (h : At it v all rest) : ∃ it', At it' v all all ∧ ∃ N, ∀ n, N ≤ n → it.reset (eval c n) st = .ok (st, it') := by
  cases h with
  | list v s pre rest hv => exact ⟨_, .list v s [] (pre ++ rest) hv, 0, fun n _ => rfl⟩
  | range v s lo hi step cur hv hs hl =>
    obtain ⟨N, hN⟩ := (evals_resetExpr hc hsort ha lo step).at hc
    refine ⟨_, .range v s lo hi step lo hv hs (le_refl _), N, fun n hn => ?_⟩
    simp [IterSpec.reset, hN n hn, Res.bind]

/-! ### Several iterators -/

/-- The iterators have these variables, values and remaining values. -/
inductive AtAll : List IterSpec → List Ex → List (List Ex) → List (List Ex) → Prop
  | nil : AtAll [] [] [] []
  | cons {it v all rest its vs alls rests} : At it v all rest → AtAll its vs alls rests → AtAll (it :: its) (v :: vs) (all :: alls) (rest :: rests)

/-- The rows that are left. -/
def remaining : List (List Ex) → List (List Ex) → List (List Ex)
  | (x :: r) :: rests, _ :: alls => (remaining rests alls).map (x :: ·) ++ r.flatMap (fun y => (combinations alls).map (y :: ·))
  | [], _ => [[]]
  | _, _ => []

theorem remaining_all (alls : List (List Ex)) : remaining alls alls = combinations alls := by
  induction alls with
  | nil => rfl
  | cons l ls ih => cases l <;> simp [remaining, combinations, ih]

theorem combinations_ne {alls : List (List Ex)} (h : ∀ l ∈ alls, l ≠ []) : combinations alls ≠ [] := by
  induction alls with
  | nil => simp [combinations]
  | cons l ls ih =>
    have h1 := h l (by simp)
    have h2 := ih (fun l hl => h l (by simp [hl]))
    cases l with
    | nil => exact absurd rfl h1
    | cons x l => simp [combinations, h2]

theorem AtAll.all_cont {its vs alls rests} (h : AtAll its vs alls rests) : its.all IterSpec.cont = true ↔ ∀ r ∈ rests, r ≠ [] := by
  induction h with
  | nil => simp
  | cons h _ ih => simp only [List.all_cons, Bool.and_eq_true, h.cont, ih]; simp

theorem AtAll.alls_ne {its vs alls rests} (h : AtAll its vs alls rests) (hr : ∀ r ∈ rests, r ≠ []) : ∀ l ∈ alls, l ≠ [] := by
  induction h with
  | nil => simp
  | @cons it v all rest its vs alls rests h _ ih =>
    intro l hl
    rcases List.mem_cons.1 hl with rfl | hl
    · cases rest with
      | nil => exact absurd rfl (hr _ (by simp))
      | cons x r => exact h.all_ne
    · exact ih (fun r hr' => hr r (by simp [hr'])) l hl

/-- The row of the current values. -/
def currentRow (rests : List (List Ex)) : List Ex := rests.filterMap List.head?

theorem remaining_eq {its vs alls rests} (h : AtAll its vs alls rests) (hr : ∀ r ∈ rests, r ≠ []) :
    ∃ tl, remaining rests alls = currentRow rests :: tl := by
  induction h with
  | nil => exact ⟨[], rfl⟩
  | @cons it v all rest its vs alls rests h _ ih =>
    obtain ⟨tl, htl⟩ := ih (fun r hr' => hr r (by simp [hr']))
    cases rest with
    | nil => exact absurd rfl (hr _ (by simp))
    | cons x r => simp [remaining, htl, currentRow]

theorem multiNext_spec {c : Ctx} (hc : c.Mono) (hsort : ∀ l, (c.sort l).Perm l) {st : EState} (ha : IntArith c st) {its vs alls rests}
    (h : AtAll its vs alls rests) (hr : ∀ r ∈ rests, r ≠ []) {row tl} (hrem : remaining rests alls = row :: tl) :
    ∃ its' rests', AtAll its' vs alls rests' ∧ (∀ r ∈ rests', r ≠ []) ∧ remaining rests' alls = (if tl = [] then combinations alls else tl) ∧
      ∃ N, ∀ n, N ≤ n → multiNext (eval c n) st its = .ok (st, its', decide (tl ≠ [])) := by
  induction h generalizing row tl with
  | nil =>
    simp only [remaining, List.cons.injEq] at hrem
    obtain ⟨-, rfl⟩ := hrem
    exact ⟨[], [], .nil, by simp, by simp [remaining, combinations], 0, fun n _ => rfl⟩
  | @cons it v all rest its vs alls rests h hs ih =>
    have hr' : ∀ r ∈ rests, r ≠ [] := fun r hr' => hr r (by simp [hr'])
    obtain ⟨x, r, rfl⟩ := List.exists_cons_of_ne_nil (hr rest (by simp))
    obtain ⟨tl0, htl0⟩ := remaining_eq hs hr'
    obtain ⟨its', rests', h1, h2, h3, N, hN⟩ := ih hr' htl0
    have hne := combinations_ne (hs.alls_ne hr')
    simp only [remaining, htl0, List.map_cons, List.cons_append, List.cons.injEq] at hrem
    obtain ⟨-, rfl⟩ := hrem
    by_cases htl : tl0 = []
    · subst htl
      obtain ⟨it', hat', M, hM⟩ := h.next hc hsort ha
      rw [if_pos rfl] at h3
      cases r with
      | cons y r' =>
        have hcont : it'.cont = true := hat'.cont.2 (by simp)
        refine ⟨it' :: its', _, .cons hat' h1, ?_, ?_, max N M, fun n hn => ?_⟩
        · intro r hr; rcases List.mem_cons.1 hr with rfl | hr
          · simp
          · exact h2 r hr
        · simp [remaining, h3, hne]
        · simp [multiNext, hN n (by omega), Res.bind, hM n (by omega), hcont, hne]
      | nil =>
        have hcont : it'.cont = false := by
          have := hat'.cont; simpa using this
        obtain ⟨it'', hat'', K, hK⟩ := hat'.reset hc hsort ha
        have hall := h.all_ne
        refine ⟨it'' :: its', _, .cons hat'' h1, ?_, ?_, max (max N M) K, fun n hn => ?_⟩
        · intro r hr; rcases List.mem_cons.1 hr with rfl | hr
          · exact hall
          · exact h2 r hr
        · obtain ⟨y, l, rfl⟩ := List.exists_cons_of_ne_nil hall
          simp [remaining, h3, combinations]
        · simp [multiNext, hN n (by omega), Res.bind, hM n (by omega), hcont, hK n (by omega)]
    · rw [if_neg htl] at h3
      refine ⟨it :: its', _, .cons h h1, ?_, ?_, N, fun n hn => ?_⟩
      · intro r hr; rcases List.mem_cons.1 hr with rfl | hr
        · simp
        · exact h2 r hr
      · simp [remaining, h3, htl]
      · simp [multiNext, hN n hn, Res.bind, htl]

/-! ### The loop -/

theorem defineCurrent_eq (strLen : Ex → Nat) {its vs alls rests} (h : AtAll its vs alls rests) (hr : ∀ r ∈ rests, r ≠ []) (st : EState) :
    defineCurrent strLen st its = assignAll strLen st vs (currentRow rests) := by
  induction h generalizing st with
  | nil => rfl
  | @cons it v all rest its vs alls rests h hs ih =>
    obtain ⟨x, r, rfl⟩ := List.exists_cons_of_ne_nil (hr rest (by simp))
    have ih := ih (fun r hr' => hr r (by simp [hr']))
    simp only [defineCurrent, h.curr, Res.ofOption, Res.bind, h.var.1, currentRow, List.filterMap_cons, List.head?_cons, assignAll]
    cases defineIn strLen st v x with
    | stuck => rfl
    | panic => rfl
    | ok st' => simpa [currentRow] using ih st'

theorem iterLoop_spec {c : Ctx} (hc : c.Mono) (hsort : ∀ l, (c.sort l).Perm l) {α : Type} {strLen : Ex → Nat}
    {step : EState → α → EState → α → Prop} {act : Evaluator → EState → α → Res (EState × (α ⊕ Ex))}
    (hact : ∀ st a st' b, step st a st' b → ∃ N, ∀ n, N ≤ n → act (eval c n) st a = .ok (st', .inl b))
    {vars st a rows st' b} (hv : Visits c strLen step vars st a rows st' b) {its alls rests}
    (h : AtAll its vars alls rests) (hr : ∀ r ∈ rests, r ≠ []) (hrem : remaining rests alls = rows) (hne : rows ≠ []) :
    ∃ N, ∀ n, N ≤ n → ∀ k, rows.length ≤ k → iterLoop strLen (eval c n) (act (eval c n)) k st its a = .ok (st', .inl b) := by
  induction hv generalizing its rests with
  | nil => exact absurd rfl hne
  | @cons st a row st1 st2 b rows st3 d h1 h2 h3 h4 ih =>
    obtain ⟨tl, htl⟩ := remaining_eq h hr
    rw [htl] at hrem
    simp only [List.cons.injEq] at hrem
    obtain ⟨rfl, rfl⟩ := hrem
    obtain ⟨its', rests', g1, g2, g3, N, hN⟩ := multiNext_spec hc hsort h3 h hr htl
    obtain ⟨M, hM⟩ := hact _ _ _ _ h2
    by_cases ht : tl = []
    · subst ht
      cases h4
      refine ⟨max N M, fun n hn k hk => ?_⟩
      obtain ⟨k, rfl⟩ : ∃ m, k = m + 1 := ⟨k - 1, by simp at hk; omega⟩
      simp [iterLoop, defineCurrent_eq strLen h hr, h1, Res.bind, hM n (by omega), hN n (by omega)]
    · rw [if_neg ht] at g3
      obtain ⟨K, hK⟩ := ih g1 g2 g3 ht
      refine ⟨max (max N M) K, fun n hn k hk => ?_⟩
      obtain ⟨k, rfl⟩ : ∃ m, k = m + 1 := ⟨k - 1, by simp at hk; omega⟩
      simp only [List.length_cons] at hk
      simp [iterLoop, defineCurrent_eq strLen h hr, h1, Res.bind, hM n (by omega), hN n (by omega), ht, hK n (by omega) k (by omega)]

/-! ### Reading the iterators -/

theorem evalAll_of_evalSeq {c : Ctx} (hc : c.Mono) {i st ps st' vs} (h : EvalSeq c (fun _ => False) i st ps st' vs) :
    ∃ N, ∀ n, N ≤ n → evalAll (eval c n) st ps = .ok (st', vs) := by
  induction h with
  | nil => exact ⟨0, fun n _ => rfl⟩
  | hold h1 => exact absurd h1 id
  | step h1 h2 h3 _ ih =>
    obtain ⟨N, ih⟩ := ih
    obtain ⟨M, h2⟩ := h2.at hc
    exact ⟨max N M, fun n hn => by simp [evalAll, h2 n (by omega), ih n (by omega), Res.bind]⟩

theorem parseIter_vals {l : List Ex} {v : Ex} {xs : List Ex} (h : IterVals l v xs) :
    ∃ it rest, parseIter l = some it ∧ At it v xs rest := by
  cases h with
  | list v xs hv =>
    obtain ⟨s, hs⟩ := Option.isSome_iff_exists.1 hv
    refine ⟨.list v s (S "List" :: xs) 1, xs, ?_, ?_⟩
    · simp [parseIter, rangeSpec, hs, numberQ, app, listSpec, argsOf]
    · simpa using At.list v s [] xs hs
  | upTo v hi hv =>
    obtain ⟨s, hs⟩ := Option.isSome_iff_exists.1 hv
    exact ⟨_, _, by simp [parseIter, rangeSpec, hs, numberQ], .range v s 1 hi 1 1 hs (by omega) (by omega)⟩
  | fromTo v lo hi hv =>
    obtain ⟨s, hs⟩ := Option.isSome_iff_exists.1 hv
    exact ⟨_, _, by simp [parseIter, rangeSpec, hs, numberQ], .range v s lo hi 1 lo hs (by omega) (by omega)⟩
  | «by» v lo hi step hv hst =>
    obtain ⟨s, hs⟩ := Option.isSome_iff_exists.1 hv
    exact ⟨_, _, by simp [parseIter, rangeSpec, hs, numberQ], .range v s lo hi step lo hs hst (by omega)⟩

theorem specFromList_spec {c : Ctx} (hc : c.Mono) (hsort : ∀ l, (c.sort l).Perm l) {st st1 : EState} {v : Ex} {ps ws xs : List Ex}
    (h1 : EvalSeq c (fun _ => False) 2 st ps st1 ws) (ha : IntArith c st1) (hv : IterVals (v :: ws) v xs) :
    ∃ it, At it v xs xs ∧ ∃ N, ∀ n, N ≤ n → specFromList (eval c n) st (app "System`List" (v :: ps)) = .ok (st1, some it) := by
  obtain ⟨it, rest, hp, hat⟩ := parseIter_vals hv
  obtain ⟨it', hat', N, hN⟩ := hat.reset hc hsort ha
  obtain ⟨M, hM⟩ := evalAll_of_evalSeq hc h1
  refine ⟨it', hat', max N M, fun n hn => ?_⟩
  simp [specFromList, iterCandidate, app, argsOf, hM n (by omega), Res.bind, hp, hN n (by omega)]

theorem specsFromLists_spec {c : Ctx} (hc : c.Mono) (hsort : ∀ l, (c.sort l).Perm l) {st : EState} {es : List Ex} {st' : EState} {vals : List (Ex × List Ex)}
    (h : IterSeq c st es st' vals) :
    ∃ its, AtAll its (vals.map Prod.fst) (vals.map Prod.snd) (vals.map Prod.snd) ∧
      ∃ N, ∀ n, N ≤ n → specsFromLists (eval c n) st es = .ok (st', some its) := by
  induction h with
  | nil => exact ⟨[], .nil, 0, fun n _ => rfl⟩
  | cons h1 ha hv _ ih =>
    obtain ⟨its, hits, N, hN⟩ := ih
    obtain ⟨it, hat, M, hM⟩ := specFromList_spec hc hsort h1 ha hv
    refine ⟨it :: its, .cons hat hits, max N M, fun n hn => ?_⟩
    simp [specsFromLists, hM n (by omega), hN n (by omega), Res.bind]

theorem takeSnapshot_syms {find} {ev : Evaluator} {st : EState} {its : List IterSpec} {names : List String} {alls rests}
    (h : AtAll its (names.map Ex.sym) alls rests) :
    takeSnapshot find ev st its = .ok (st, names.map (getSymDef st.toDState)) := by
  generalize hv : names.map Ex.sym = vs at h
  induction h generalizing names with
  | nil => cases names with
    | nil => rfl
    | cons a l => simp at hv
  | @cons it v all rest its vs alls rests h hs ih =>
    cases names with
    | nil => simp at hv
    | cons a l =>
      simp only [List.map_cons, List.cons.injEq] at hv
      obtain ⟨rfl, hv⟩ := hv
      have hvar := h.var
      simp only [iterName, Option.some.injEq] at hvar
      simp [takeSnapshot, hvar.1, getDefAny, Res.bind, ih hv, ← hvar.2]

theorem restore_eq (strLen : Ex → Nat) {its vs alls rests} (h : AtAll its vs alls rests) (ds : List (Option Ex)) (hl : ds.length = vs.length) (st : EState) :
    restore strLen st its ds = restoreAll strLen st (vs.zip ds) := by
  induction h generalizing st ds with
  | nil => cases ds <;> rfl
  | @cons it v all rest its vs alls rests h hs ih =>
    cases ds with
    | nil => simp at hl
    | cons d ds =>
      have ih := ih ds (by simpa using hl)
      cases d with
      | some d =>
        simp only [restore, restoreOne, h.var.1, List.zip_cons_cons, restoreAll]
        cases defineIn strLen st v d <;> simp [Res.bind, ih]
      | none =>
        simp only [restore, restoreOne, Res.bind, List.zip_cons_cons, restoreAll, h.var.2, ih]

/-- The common frame. -/
theorem iterRun_spec {c : Ctx} (hc : c.Mono) (hsort : ∀ l, (c.sort l).Perm l) {α : Type} {strLen : Ex → Nat} {find}
    {step : EState → α → EState → α → Prop} {act : Evaluator → EState → α → Res (EState × (α ⊕ Ex))}
    (hact : ∀ st a st' b, step st a st' b → ∃ N, ∀ n, N ≤ n → act (eval c n) st a = .ok (st', .inl b))
    {st st1 st2 st3 : EState} {lists : List Ex} {names : List String} {values : List (List Ex)} (hlen : names.length = values.length) {a b : α}
    (hi : IterSeq c st lists st1 ((names.map Ex.sym).zip values))
    (hv : Visits c strLen step (names.map Ex.sym) st1 a (combinations values) st2 b)
    (hres : restoreAll strLen st2 (valuesOf st1 names) = .ok st3) :
    ∃ N, ∀ n, N ≤ n → iterRun strLen find n (eval c n) (act (eval c n)) st lists a = .ok (st3, some (.inl b)) := by
  obtain ⟨its, hits, N, hN⟩ := specsFromLists_spec hc hsort hi
  rw [List.map_fst_zip (by simp [hlen]), List.map_snd_zip (by simp [hlen])] at hits
  have hsnap : ∀ n, takeSnapshot find (eval c n) st1 its = .ok (st1, names.map (getSymDef st1.toDState)) := fun n => takeSnapshot_syms hits
  have hrest : restore strLen st2 its (names.map (getSymDef st1.toDState)) = .ok st3 := by
    rw [restore_eq strLen hits _ (by simp), ← hres]
    congr 1
    simp only [valuesOf]
    rw [List.zip_map']
  by_cases hall : ∀ r ∈ values, r ≠ []
  · have hc' : its.all IterSpec.cont = true := hits.all_cont.2 hall
    obtain ⟨M, hM⟩ := iterLoop_spec hc hsort hact hv hits hall (remaining_all _) (combinations_ne hall)
    refine ⟨max (max N M) (combinations values).length, fun n hn => ?_⟩
    simp [iterRun, hN n (by omega), Res.bind, hsnap, hc', hM n (by omega) n (by omega), hrest]
  · have hc' : ¬ its.all IterSpec.cont = true := fun h => hall (hits.all_cont.1 h)
    have hemp : combinations values = [] := by
      push Not at hall
      obtain ⟨r, hr, rfl⟩ := hall
      clear hc' hrest hsnap hits hN hv hi hlen
      induction values with
      | nil => simp at hr
      | cons l ls ih =>
        rcases List.mem_cons.1 hr with h | h
        · subst h; simp [combinations]
        · simp [combinations, ih h]
    rw [hemp] at hv
    cases hv
    refine ⟨N, fun n hn => ?_⟩
    simp only [iterRun, hN n hn, Res.bind, hsnap, if_neg hc', hrest]

end Expreduce
