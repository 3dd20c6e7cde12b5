import Verif.Proofs.EvalThrow
import Verif.Proofs.Arith

/-! Evaluating a result again gives it back. -/

namespace Expreduce
open Ex

theorem mentionsL_iff (x : String) (ps : List Ex) : mentionsL x ps = false ↔ ∀ p ∈ ps, mentions x p = false := by
  induction ps with
  | nil => simp [mentionsL]
  | cons p ps ih => simp [mentionsL, ih]

theorem noReturn_expr {ps : List Ex} : NoReturn (.expr ps) ↔ ∀ p ∈ ps, NoReturn p := by
  unfold NoReturn
  simp only [mentions, mentionsL_iff]

theorem noReturn_argsOf {h : String} {e : Ex} {args : List Ex} (he : NoReturn e) (ha : argsOf h e = some args) : ∀ a ∈ args, NoReturn a := by
  unfold argsOf at ha
  split at ha
  · split at ha
    · simp at ha
      subst ha
      intro a h'
      exact noReturn_expr.1 he a (List.mem_cons_of_mem _ h')
    · cases ha
  · cases ha

theorem noReturn_splice {h : String} {ps : List Ex} (hp : ∀ p ∈ ps, NoReturn p) : ∀ p ∈ splice h ps, NoReturn p := by
  intro p hm
  unfold splice at hm
  rw [List.mem_flatMap] at hm
  obtain ⟨q, hq, hm⟩ := hm
  cases ha : argsOf h q with
  | none => rw [ha] at hm; simp at hm; subst hm; exact hp _ hq
  | some args => rw [ha] at hm; exact noReturn_argsOf (hp q hq) ha p (by simpa using hm)

theorem noReturn_tryReturn {st : EState} {e : Ex} (hi : st.interrupted = false) (he : NoReturn e) : tryReturn st e = none := by
  unfold tryReturn
  rw [if_neg (by simp [hi])]
  cases ha : argsOf "System`Return" e with
  | none => rfl
  | some args =>
    exfalso
    unfold argsOf at ha
    split at ha
    · split at ha
      · rename_i h
        subst h
        have := noReturn_expr.1 he (.sym "System`Return") (by simp)
        simp [NoReturn, mentions] at this
      · cases ha
    · cases ha

/-- The evaluator in the state `st` changes nothing and brings in no `Return`. -/
def Settled (st : EState) (ev : Evaluator) : Prop :=
  (∀ e st' v, ev st e = .ok (st', v) → st' = st) ∧ (∀ e st' v, NoReturn e → ev st e = .ok (st', v) → st' = st ∧ NoReturn v)

theorem Res.bind_ok {α β : Type} {x : Res α} {f : α → Res β} {b : β} (h : x.bind f = .ok b) : ∃ a, x = .ok a ∧ f a = .ok b := by
  cases x with
  | stuck => cases h
  | panic => cases h
  | ok a => exact ⟨a, rfl, h⟩

theorem evalArgs_good {st : EState} {ev : Evaluator} (hg : Settled st ev) (ht : st.thrown = none) (held : Nat → Bool) (ps : List Ex) :
    ∀ i st' r, evalArgs ev held i st ps = .ok (st', r) → st' = st ∧ ∃ qs, r = .inl qs ∧ ((∀ p ∈ ps, NoReturn p) → ∀ q ∈ qs, NoReturn q) := by
  induction ps with
  | nil =>
    intro i st' r h
    simp [evalArgs] at h
    exact ⟨h.1.symm, [], h.2.symm, by simp⟩
  | cons p ps ih =>
    intro i st' r h
    rw [evalArgs] at h
    split at h
    · obtain ⟨q, hq, he⟩ := Res.bind_ok h
      obtain ⟨q1, q2⟩ := q
      obtain ⟨h1, qs, rfl, h3⟩ := ih _ _ _ hq
      subst h1
      simp at he
      refine ⟨he.1.symm, p :: qs, he.2.symm, ?_⟩
      intro hp q hq'
      rcases List.mem_cons.1 hq' with rfl | hq'
      · exact hp _ (by simp)
      · exact h3 (fun p' hp' => hp p' (by simp [hp'])) q hq'
    · obtain ⟨q, hq, he⟩ := Res.bind_ok h
      obtain ⟨q1, q2⟩ := q
      have hq1 := hg.1 _ _ _ hq
      subst hq1
      dsimp only at he
      rw [ht] at he
      dsimp only at he
      replace he := Res.bind_ok he
      obtain ⟨q', hq', he⟩ := he
      obtain ⟨q1', q2'⟩ := q'
      obtain ⟨h1, qs, rfl, h3⟩ := ih _ _ _ hq'
      subst h1
      simp at he
      refine ⟨he.1.symm, q2 :: qs, he.2.symm, ?_⟩
      intro hp q hm
      rcases List.mem_cons.1 hm with rfl | hm
      · exact (hg.2 _ _ _ (hp p (by simp)) hq).2
      · exact h3 (fun p' hp' => hp p' (by simp [hp'])) q hm

theorem evalAll_good {st : EState} {ev : Evaluator} (hg : Settled st ev) (ps : List Ex) :
    ∀ st' r, evalAll ev st ps = .ok (st', r) → st' = st ∧ ((∀ p ∈ ps, NoReturn p) → ∀ q ∈ r, NoReturn q) := by
  induction ps with
  | nil =>
    intro st' r h
    simp [evalAll] at h
    exact ⟨h.1.symm, by simp [← h.2]⟩
  | cons p ps ih =>
    intro st' r h
    rw [evalAll] at h
    obtain ⟨⟨q1, q2⟩, hq, he⟩ := Res.bind_ok h
    obtain rfl := hg.1 _ _ _ hq
    replace he := Res.bind_ok he
    obtain ⟨⟨q1', q2'⟩, hq', he⟩ := he
    obtain ⟨h1, h3⟩ := ih _ _ hq'
    subst h1
    simp at he
    refine ⟨he.1.symm, ?_⟩
    intro hp q hm
    rw [← he.2] at hm
    rcases List.mem_cons.1 hm with rfl | hm
    · exact (hg.2 _ _ _ (hp p (by simp)) hq).2
    · exact h3 (fun p' hp' => hp p' (by simp [hp'])) q hm

theorem mergeEvalLoop_good {st : EState} {ev : Evaluator} (hg : Settled st ev) (hd : String) (ps : List Ex) :
    ∀ st' r, mergeEvalLoop ev hd st ps = .ok (st', r) → st' = st ∧ ((∀ p ∈ ps, NoReturn p) → ∀ q ∈ r, NoReturn q) := by
  induction ps with
  | nil =>
    intro st' r h
    simp [mergeEvalLoop] at h
    exact ⟨h.1.symm, by simp [← h.2]⟩
  | cons p ps ih =>
    intro st' r h
    rw [mergeEvalLoop] at h
    split at h
    · rename_i args hargs
      obtain ⟨⟨q1, q2⟩, hq, he⟩ := Res.bind_ok h
      obtain ⟨rfl, h2⟩ := evalAll_good hg _ _ _ hq
      replace he := Res.bind_ok he
      obtain ⟨⟨q1', q2'⟩, hq', he⟩ := he
      obtain ⟨h1, h3⟩ := ih _ _ hq'
      subst h1
      simp at he
      refine ⟨he.1.symm, ?_⟩
      intro hp q hm
      rw [← he.2] at hm
      rcases List.mem_append.1 hm with hm | hm
      · exact h2 (noReturn_argsOf (hp p (by simp)) hargs) q hm
      · exact h3 (fun p' hp' => hp p' (by simp [hp'])) q hm
    · obtain ⟨⟨q1', q2'⟩, hq', he⟩ := Res.bind_ok h
      obtain ⟨h1, h3⟩ := ih _ _ hq'
      subst h1
      simp at he
      refine ⟨he.1.symm, ?_⟩
      intro hp q hm
      rw [← he.2] at hm
      rcases List.mem_cons.1 hm with rfl | hm
      · exact hp _ (by simp)
      · exact h3 (fun p' hp' => hp p' (by simp [hp'])) q hm

theorem mergeSeq_good {h : String} {ps : List Ex} (hp : ∀ p ∈ ps, NoReturn p) : ∀ q ∈ mergeSeq h ps, NoReturn q := by
  rw [mergeSeq_eq]; exact noReturn_splice hp

theorem spliceParts_good {st : EState} {ev : Evaluator} (hg : Settled st ev) (b : Bool) (a : Attrs) (ps : List Ex) (st' : EState) (r : List Ex)
    (h : spliceParts ev b a st ps = .ok (st', r)) : st' = st ∧ ((∀ p ∈ ps, NoReturn p) → ∀ q ∈ r, NoReturn q) := by
  simp only [spliceParts] at h
  obtain ⟨⟨q1, q2⟩, hq, he⟩ := Res.bind_ok h
  simp at he
  have hseq : (∀ p ∈ ps, NoReturn p) → ∀ q ∈ (if (b && (a.sequenceHold || a.holdAllComplete)) = true then ps else mergeSeq "System`Sequence" ps),
      NoReturn q := by
    intro hp
    split
    · exact hp
    · exact mergeSeq_good hp
  revert hq hseq
  generalize (if (b && (a.sequenceHold || a.holdAllComplete)) = true then ps else mergeSeq "System`Sequence" ps) = qs
  intro hq hseq
  have key : q1 = st ∧ ((∀ p ∈ qs, NoReturn p) → ∀ q ∈ q2, NoReturn q) := by
    split at hq
    · simp at hq
      exact ⟨hq.1.symm, fun h => hq.2 ▸ h⟩
    · unfold mergeEval at hq
      split at hq
      · exact mergeEvalLoop_good hg _ _ _ _ hq
      · simp at hq
        exact ⟨hq.1.symm, fun h => hq.2 ▸ h⟩
  refine ⟨by rw [← he.1]; exact key.1, fun hp => ?_⟩
  rw [← he.2]
  exact mergeSeq_good (key.2 (hseq hp))

/-- What a pass gives: the state unchanged, no `Return`, and an early return only as the value of another evaluation. -/
def GoodOut (st : EState) (ev : Evaluator) (ps : List Ex) (st' : EState) (o : Out) : Prop :=
  st' = st ∧
  match o with
  | .ret v => ∃ e, ev st e = .ok (st, v) ∧ (NoReturn (.expr ps) → NoReturn e)
  | .next e _ => NoReturn (.expr ps) → NoReturn e

theorem applyDefs_good {c : Ctx} {st : EState} (hc : c.Tame st) {ev : Evaluator} (hg : Settled st ev) {n : Nat} {s : String} {cur : List Ex} {e : Ex}
    {st' : EState} {o : Out} (h : applyDefs c n ev s st cur e = .ok (st', o)) (ps : List Ex)
    (hcur : NoReturn (.expr ps) → NoReturn (.expr cur)) (he : NoReturn (.expr ps) → NoReturn e) : GoodOut st ev ps st' o := by
  unfold applyDefs at h
  obtain ⟨⟨q1, q2, q3⟩, hq, h'⟩ := Res.bind_ok h
  clear h
  rename' h' => h
  have key : q1 = st ∧ (NoReturn (.expr ps) → NoReturn q2) := by
    split at hq
    · replace hq := Res.bind_ok hq
      obtain ⟨⟨r1, r2⟩, hr, hq⟩ := hq
      simp at hq
      obtain ⟨rfl, rfl, -⟩ := hq
      exact ⟨hc.fnPure _ _ _ _ _ _ hg.1 hr, fun hp => hc.fnNoReturn _ _ _ _ _ _ hg.2 (hcur hp) hr⟩
    · simp at hq
      obtain ⟨rfl, rfl, -⟩ := hq
      exact ⟨rfl, he⟩
  obtain ⟨rfl, hq2⟩ := key
  split at h
  · replace h := Res.bind_ok h
    obtain ⟨⟨r1, r2⟩, hr, h⟩ := h
    obtain rfl := hc.findPure _ _ _ _ _ hg.1 hr
    cases r2 with
    | some res =>
      simp at h
      obtain ⟨rfl, rfl⟩ := h
      exact ⟨rfl, fun hp => hc.findNoReturn _ _ _ _ _ hg.2 (hcur hp) hr⟩
    | none =>
      simp at h
      obtain ⟨rfl, rfl⟩ := h
      exact ⟨rfl, hq2⟩
  · simp at h
    obtain ⟨rfl, rfl⟩ := h
    exact ⟨rfl, hq2⟩

theorem sortArgs_mem {c : Ctx} (hs : ∀ l a, a ∈ c.sort l → a ∈ l) {ps : List Ex} : ∀ a ∈ sortArgs c ps, a ∈ ps := by
  intro a h
  cases ps with
  | nil => exact h
  | cons p ps =>
    rcases List.mem_cons.1 h with rfl | h
    · simp
    · exact List.mem_cons_of_mem _ (hs _ _ h)

theorem noReturn_S {s : String} (h : ("System`" ++ s == "System`Return") = false) : NoReturn (S s) := by
  unfold NoReturn S
  simp only [mentions, h]

theorem threadExpr_noReturn {ps : List Ex} {e : Ex} (h : threadExpr ps = some e) (hp : ∀ p ∈ ps, NoReturn p) : NoReturn e := by
  cases ps with
  | nil => cases h
  | cons hd args =>
    rw [threadExpr] at h
    split at h
    · cases h
    · split at h
      · simp at h
        subst h
        rw [noReturn_expr]
        intro p hm
        rcases List.mem_cons.1 hm with rfl | hm
        · exact noReturn_S (by decide)
        · obtain ⟨i, -, rfl⟩ := List.mem_map.1 hm
          rw [noReturn_expr]
          intro p hm
          rcases List.mem_cons.1 hm with rfl | hm
          · exact hp _ (by simp)
          · obtain ⟨a, ha, rfl⟩ := List.mem_map.1 hm
            have hna := hp a (by simp [ha])
            unfold elemAt
            split
            · rename_i xs hx
              by_cases hi : i < xs.length
              · rw [show xs.getD i a = xs[i] by simp [hi]]
                exact noReturn_argsOf hna hx _ (by simp)
              · rw [show xs.getD i a = a by simp [List.getElem?_eq_none (show xs.length ≤ i by omega)]]
                exact hna
            · exact hna
      · cases h

theorem propagate_noReturn {ps : List Ex} {e : Ex} (h : propagate ps = some e) (hp : ∀ p ∈ ps, NoReturn p) : NoReturn e := by
  cases ps with
  | nil => cases h
  | cons hd args =>
    rw [propagate] at h
    have hce : ∀ a x y, condExprArgs a = some (x, y) → NoReturn a → NoReturn x ∧ NoReturn y := by
      intro a x y hxy ha
      unfold condExprArgs at hxy
      split at hxy
      · split at hxy
        · simp at hxy
          obtain ⟨rfl, rfl⟩ := hxy
          have := noReturn_expr.1 ha
          exact ⟨this _ (by simp), this _ (by simp)⟩
        · cases hxy
      · cases hxy
    split at h
    · simp at h
      subst h
      rw [noReturn_expr]
      intro p hm
      simp only [List.mem_cons, List.not_mem_nil, or_false] at hm
      rcases hm with rfl | rfl | rfl
      · exact noReturn_S (by decide)
      · rw [noReturn_expr]
        intro p hm
        rcases List.mem_cons.1 hm with rfl | hm
        · exact hp _ (by simp)
        · obtain ⟨a, ha, rfl⟩ := List.mem_map.1 hm
          unfold dropCond
          split
          · rename_i x y hx
            exact (hce _ _ _ hx (hp a (by simp [ha]))).1
          · exact hp a (by simp [ha])
      · rw [noReturn_expr]
        intro p hm
        rcases List.mem_cons.1 hm with rfl | hm
        · exact noReturn_S (by decide)
        · obtain ⟨a, ha, hx⟩ := List.mem_filterMap.1 hm
          rw [Option.map_eq_some_iff] at hx
          obtain ⟨⟨x, y⟩, hx, rfl⟩ := hx
          exact (hce _ _ _ hx (hp a (by simp [ha]))).2
    · cases h

theorem afterArgs_good {c : Ctx} {st : EState} (hc : c.Tame st) {ev : Evaluator} (hg : Settled st ev) {n : Nat} {hd : Option String} {a : Attrs}
    {qs : List Ex} {st' : EState} {o : Out} (h : afterArgs c n ev hd a st qs = .ok (st', o)) (ps : List Ex)
    (hqs : NoReturn (.expr ps) → ∀ q ∈ qs, NoReturn q) : GoodOut st ev ps st' o := by
  unfold afterArgs at h
  replace h := Res.bind_ok h
  obtain ⟨⟨r1, r2⟩, hr, h⟩ := h
  obtain ⟨rfl, hr2⟩ := spliceParts_good hg _ _ _ _ _ hr
  simp only at h
  cases r2 with
  | nil => cases h
  | cons p r2 =>
    simp only at h
    generalize p :: r2 = rs at h hr2
    cases hd with
    | none =>
      simp only [functionCase] at h
      cases rs with
      | nil => cases h
      | cons hd args =>
        simp only at h
        split at h
        · rename_i fargs hf
          replace h := Res.bind_ok h
          obtain ⟨v, hv, h⟩ := h
          simp at h
          obtain ⟨rfl, rfl⟩ := h
          refine ⟨rfl, fun hp => ?_⟩
          have hrs := hr2 (hqs hp)
          refine hc.applyNoReturn _ _ _ (noReturn_expr.2 (noReturn_argsOf (hrs hd (by simp)) hf)) (noReturn_expr.2 (fun x hx => hrs x (by simp [hx]))) hv
        · simp at h
          obtain ⟨rfl, rfl⟩ := h
          exact ⟨rfl, fun hp => noReturn_expr.2 (hr2 (hqs hp))⟩
    | some s =>
      simp only [symbolCase] at h
      have hflat : NoReturn (.expr ps) → ∀ q ∈ (if a.flat = true then mergeSeq s rs else rs), NoReturn q := by
        intro hp
        split
        · exact mergeSeq_good (hr2 (hqs hp))
        · exact hr2 (hqs hp)
      have hsort : NoReturn (.expr ps) → ∀ q ∈ (if a.orderless = true then sortArgs c (if a.flat = true then mergeSeq s rs else rs)
          else if a.flat = true then mergeSeq s rs else rs), NoReturn q := by
        intro hp
        split
        · exact fun q hq => hflat hp q (sortArgs_mem hc.sortMem q hq)
        · exact hflat hp
      revert h hsort
      generalize (if a.orderless = true then sortArgs c (if a.flat = true then mergeSeq s rs else rs)
          else if a.flat = true then mergeSeq s rs else rs) = sorted
      intro h hsort
      split at h
      · split at h
        · rename_i e he
          simp at h
          obtain ⟨rfl, rfl⟩ := h
          exact ⟨rfl, fun hp => threadExpr_noReturn he (hsort hp)⟩
        · exact applyDefs_good hc hg h ps (fun hp => noReturn_expr.2 (hsort hp)) (fun hp => noReturn_expr.2 (hsort hp))
      · refine applyDefs_good hc hg h ps (fun hp => noReturn_expr.2 (hsort hp)) (fun hp => ?_)
        split
        · exact noReturn_expr.2 (hr2 (hqs hp))
        · exact noReturn_expr.2 (hsort hp)

theorem pass_good {c : Ctx} {st : EState} (hc : c.Tame st) {ev : Evaluator} (hg : Settled st ev) {n : Nat} {ps : List Ex}
    {st' : EState} {o : Out} (h : pass c n ev st ps = .ok (st', o)) : GoodOut st ev ps st' o := by
  simp only [pass] at h
  split at h
  · rename_i e he
    replace h := Res.bind_ok h
    obtain ⟨⟨r1, r2⟩, hr, h⟩ := h
    obtain rfl := hg.1 _ _ _ hr
    simp at h
    obtain ⟨rfl, rfl⟩ := h
    refine ⟨rfl, e, hr, fun hp => ?_⟩
    unfold conditional at he
    split at he
    · exact propagate_noReturn he (noReturn_expr.1 hp)
    · cases he
  · replace h := Res.bind_ok h
    obtain ⟨⟨r1, r2⟩, hr, h⟩ := h
    obtain ⟨rfl, qs, rfl, hq⟩ := evalArgs_good hg hc.notThrown _ _ _ _ _ hr
    exact afterArgs_good hc hg h ps (fun hp => hq (noReturn_expr.1 hp))

theorem evalLoop_good {c : Ctx} {st : EState} (hc : c.Tame st) {ev : Evaluator} (hg : Settled st ev) {n : Nat} :
    ∀ k b last cur st' v, evalLoop c n ev k st b last cur = .ok (st', v) → st' = st ∧ (NoReturn cur → NoReturn v) := by
  intro k
  induction k with
  | zero => intro b last cur st' v h; cases h
  | succ k ih =>
    intro b last cur st' v h
    unfold evalLoop at h
    split at h
    · simp at h; exact ⟨h.1.symm, fun hn => h.2 ▸ hn⟩
    · split at h
      · rename_i ps
        split at h
        · rename_i w hw
          simp at h
          refine ⟨h.1.symm, fun hn => ?_⟩
          split at hw
          · rw [noReturn_tryReturn hc.notInterrupted hn] at hw; cases hw
          · cases hw
        · split at h
          · simp at h; exact ⟨h.1.symm, fun hn => h.2 ▸ hn⟩
          · replace h := Res.bind_ok h
            obtain ⟨⟨r1, r2⟩, hr, h⟩ := h
            have := pass_good hc hg hr
            cases r2 with
            | ret e =>
              obtain ⟨rfl, e', he', hn'⟩ := this
              simp [afterPass] at h
              exact ⟨h.1.symm, fun hn => h.2 ▸ (hg.2 _ _ _ (hn' hn) he').2⟩
            | next e ins =>
              obtain ⟨rfl, hn'⟩ := this
              simp only [afterPass] at h
              obtain ⟨h1, h2⟩ := ih _ _ _ _ _ h
              exact ⟨h1, fun hn => h2 (hn' hn)⟩
      · exact ⟨hg.1 _ _ _ h, fun hn => (hg.2 _ _ _ hn h).2⟩

theorem noReturn_rational (n d : Int) : NoReturn (evalRational n d) := by
  unfold evalRational
  split
  · exact noReturn_S (by decide)
  · split
    · exact noReturn_S (by decide)
    · split
      · rfl
      · simp only
        split
        · split <;> rfl
        · split <;> rfl

theorem eval_good {c : Ctx} {st : EState} (hc : c.Tame st) : ∀ n, Settled st (eval c n) := by
  intro n
  induction n with
  | zero => exact ⟨fun _ _ _ h => (by cases h), fun _ _ _ _ h => (by cases h)⟩
  | succ n ih =>
    have key : ∀ e st' v, eval c (n + 1) st e = .ok (st', v) → st' = st ∧ (NoReturn e → NoReturn v) := by
      intro e st' v h
      unfold eval at h
      split at h
      · exact evalLoop_good hc ih _ _ _ _ _ _ h
      · rename_i re im
        unfold evalCplx at h
        replace h := Res.bind_ok h
        obtain ⟨⟨r1, r2⟩, hr, h⟩ := h
        obtain rfl := ih.1 _ _ _ hr
        replace h := Res.bind_ok h
        obtain ⟨⟨i1, i2⟩, hi, h⟩ := h
        obtain rfl := ih.1 _ _ _ hi
        simp at h
        obtain ⟨rfl, rfl⟩ := h
        refine ⟨rfl, fun hn => ?_⟩
        unfold NoReturn at hn
        simp only [mentions, Bool.or_eq_false_iff] at hn
        have h1 := (ih.2 _ _ _ hn.1 hr).2
        have h2 := (ih.2 _ _ _ hn.2 hi).2
        split
        · exact h1
        · unfold NoReturn at *
          simp [mentions, h1, h2]
      · simp at h
        obtain ⟨rfl, rfl⟩ := h
        exact ⟨rfl, fun _ => noReturn_rational _ _⟩
      · rename_i s
        unfold evalSymbol at h
        split at h
        · simp at h
          obtain ⟨rfl, rfl⟩ := h
          exact ⟨rfl, id⟩
        · rename_i d hd
          unfold evalDef at h
          split at h
          · rename_i hds
            simp at h
            obtain ⟨rfl, rfl⟩ := h
            exact ⟨rfl, fun _ => hc.values _ _ hd⟩
          · replace h := Res.bind_ok h
            obtain ⟨⟨r1, r2⟩, hr, h⟩ := h
            obtain ⟨rfl, hn⟩ := ih.2 _ _ _ (hc.values _ _ hd) hr
            rw [noReturn_tryReturn hc.notInterrupted hn] at h
            simp at h
            obtain ⟨rfl, rfl⟩ := h
            exact ⟨rfl, fun _ => hn⟩
      · simp at h
        obtain ⟨rfl, rfl⟩ := h
        exact ⟨rfl, id⟩
    exact ⟨fun e st' v h => (key e st' v h).1, fun e st' v hn h => ⟨(key e st' v h).1, (key e st' v h).2 hn⟩⟩

theorem evalRational_again (n d : Int) : ((evalRational n d = S "Indeterminate" ∨ evalRational n d = S "ComplexInfinity")) ∨
    (∃ m, evalRational n d = .int m) ∨ (∃ a b, evalRational n d = .rat a b ∧ evalRational a b = .rat a b) := by
  by_cases hd : d = 0
  · left
    unfold evalRational
    by_cases hn : n = 0
    · left; simp [hd, hn]
    · right; simp [hd, hn]
  · right
    have h := evalRational_canon n d hd
    cases he : evalRational n d with
    | int m => exact Or.inl ⟨m, rfl⟩
    | rat a b =>
      rw [he] at h
      exact Or.inr ⟨a, b, rfl, h.evalReal_id⟩
    | _ => rw [he] at h; exact h.elim

/-- Evaluating a result again gives it back. -/
theorem eval_idem {c : Ctx} {st : EState} (hc : c.Tame st) (hm : c.Mono) (hex : ∀ a b, c.same a b = true ↔ a = b) :
    ∀ n e v, NoReturn e → eval c n st e = .ok (st, v) → Done c st v := by
  intro n
  induction n with
  | zero => intro e v _ h; cases h
  | succ n ih =>
    have hg := eval_good hc n
    have loop : ∀ k b last cur v, NoReturn cur →
        (∀ l, last = some l → ∃ ps ins, l = .expr ps ∧ c.skip st l = false ∧ pass c n (eval c n) st ps = .ok (st, .next cur ins)) →
        evalLoop c n (eval c n) k st b last cur = .ok (st, v) → Done c st v := by
      intro k
      induction k with
      | zero => intro b last cur v _ _ h; cases h
      | succ k ihk =>
        intro b last cur v hn hl h
        unfold evalLoop at h
        split at h
        · rename_i hu
          simp at h
          subst h
          cases last with
          | none => simp [unchanged] at hu
          | some l =>
            simp only [unchanged, Option.map_some, Option.getD_some] at hu
            have := (hex _ _).1 hu
            subst this
            obtain ⟨ps, ins, rfl, hsk, hp⟩ := hl _ rfl
            refine ⟨n + 2, ?_⟩
            rw [eval_expr, evalLoop_next rfl (by simp) hsk ((pass_mono hm (Nat.le_succ n) (eval_mono_succ hm n) st ps).ok hp)]
            exact evalLoop_same (by simp [unchanged, hex])
        · split at h
          · rename_i ps _
            split at h
            · rename_i w hw
              split at hw
              · rw [noReturn_tryReturn hc.notInterrupted hn] at hw; cases hw
              · cases hw
            · split at h
              · rename_i hsk
                simp at h
                subst h
                exact ⟨1, by rw [eval_expr, evalLoop_skip (by simp) hsk]⟩
              · rename_i hsk
                replace h := Res.bind_ok h
                obtain ⟨⟨r1, r2⟩, hr, h⟩ := h
                have := pass_good hc hg hr
                cases r2 with
                | ret e =>
                  obtain ⟨rfl, e', he', hn'⟩ := this
                  simp [afterPass] at h
                  subst h
                  exact ih _ _ (hn' hn) he'
                | next e ins =>
                  obtain ⟨rfl, hn'⟩ := this
                  simp only [afterPass] at h
                  refine ihk _ _ _ _ (hn' hn) ?_ h
                  intro l hl'
                  simp at hl'
                  subst hl'
                  exact ⟨ps, ins, rfl, by simpa using hsk, hr⟩
          · exact ih _ _ hn h
    intro e v hn h
    have hsymDone : ∀ s, getSymDef st.toDState s = none → Done c st (.sym s) := fun s hs => ⟨1, evalSymbol_none hs 0⟩
    unfold eval at h
    split at h
    · exact loop _ _ _ _ _ hn (by simp) h
    · rename_i re im
      unfold NoReturn at hn
      simp only [mentions, Bool.or_eq_false_iff] at hn
      unfold evalCplx at h
      replace h := Res.bind_ok h
      obtain ⟨⟨r1, r2⟩, hr, h⟩ := h
      have e1 := hg.1 _ _ _ hr
      subst e1
      replace h := Res.bind_ok h
      obtain ⟨⟨i1, i2⟩, hi, h⟩ := h
      have e2 := hg.1 _ _ _ hi
      subst e2
      simp at h
      subst h
      split
      · exact ih _ _ hn.1 hr
      · rename_i hz
        obtain ⟨N, hN⟩ := (ih _ _ hn.1 hr).at hm
        obtain ⟨M, hM⟩ := (ih _ _ hn.2 hi).at hm
        refine ⟨max N M + 1, ?_⟩
        show evalCplx _ _ _ _ = _
        simp [evalCplx, hN _ (Nat.le_max_left N M), hM _ (Nat.le_max_right N M), Res.bind, hz]
    · rename_i num den
      simp at h
      subst h
      rcases evalRational_again num den with (h | h) | ⟨m, h⟩ | ⟨a, b, h, h'⟩
      · rw [h]; exact hsymDone _ hc.indeterminate
      · rw [h]; exact hsymDone _ hc.complexInfinity
      · rw [h]; exact ⟨1, rfl⟩
      · rw [h]; exact ⟨1, by simp [eval, h']⟩
    · rename_i s
      unfold evalSymbol at h
      split at h
      · rename_i hd
        simp at h
        subst h
        exact hsymDone _ hd
      · rename_i d hd
        unfold evalDef at h
        split at h
        · rename_i hds
          simp at h
          subst h
          subst hds
          exact ⟨1, by simp [eval, evalSymbol, hd, evalDef]⟩
        · replace h := Res.bind_ok h
          obtain ⟨⟨r1, r2⟩, hr, h⟩ := h
          obtain ⟨e1, hn'⟩ := hg.2 _ _ _ (hc.values _ _ hd) hr
          subst e1
          simp only [noReturn_tryReturn hc.notInterrupted hn'] at h
          simp at h
          subst h
          exact ih _ _ (hc.values _ _ hd) hr
    · simp at h
      subst h
      rename_i h1 h2 h3 h4
      cases e with
      | expr ps => exact absurd rfl (h1 ps)
      | cplx r i => exact absurd rfl (h2 r i)
      | rat a b => exact absurd rfl (h3 a b)
      | sym s => exact absurd rfl (h4 s)
      | str s => exact ⟨1, rfl⟩
      | int m => exact ⟨1, rfl⟩
      | flt x => exact ⟨1, rfl⟩

end Expreduce
