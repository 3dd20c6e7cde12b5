import Verif.Proofs.Iter
import Verif.Proofs.DefsOps

/-! Iteration functions: more fuel changes nothing; early exit; restoring the variables. -/

namespace Expreduce
open Ex

/-! ### More fuel -/

theorem IterSpec.reset_mono {ev ev' : Evaluator} (h : EvLe ev ev') (st : EState) (it : IterSpec) : (it.reset ev st).Le (it.reset ev' st) := by
  cases it with
  | range => exact .bind (h _ _) (fun _ => .refl _)
  | list => exact .refl _

theorem IterSpec.next_mono {ev ev' : Evaluator} (h : EvLe ev ev') (st : EState) (it : IterSpec) : (it.next ev st).Le (it.next ev' st) := by
  cases it with
  | range => exact .bind (h _ _) (fun _ => .refl _)
  | list => exact .refl _

theorem specFromList_mono {ev ev' : Evaluator} (h : EvLe ev ev') (st : EState) (e : Ex) : (specFromList ev st e).Le (specFromList ev' st e) := by
  unfold specFromList
  refine .bind ?_ (fun r => ?_)
  · unfold iterCandidate
    split
    · exact .bind (evalAll_mono h _ _) (fun _ => .refl _)
    · exact .refl _
    · exact .bind (h _ _) (fun _ => .refl _)
  · split
    · exact .refl _
    · exact .bind (IterSpec.reset_mono h _ _) (fun _ => .refl _)

theorem specsFromLists_mono {ev ev' : Evaluator} (h : EvLe ev ev') (es : List Ex) : ∀ st, (specsFromLists ev st es).Le (specsFromLists ev' st es) := by
  induction es with
  | nil => exact fun st => .refl _
  | cons e es ih =>
    intro st
    simp only [specsFromLists]
    refine .bind (specFromList_mono h _ _) (fun r => ?_)
    cases r.2 with
    | none => exact .refl _
    | some it => exact .bind (ih _) (fun _ => .refl _)

theorem multiNext_mono {ev ev' : Evaluator} (h : EvLe ev ev') (its : List IterSpec) : ∀ st, (multiNext ev st its).Le (multiNext ev' st its) := by
  induction its with
  | nil => exact fun st => .refl _
  | cons it its ih =>
    intro st
    simp only [multiNext]
    refine .bind (ih _) (fun r => ?_)
    split
    · exact .refl _
    · refine .bind (IterSpec.next_mono h _ _) (fun q => ?_)
      split
      · exact .refl _
      · exact .bind (IterSpec.reset_mono h _ _) (fun _ => .refl _)

/-- `GetDef` does not look at how much fuel is left. -/
def FindMono (find : Evaluator → EState → String → Ex → Res (EState × Option Ex)) : Prop :=
  ∀ ev ev' st s e, EvLe ev ev' → (find ev st s e).Le (find ev' st s e)

theorem takeSnapshot_mono {find} (hf : FindMono find) {ev ev' : Evaluator} (h : EvLe ev ev') (its : List IterSpec) :
    ∀ st, (takeSnapshot find ev st its).Le (takeSnapshot find ev' st its) := by
  induction its with
  | nil => exact fun st => .refl _
  | cons it its ih =>
    intro st
    simp only [takeSnapshot]
    refine .bind ?_ (fun r => .bind (ih _) (fun _ => .refl _))
    unfold getDefAny
    split
    · exact .refl _
    · exact hf _ _ _ _ _ h

theorem iterLoop_mono {α : Type} (strLen : Ex → Nat) {ev ev' : Evaluator} (h : EvLe ev ev') {act act' : EState → α → Res (EState × (α ⊕ Ex))}
    (hact : ∀ st a, (act st a).Le (act' st a)) : ∀ k k', k ≤ k' → ∀ st its a, (iterLoop strLen ev act k st its a).Le (iterLoop strLen ev' act' k' st its a)
  | 0, _, _, _, _, _ => .inl rfl
  | k + 1, k', hk, st, its, a => by
    obtain ⟨k', rfl⟩ : ∃ m, k' = m + 1 := ⟨k' - 1, by omega⟩
    simp only [iterLoop]
    refine .bind (.refl _) (fun st1 => .bind (hact _ _) (fun r => ?_))
    cases r.2 with
    | inr v => exact .refl _
    | inl b =>
      refine .bind (multiNext_mono h _ _) (fun q => ?_)
      split
      · exact iterLoop_mono strLen h hact k k' (by omega) _ _ _
      · exact .refl _

theorem iterRun_mono {α : Type} (strLen : Ex → Nat) {find} (hf : FindMono find) {ev ev' : Evaluator} (h : EvLe ev ev')
    {act act' : EState → α → Res (EState × (α ⊕ Ex))} (hact : ∀ st a, (act st a).Le (act' st a)) {n n' : Nat} (hn : n ≤ n') (st : EState) (lists : List Ex)
    (init : α) : (iterRun strLen find n ev act st lists init).Le (iterRun strLen find n' ev' act' st lists init) := by
  unfold iterRun
  refine .bind (specsFromLists_mono h _ _) (fun r => ?_)
  cases r.2 with
  | none => exact .refl _
  | some its =>
    refine .bind (takeSnapshot_mono hf h _ _) (fun s => .bind ?_ (fun q => .refl _))
    split
    · exact iterLoop_mono strLen h hact n n' hn _ _ _
    · exact .refl _

theorem tableFn_mono (strLen : Ex → Nat) {find} (hf : FindMono find) {ev ev' : Evaluator} (h : EvLe ev ev') {n n' : Nat} (hn : n ≤ n') (st : EState)
    (ps : List Ex) : (tableFn strLen find n ev st ps).Le (tableFn strLen find n' ev' st ps) := by
  unfold tableFn
  split
  · exact .bind (iterRun_mono strLen hf h (fun st a => .bind (h _ _) (fun _ => .refl _)) hn _ _ _) (fun _ => .refl _)
  · exact .refl _

theorem doFn_mono (strLen : Ex → Nat) {find} (hf : FindMono find) {ev ev' : Evaluator} (h : EvLe ev ev') {n n' : Nat} (hn : n ≤ n') (st : EState)
    (ps : List Ex) : (doFn strLen find n ev st ps).Le (doFn strLen find n' ev' st ps) := by
  unfold doFn
  split
  · exact .bind (iterRun_mono strLen hf h (fun st a => .bind (h _ _) (fun _ => .refl _)) hn _ _ _) (fun _ => .refl _)
  · exact .refl _

theorem foldFn_mono (op : String) (init : Ex) (strLen : Ex → Nat) {find} (hf : FindMono find) {ev ev' : Evaluator} (h : EvLe ev ev') {n n' : Nat}
    (hn : n ≤ n') (st : EState) (ps : List Ex) : (foldFn op init strLen find n ev st ps).Le (foldFn op init strLen find n' ev' st ps) := by
  unfold foldFn
  split
  · exact .bind (iterRun_mono strLen hf h (fun st a => .bind (h _ _) (fun _ => .bind (h _ _) (fun _ => .refl _))) hn _ _ _) (fun _ => .refl _)
  · exact .refl _

theorem rangeLoop_mono {ev ev' : Evaluator} (h : EvLe ev ev') : ∀ k k', k ≤ k' → ∀ st it acc, (rangeLoop ev k st it acc).Le (rangeLoop ev' k' st it acc)
  | 0, _, _, _, _, _ => .inl rfl
  | k + 1, k', hk, st, it, acc => by
    obtain ⟨k', rfl⟩ : ∃ m, k' = m + 1 := ⟨k' - 1, by omega⟩
    simp only [rangeLoop]
    split
    · exact .bind (.refl _) (fun v => .bind (IterSpec.next_mono h _ _) (fun r => rangeLoop_mono h k k' (by omega) _ _ _))
    · exact .refl _

theorem rangeFn_mono {ev ev' : Evaluator} (h : EvLe ev ev') {n n' : Nat} (hn : n ≤ n') (st : EState) (ps : List Ex) :
    (rangeFn n ev st ps).Le (rangeFn n' ev' st ps) := by
  unfold rangeFn
  refine .bind (specFromList_mono h _ _) (fun r => ?_)
  cases r.2 with
  | none => exact .refl _
  | some it => exact .bind (rangeLoop_mono h n n' hn _ _ _) (fun _ => .refl _)

/-! ### Leaving the loop -/

theorem iterLoop_exit {c : Ctx} (hc : c.Mono) (hsort : ∀ l, (c.sort l).Perm l) {α : Type} {strLen : Ex → Nat}
    {step : EState → α → EState → α → Prop} {act : Evaluator → EState → α → Res (EState × (α ⊕ Ex))}
    (hact : ∀ st a st' b, step st a st' b → ∃ N, ∀ n, N ≤ n → act (eval c n) st a = .ok (st', .inl b))
    {vars st a rows st' b} (hv : Visits c strLen step vars st a rows st' b) {row : List Ex} {post : List (List Ex)} {st1 st2 : EState} {t : Ex}
    (hrow : assignAll strLen st' vars row = .ok st1) (hex : ∃ N, ∀ n, N ≤ n → act (eval c n) st1 b = .ok (st2, .inr t)) {its alls rests}
    (h : AtAll its vars alls rests) (hr : ∀ r ∈ rests, r ≠ []) (hrem : remaining rests alls = rows ++ row :: post) :
    ∃ N, ∀ n, N ≤ n → ∀ k, rows.length < k → iterLoop strLen (eval c n) (act (eval c n)) k st its a = .ok (st2, .inr t) := by
  induction hv generalizing its rests with
  | nil =>
    obtain ⟨tl, htl⟩ := remaining_eq h hr
    rw [htl] at hrem
    simp only [List.nil_append, List.cons.injEq] at hrem
    obtain ⟨rfl, rfl⟩ := hrem
    obtain ⟨N, hN⟩ := hex
    refine ⟨N, fun n hn k hk => ?_⟩
    obtain ⟨k, rfl⟩ : ∃ m, k = m + 1 := ⟨k - 1, by simp at hk; omega⟩
    simp [iterLoop, defineCurrent_eq strLen h hr, hrow, Res.bind, hN n hn]
  | @cons st a row0 st10 st20 b rows st3 d h1 h2 h3 h4 ih =>
    obtain ⟨tl, htl⟩ := remaining_eq h hr
    rw [htl] at hrem
    simp only [List.cons_append, List.cons.injEq] at hrem
    obtain ⟨rfl, rfl⟩ := hrem
    obtain ⟨its', rests', g1, g2, g3, N, hN⟩ := multiNext_spec hc hsort h3 h hr htl
    obtain ⟨M, hM⟩ := hact _ _ _ _ h2
    rw [if_neg (by simp)] at g3
    obtain ⟨K, hK⟩ := ih hrow hex g1 g2 g3
    refine ⟨max (max N M) K, fun n hn k hk => ?_⟩
    obtain ⟨k, rfl⟩ : ∃ m, k = m + 1 := ⟨k - 1, by omega⟩
    simp only [List.length_cons] at hk
    simp [iterLoop, defineCurrent_eq strLen h hr, h1, Res.bind, hM n (by omega), hN n (by omega), hK n (by omega) k (by omega)]

theorem iterRun_exit {c : Ctx} (hc : c.Mono) (hsort : ∀ l, (c.sort l).Perm l) {α : Type} {strLen : Ex → Nat} {find}
    {step : EState → α → EState → α → Prop} {act : Evaluator → EState → α → Res (EState × (α ⊕ Ex))}
    (hact : ∀ st a st' b, step st a st' b → ∃ N, ∀ n, N ≤ n → act (eval c n) st a = .ok (st', .inl b))
    {st st1 st2 st3 st4 : EState} {lists : List Ex} {names : List String} {values : List (List Ex)} (hlen : names.length = values.length) {a b : α}
    {rows post : List (List Ex)} {row : List Ex} {t : Ex}
    (hi : IterSeq c st lists st1 ((names.map Ex.sym).zip values)) (hrows : combinations values = rows ++ row :: post)
    (hv : Visits c strLen step (names.map Ex.sym) st1 a rows st2 b) (hrow : assignAll strLen st2 (names.map Ex.sym) row = .ok st3)
    (hex : ∃ N, ∀ n, N ≤ n → act (eval c n) st3 b = .ok (st4, .inr t)) :
    ∃ N, ∀ n, N ≤ n → iterRun strLen find n (eval c n) (act (eval c n)) st lists a = .ok (st4, some (.inr t)) := by
  obtain ⟨its, hits, N, hN⟩ := specsFromLists_spec hc hsort hi
  rw [List.map_fst_zip (by simp [hlen]), List.map_snd_zip (by simp [hlen])] at hits
  have hsnap : ∀ n, takeSnapshot find (eval c n) st1 its = .ok (st1, names.map (getSymDef st1.toDState)) := fun n => takeSnapshot_syms hits
  have hall : ∀ r ∈ values, r ≠ [] := by
    rintro r hr rfl
    have : combinations values = [] := by
      clear hrows hi hits hlen
      induction values with
      | nil => simp at hr
      | cons l ls ih =>
        rcases List.mem_cons.1 hr with h | h
        · subst h; simp [combinations]
        · simp [combinations, ih h]
    rw [this] at hrows; simp at hrows
  have hc' : its.all IterSpec.cont = true := hits.all_cont.2 hall
  obtain ⟨M, hM⟩ := iterLoop_exit hc hsort hact hv hrow hex hits hall (by rw [remaining_all]; exact hrows)
  refine ⟨max (max N M) (rows.length + 1), fun n hn => ?_⟩
  simp [iterRun, hN n (by omega), Res.bind, hsnap, hc', hM n (by omega) n (by omega)]

/-! ### Values of symbols -/

theorem find_split {p : DV → Bool} (a b : List DV) (dv : DV) (h1 : ∀ d ∈ a, p d = false) (h2 : p dv = true) : (a ++ dv :: b).find? p = some dv := by
  induction a with
  | nil => simp [h2]
  | cons x a ih => simp only [List.cons_append]; rw [List.find?_cons, h1 x (by simp), ih (fun d hd => h1 d (by simp [hd]))]

/-- After an assignment to a symbol it has that value. -/
theorem define_symbol {strLen : Ex → Nat} {st : DState} {x : String} {r : Ex} (hx : x ≠ "") (hf : st.frozen = false)
    (hr : PlainRules x (rulesFor st x)) (hu : Unconditional r) :
    ∃ st', define strLen st (.sym x) r = some st' ∧ getSymDef st' x = some r ∧ PlainRules x (rulesFor st' x) ∧ st'.frozen = false ∧
      ∀ n, n ≠ x → st'.defs n = st.defs n := by
  have hs : isSymbolRule (held (.sym x)) = true := (isSymbolRule_held _).2 ⟨x, rfl⟩
  have hm : MaskOk r := by unfold MaskOk; rw [mask_unconditional hu]; simp
  have ht : targetOf (.sym x) = .rule x := by simp [targetOf, hx]
  have hkey : defKey (.sym x) r = (hash (held (.sym x)), some (hash (S "ExpreduceNonConditional"))) := by
    simp [defKey, mask_unconditional hu]
  unfold define
  simp only [hf, Bool.false_eq_true, if_false, ht]
  cases hd : st.defs x with
  | none =>
    refine ⟨_, rfl, ?_, ?_, rfl, ?_⟩
    · simp [getSymDef, Table.set, hs]
    · simp only [rulesFor, Table.set, if_true, Option.map_some, Option.getD_some]
      constructor <;> simp [hm, hu]
    · intro n hn; simp [Table.set, hn]
  | some d =>
    have hrs : rulesFor st x = d.downvalues := by simp [rulesFor, hd]
    rw [hrs] at hr
    have hown : ∀ dv ∈ d.downvalues, ruleKey dv ≠ defKey (.sym x) r → isSymbolRule dv.lhs = false := by
      intro dv hdv hk
      cases hb : isSymbolRule dv.lhs with
      | false => rfl
      | true =>
        obtain ⟨h1, h2⟩ := hr.own dv hdv hb
        exact absurd (by rw [hkey, ruleKey, h1, mask_unconditional h2]; rfl) hk
    rcases defineRule_spec (strLen := strLen) (name := x) (l := .sym x) hm (dvs := d.downvalues) (fun dv hdv => ⟨hr.mask dv hdv, hr.held dv hdv⟩) with
      ⟨a, dv, b, hdvs, h1, h2, h3⟩ | ⟨h1, new, hnew, a, b, sp, hdvs, hsp, h3, -⟩
    · simp only [h3, Option.map_some]
      have hmem : ∀ e, e ∈ a ∨ e = dv ∨ e ∈ b → e ∈ d.downvalues := by
        intro e he; rw [hdvs]; simp; tauto
      have hlhs : dv.lhs = held (.sym x) := by
        refine hr.noCollision dv (hmem _ (by simp)) ?_
        rw [hkey, ruleKey] at h2
        exact congrArg Prod.fst h2
      refine ⟨_, rfl, ?_, ?_, rfl, ?_⟩
      · simp only [getSymDef, Table.set, if_true]
        rw [find_split a b { dv with rhs := r } (fun e he => hown e (hmem e (by simp [he])) (h1 e he)) (by simp [hlhs, hs])]
        rfl
      · simp only [rulesFor, Table.set, if_true, Option.map_some, Option.getD_some]
        have : ∀ e ∈ a ++ { dv with rhs := r } :: b, e ∈ d.downvalues ∨ e = { dv with rhs := r } := by
          intro e he
          simp only [List.mem_append, List.mem_cons] at he
          rcases he with he | he | he
          · exact .inl (hmem e (by simp [he]))
          · exact .inr he
          · exact .inl (hmem e (by simp [he]))
        constructor
        · intro e he; rcases this e he with h | rfl
          · exact hr.held e h
          · exact ⟨_, hlhs⟩
        · intro e he; rcases this e he with h | rfl
          · exact hr.mask e h
          · exact hm
        · intro e he; rcases this e he with h | rfl
          · exact hr.own e h
          · exact fun _ => ⟨hlhs, hu⟩
        · intro e he; rcases this e he with h | rfl
          · exact hr.noCollision e h
          · exact fun _ => hlhs
      · intro n hn; simp [Table.set, hn]
    · simp only [h3, Option.map_some]
      have hmem : ∀ e, e ∈ a ∨ e ∈ b → e ∈ d.downvalues := by
        intro e he; rw [hdvs]; simp; tauto
      refine ⟨_, rfl, ?_, ?_, rfl, ?_⟩
      · simp only [getSymDef, Table.set, if_true]
        rw [find_split a b _ (fun e he => hown e (hmem e (.inl he)) (h1 e (hmem e (.inl he)))) (by simp [hs])]
        rfl
      · simp only [rulesFor, Table.set, if_true, Option.map_some, Option.getD_some]
        have : ∀ e ∈ a ++ { lhs := held (.sym x), rhs := r, spec := sp } :: b, e ∈ d.downvalues ∨ e = { lhs := held (.sym x), rhs := r, spec := sp } := by
          intro e he
          simp only [List.mem_append, List.mem_cons] at he
          rcases he with he | he | he
          · exact .inl (hmem e (.inl he))
          · exact .inr he
          · exact .inl (hmem e (.inr he))
        constructor
        · intro e he; rcases this e he with h | rfl
          · exact hr.held e h
          · exact ⟨_, rfl⟩
        · intro e he; rcases this e he with h | rfl
          · exact hr.mask e h
          · exact hm
        · intro e he; rcases this e he with h | rfl
          · exact hr.own e h
          · exact fun _ => ⟨rfl, hu⟩
        · intro e he; rcases this e he with h | rfl
          · exact hr.noCollision e h
          · exact fun _ => rfl
      · intro n hn; simp [Table.set, hn]

theorem clear_symbol (st : DState) (x : String) : getSymDef (clear st x) x = none ∧ PlainRules x (rulesFor (clear st x) x) ∧
    (clear st x).frozen = st.frozen ∧ ∀ n, n ≠ x → (clear st x).defs n = st.defs n := by
  unfold clear
  cases h : st.defs x with
  | none =>
    refine ⟨by simp [getSymDef, h], ?_, rfl, fun n _ => rfl⟩
    simp only [rulesFor, h, Option.map_none, Option.getD_none]
    constructor <;> simp
  | some d =>
    refine ⟨by simp [getSymDef, Table.set], ?_, rfl, fun n hn => by simp [Table.set, hn]⟩
    simp only [rulesFor, Table.set, if_true, Option.map_some, Option.getD_some]
    constructor <;> simp

end Expreduce
