import Verif.Model.Inequality
import Verif.Spec.Inequality
import Verif.Props.Matrix
import Verif.Props.Functional4

/-! Property C81: chained comparisons. -/

namespace Expreduce
open Ex

variable {K : Type} [LinearOrder K]

/-- The evaluator has no effects and its verdicts on comparisons are right for the values `ρ`. -/
structure RightVerdicts (ρ : Ex → K) (ev : Evaluator) (g : Ex → Ex) : Prop where
  run : ∀ st e, ev st e = .ok (st, g e)
  yes : ∀ op x y, g (.expr [op, x, y]) = S "True" → Rel op (ρ x) (ρ y)
  no : ∀ op x y, g (.expr [op, x, y]) = S "False" → ¬ Rel op (ρ x) (ρ y)

theorem chain_append (ρ : Ex → K) : ∀ (r : List (Ex × Ex)) (a : Ex) (s : List (Ex × Ex)),
    ChainHolds ρ a (r ++ s) ↔ ChainHolds ρ a r ∧ ChainHolds ρ ((r.map Prod.snd).getLastD a) s
  | [], a, s => by simp [ChainHolds]
  | (op, b) :: r, a, s => by
    simp only [List.cons_append, ChainHolds, chain_append ρ r b s, and_assoc, List.map_cons, List.getLastD_cons]

theorem anyFalse_eq {ev : Evaluator} {g : Ex → Ex} (run : ∀ st e, ev st e = .ok (st, g e)) (op lhs : Ex) (st : EState) : ∀ bs : List Ex,
    anyFalse ev op lhs st bs = .ok (st, bs.any (fun b => decide (g (.expr [op, lhs, b]) = S "False")))
  | [] => rfl
  | b :: bs => by
    rw [anyFalse, run, res_ok_bind]
    by_cases h : g (.expr [op, lhs, b]) = S "False"
    · simp [h]
    · simp [h, anyFalse_eq run op lhs st bs]

theorem chainArgs_last (a : Ex) (r : List (Ex × Ex)) (x : Ex) : (chainArgs a r).getLastD x = (r.map Prod.snd).getLastD a := by
  induction r generalizing a with
  | nil => rfl
  | cons p r ih =>
    have := ih p.2
    simp only [chainArgs, List.flatMap_cons, List.map_cons, List.cons_append, List.nil_append, List.getLastD_cons] at this ⊢
    exact this

theorem chainArgs_append (a : Ex) (r s : List (Ex × Ex)) : chainArgs a (r ++ s) = chainArgs a r ++ s.flatMap (fun p => [p.1, p.2]) := by
  simp [chainArgs]

/-- `le` is a preorder that goes along with the operator. -/
structure Along (le : K → K → Prop) (op : Ex) : Prop where
  valid : op = S "Less" ∨ op = S "LessEqual" ∨ op = S "Equal" ∨ op = S "GreaterEqual" ∨ op = S "Greater"
  weak : ∀ x y, Rel op x y → le x y
  left : ∀ x y z, le x y → Rel op y z → Rel op x z
  right : ∀ x y z, Rel op x y → le y z → Rel op x z

/-- The result under construction: nothing, or a chain that follows from `P` and ends at `c`. -/
def ChainRes (ρ : Ex → K) (P : Prop) (res : List Ex) (c : Ex) : Prop :=
  res = [] ∨ ∃ a0 r0, r0 ≠ [] ∧ res = chainArgs a0 r0 ∧ (r0.map Prod.snd).getLastD a0 = c ∧ (P → ChainHolds ρ a0 r0) ∧
    ∀ p ∈ r0, p.1 = S "Less" ∨ p.1 = S "LessEqual" ∨ p.1 = S "Equal" ∨ p.1 = S "GreaterEqual" ∨ p.1 = S "Greater"

theorem finish_means {ρ : Ex → K} {P : Prop} {res : List Ex} {c : Ex} (h : ChainRes ρ P res c) : ∃ p, Means ρ (finishIneq res) p ∧ (P → p) := by
  rcases h with rfl | ⟨a0, r0, hne, rfl, -, hP, hops⟩
  · exact ⟨True, .true, fun _ => trivial⟩
  · match r0, hne with
    | [(op, b)], _ => exact ⟨_, .compare op a0 b (hops (op, b) (by simp)), fun h => (hP h).1⟩
    | (op, b) :: (op', b') :: r, _ =>
      refine ⟨_, ?_, hP⟩
      have : finishIneq (chainArgs a0 ((op, b) :: (op', b') :: r)) = .expr (S "Inequality" :: ineqArgs a0 ((op, b) :: (op', b') :: r)) := by
        simp [finishIneq, chainArgs, ineqArgs]
      rw [this]
      exact .chain _ _

theorem loop_sound {ρ : Ex → K} {ev : Evaluator} {g : Ex → Ex} (hv : RightVerdicts ρ ev g) {le : K → K → Prop} (refl : ∀ x, le x x)
    (trans : ∀ x y z, le x y → le y z → le x z) (P : Prop) (st : EState) :
    ∀ (r : List (Ex × Ex)) (res : List Ex) (a : Ex), (∀ p ∈ r, Along le p.1) → isSameQ (S "Inequality") a = false → (∀ p ∈ r, isSameQ (S "Inequality") p.2 = false) →
      ChainRes ρ P res (res.getLastD a) → (P → le (ρ (res.getLastD a)) (ρ a)) → (P → ChainHolds ρ a r) →
      ∃ v p, ineqLoop ev st res a r = .ok (st, v) ∧ Means ρ v p ∧ (P → p) := by
  intro r
  induction r with
  | nil =>
    intro res a _ _ _ hres _ _
    obtain ⟨p, h1, h2⟩ := finish_means hres
    exact ⟨_, p, rfl, h1, h2⟩
  | cons q r ih =>
    obtain ⟨op, b⟩ := q
    intro res a hal hia hib hres hle hP
    have hop := hal (op, b) (by simp)
    -- P gives the comparison with every later operand
    have later : ∀ (r : List (Ex × Ex)) (b : Ex), (∀ p ∈ r, Along le p.1) → ChainHolds ρ b r → ∀ y ∈ b :: r.map Prod.snd, le (ρ b) (ρ y) := by
      intro r
      induction r with
      | nil => intro b _ _ y hy; simp at hy; subst hy; exact refl _
      | cons q r ih2 =>
        obtain ⟨op', b'⟩ := q
        intro b hal hc y hy
        rcases List.mem_cons.1 hy with rfl | hy
        · exact refl _
        · exact trans _ _ _ ((hal (op', b') (by simp)).weak _ _ hc.1) (ih2 b' (fun p hp => hal p (List.mem_cons_of_mem _ hp)) hc.2 y hy)
    have hrel : P → ∀ y ∈ b :: r.map Prod.snd, Rel op (ρ (res.getLastD a)) (ρ y) := fun h y hy =>
      hop.right _ _ _ (hop.left _ _ _ (hle h) (hP h).1) (later r b (fun p hp => hal p (List.mem_cons_of_mem _ hp)) (hP h).2 y hy)
    rw [ineqLoop, anyFalse_eq hv.run, res_ok_bind]
    by_cases hf : (b :: r.map Prod.snd).any (fun y => decide (g (.expr [op, res.getLastD a, y]) = S "False")) = true
    · rw [if_pos hf]
      refine ⟨_, False, rfl, .false, fun h => ?_⟩
      obtain ⟨y, hy, hy2⟩ := List.any_eq_true.1 hf
      exact hv.no _ _ _ (of_decide_eq_true hy2) (hrel h y hy)
    · rw [if_neg hf, hv.run, res_ok_bind]
      have hal' : ∀ p ∈ r, Along le p.1 := fun p hp => hal p (List.mem_cons_of_mem _ hp)
      have hib' : ∀ p ∈ r, isSameQ (S "Inequality") p.2 = false := fun p hp => hib p (List.mem_cons_of_mem _ hp)
      have hP' : P → ChainHolds ρ b r := fun h => (hP h).2
      have hib0 := hib (op, b) (by simp)
      by_cases ht : g (.expr [op, res.getLastD a, b]) = S "True"
      · rw [if_pos ht]
        rcases hres with rfl | ⟨a0, r0, hne, hr0, hlast, hch, hops⟩
        · exact ih [] b hal' hib0 hib' (.inl rfl) (fun _ => refl _) hP'
        · have e : ∀ x, res.getLastD x = (r0.map Prod.snd).getLastD a0 := fun x => by rw [hr0, chainArgs_last]
          refine ih res b hal' hib0 hib' (.inr ⟨a0, r0, hne, hr0, (e b).symm, hch, hops⟩) (fun h => ?_) hP'
          have := trans _ _ _ (hle h) (hop.weak _ _ (hP h).1)
          rwa [e b, ← e a]
      · rw [if_neg ht]
        rcases hres with rfl | ⟨a0, r0, hne, hr0, hlast, hch, hops⟩
        · have e : appendComparison [] a op b = chainArgs a [(op, b)] := by
            simp only [appendComparison, List.getLast_singleton, hia, Bool.false_eq_true, if_false]
            rfl
          rw [List.getLastD_nil, e]
          exact ih _ b hal' hib0 hib' (.inr ⟨a, [(op, b)], by simp, rfl, rfl, fun h => ⟨(hP h).1, trivial⟩, by simpa using hop.valid⟩) (fun _ => refl _) hP'
        · have e1 : (S "Inequality" :: res).getLast (by simp) = res.getLastD a := by
            have : res ≠ [] := by rw [hr0]; simp [chainArgs]
            rw [List.getLast_cons this, List.getLastD_eq_getLast?, List.getLast?_eq_getLast_of_ne_nil this, Option.getD_some]
          have e : appendComparison res (res.getLastD a) op b = chainArgs a0 (r0 ++ [(op, b)]) := by
            rw [appendComparison, e1, if_pos (isSameQ_refl' _), chainArgs_append, ← hr0]
            rfl
          rw [e]
          have hl : (chainArgs a0 (r0 ++ [(op, b)])).getLastD b = b := by rw [chainArgs_last]; simp
          refine ih _ b hal' hib0 hib' (.inr ⟨a0, r0 ++ [(op, b)], by simp, rfl, by rw [hl]; simp, fun h => ?_, ?_⟩) (fun _ => by rw [hl]; exact refl _) hP'
          · refine (chain_append ρ _ _ _).2 ⟨hch h, ?_, trivial⟩
            rw [hlast]
            exact hrel h b (by simp)
          · intro p hp
            rcases List.mem_append.1 hp with hp | hp
            · exact hops p hp
            · obtain rfl := List.mem_singleton.1 hp
              exact hop.valid

theorem finish_true {res : List Ex} (h : finishIneq res = S "True") : res = [] := by
  unfold finishIneq at h
  split at h <;> simp_all [S]

theorem appendComparison_ne (res : List Ex) (a op b : Ex) : appendComparison res a op b ≠ [] := by simp [appendComparison]

theorem loop_true {ρ : Ex → K} {ev : Evaluator} {g : Ex → Ex} (hv : RightVerdicts ρ ev g) (st st' : EState) :
    ∀ (r : List (Ex × Ex)) (res : List Ex) (a : Ex), ineqLoop ev st res a r = .ok (st', S "True") → res = [] ∧ ChainHolds ρ a r := by
  intro r
  induction r with
  | nil =>
    intro res a h
    rw [ineqLoop] at h
    injection h with h
    exact ⟨finish_true (Prod.ext_iff.1 h).2, trivial⟩
  | cons q r ih =>
    obtain ⟨op, b⟩ := q
    intro res a h
    rw [ineqLoop, anyFalse_eq hv.run, res_ok_bind] at h
    split at h
    · injection h with h
      exact absurd (Prod.ext_iff.1 h).2 (by simp [S])
    · rw [hv.run, res_ok_bind] at h
      obtain ⟨h1, h2⟩ := ih _ _ h
      split at h1
      · rename_i ht
        subst h1
        exact ⟨rfl, hv.yes _ _ _ ht, h2⟩
      · exact absurd h1 (appendComparison_ne _ _ _ _)

theorem opPairs_chain (r : List (Ex × Ex)) : opPairs (r.flatMap (fun p => [p.1, p.2])) = some r := by
  induction r with
  | nil => rfl
  | cons p r ih => simp [opPairs, ih]

theorem up_along {op : Ex} (h : op = S "Less" ∨ op = S "LessEqual") : Along (fun x y : K => x ≤ y) op := by
  rcases h with rfl | rfl
  · refine ⟨by simp, ?_, ?_, ?_⟩ <;> simp only [Rel, S, sym.injEq] <;> intro x y <;> simp
    · exact le_of_lt
    · exact fun z h1 h2 => lt_of_le_of_lt h1 h2
    · exact fun z h1 h2 => lt_of_lt_of_le h1 h2
  · refine ⟨by simp, ?_, ?_, ?_⟩ <;> simp only [Rel, S, sym.injEq] <;> intro x y <;> simp
    · exact fun z h1 h2 => le_trans h1 h2
    · exact fun z h1 h2 => le_trans h1 h2

theorem down_along {op : Ex} (h : op = S "Greater" ∨ op = S "GreaterEqual") : Along (fun x y : K => y ≤ x) op := by
  rcases h with rfl | rfl
  · refine ⟨by simp, ?_, ?_, ?_⟩ <;> simp only [Rel, S, sym.injEq] <;> intro x y <;> simp
    · exact le_of_lt
    · exact fun z h1 h2 => lt_of_lt_of_le h2 h1
    · exact fun z h1 h2 => lt_of_le_of_lt h2 h1
  · refine ⟨by simp, ?_, ?_, ?_⟩ <;> simp only [Rel, S, sym.injEq] <;> intro x y <;> simp
    · exact fun z h1 h2 => le_trans h2 h1
    · exact fun z h1 h2 => le_trans h2 h1

/-- The search for a change of direction on a chain without `==`: a change is found and both halves together mean the same, or there is none. -/
theorem findTurn_cases (ρ : Ex → K) (s : Int) (a0 : Ex) : ∀ (r done : List (Ex × Ex)),
    (∀ p ∈ r, compSign p.1 = 1 ∨ compSign p.1 = -1) →
    (∃ v p, findTurn s a0 done ((done.map Prod.snd).getLastD a0) r = .split v ∧ Means ρ v p ∧ (p ↔ ChainHolds ρ a0 (done ++ r))) ∨
    (findTurn s a0 done ((done.map Prod.snd).getLastD a0) r = .go ∧ ∀ p ∈ r, compSign p.1 ≠ -s)
  | [], done, _ => .inr ⟨rfl, by simp⟩
  | (op, b) :: r, done, h => by
    have h0 := h (op, b) (by simp)
    rw [findTurn, if_neg (by rcases h0 with h | h <;> simp [h])]
    by_cases hs : compSign op = -s
    · rw [if_pos hs]
      exact .inl ⟨_, _, rfl, .and (.chain a0 done) (.chain _ ((op, b) :: r)), (chain_append ρ done a0 _).symm⟩
    · rw [if_neg hs]
      have ih := findTurn_cases ρ s a0 r (done ++ [(op, b)]) (fun p hp => h p (List.mem_cons_of_mem _ hp))
      simp only [List.map_append, List.map_cons, List.map_nil, List.getLastD_concat, List.append_assoc, List.cons_append, List.nil_append] at ih
      rcases ih with h1 | ⟨h1, h2⟩
      · exact .inl h1
      · refine .inr ⟨h1, fun p hp => ?_⟩
        rcases List.mem_cons.1 hp with rfl | hp
        · exact hs
        · exact h2 p hp

theorem sign_up {op : Ex} (h : compSign op = -1) : op = S "Less" ∨ op = S "LessEqual" := by
  unfold compSign at h
  split at h
  · rename_i s
    by_cases h1 : s = "System`Less"
    · simp [S, h1]
    · by_cases h2 : s = "System`LessEqual"
      · simp [S, h2]
      · exfalso
        revert h
        simp only [h1, h2, if_false]
        split_ifs <;> simp
  · simp at h

theorem sign_down {op : Ex} (h : compSign op = 1) : op = S "Greater" ∨ op = S "GreaterEqual" := by
  unfold compSign at h
  split at h
  · rename_i s
    by_cases h1 : s = "System`Greater"
    · simp [S, h1]
    · by_cases h2 : s = "System`GreaterEqual"
      · simp [S, h2]
      · exfalso
        revert h
        simp only [h1, h2, if_false]
        split_ifs <;> simp
  · simp at h

/-- The operators of a chain are `<`, `<=`, `>` or `>=`. -/
def NoEqual (r : List (Ex × Ex)) : Prop := ∀ p ∈ r, p.1 = S "Less" ∨ p.1 = S "LessEqual" ∨ p.1 = S "Greater" ∨ p.1 = S "GreaterEqual"

theorem NoEqual.sign {r : List (Ex × Ex)} (h : NoEqual r) : ∀ p ∈ r, compSign p.1 = 1 ∨ compSign p.1 = -1 := by
  intro p hp
  rcases h p hp with h | h | h | h <;> rw [h] <;> decide

theorem ineqFn_cases (P : Ex) (ev : Evaluator) (st : EState) (a : Ex) (r : List (Ex × Ex)) (hr : r ≠ []) (hn : NoEqual r) (ρ : Ex → K) :
    (∃ v p, ineqFn ev st (P :: ineqArgs a r) = .ok (st, v) ∧ Means ρ v p ∧ (p ↔ ChainHolds ρ a r)) ∨
    (ineqFn ev st (P :: ineqArgs a r) = ineqLoop ev st [] a r ∧ (Up r ∨ Down r)) := by
  match r, hr with
  | (op, b) :: r, _ =>
    have hs := hn.sign
    have h0 := hs (op, b) (by simp)
    have e : ineqFn ev st (P :: ineqArgs a ((op, b) :: r)) =
        afterTurn ev st (P :: ineqArgs a ((op, b) :: r)) a ((op, b) :: r) (findTurn (compSign op) a [(op, b)] b r) := by
      have hp := opPairs_chain ((op, b) :: r)
      simp only [List.flatMap_cons, List.cons_append, List.nil_append] at hp
      simp only [ineqArgs, List.flatMap_cons, List.cons_append, List.nil_append, ineqFn, hp]
      rw [if_neg (by rcases h0 with h | h <;> simp [h]), if_neg (by rcases h0 with h | h <;> simp [h])]
    rcases findTurn_cases ρ (compSign op) a r [(op, b)] (fun p hp => hs p (List.mem_cons_of_mem _ hp)) with ⟨v, p, h1, h2, h3⟩ | ⟨h1, h2⟩
    · left
      refine ⟨v, p, ?_, h2, h3⟩
      change findTurn _ a [(op, b)] b r = _ at h1
      rw [e, h1]
      rfl
    · right
      change findTurn _ a [(op, b)] b r = _ at h1
      refine ⟨by rw [e, h1]; rfl, ?_⟩
      rcases h0 with h0 | h0
      · right
        intro p hp
        rcases List.mem_cons.1 hp with rfl | hp
        · exact sign_down h0
        · refine sign_down ((hs p (List.mem_cons_of_mem _ hp)).resolve_right (fun h => h2 p hp ?_))
          change compSign op = 1 at h0
          rw [h, h0]
      · left
        intro p hp
        rcases List.mem_cons.1 hp with rfl | hp
        · exact sign_up h0
        · refine sign_up ((hs p (List.mem_cons_of_mem _ hp)).resolve_left (fun h => h2 p hp ?_))
          change compSign op = -1 at h0
          rw [h, h0]
          rfl

/-- C81. A chain of `<`, `<=`, `>`, `>=` becomes a statement that follows from the chain; in particular `False` is right. (`p` is the meaning of the result.) -/
theorem C81_follows_partial (P : Ex) (ρ : Ex → K) (ev : Evaluator) (g : Ex → Ex) (hv : RightVerdicts ρ ev g) (st : EState) (a : Ex) (r : List (Ex × Ex)) (hr : r ≠ [])
    (hn : NoEqual r) (hia : isSameQ (S "Inequality") a = false) (hib : ∀ p ∈ r, isSameQ (S "Inequality") p.2 = false) :
    ∃ v p, ineqFn ev st (P :: ineqArgs a r) = .ok (st, v) ∧ Means ρ v p ∧ (ChainHolds ρ a r → p) := by
  rcases ineqFn_cases P ev st a r hr hn ρ with ⟨v, p, h1, h2, h3⟩ | ⟨h1, h2⟩
  · exact ⟨v, p, h1, h2, h3.2⟩
  · rw [h1]
    rcases h2 with h2 | h2
    · exact loop_sound hv (le := fun x y => x ≤ y) (fun _ => le_rfl) (fun _ _ _ => le_trans) _ st r [] a (fun p hp => up_along (h2 p hp)) hia hib (.inl rfl)
        (fun _ => le_rfl) id
    · exact loop_sound hv (le := fun x y => y ≤ x) (fun _ => le_rfl) (fun _ _ _ h1 h2 => le_trans h2 h1) _ st r [] a (fun p hp => down_along (h2 p hp)) hia hib
        (.inl rfl) (fun _ => le_rfl) id

theorem means_true {ρ : Ex → K} {p : Prop} (h : Means ρ (S "True") p) : p := by
  generalize he : S "True" = e at h
  cases h <;> simp_all [S]

theorem means_false {ρ : Ex → K} {p : Prop} (h : Means ρ (S "False") p) : ¬ p := by
  generalize he : S "False" = e at h
  cases h <;> simp_all [S]

/-- C81. `True` and `False` are only returned for chains of `<`, `<=`, `>`, `>=` that are true resp. false. -/
theorem C81_right (P : Ex) (ρ : Ex → K) (ev : Evaluator) (g : Ex → Ex) (hv : RightVerdicts ρ ev g) (st : EState) (a : Ex) (r : List (Ex × Ex)) (hr : r ≠ [])
    (hn : NoEqual r) (hia : isSameQ (S "Inequality") a = false) (hib : ∀ p ∈ r, isSameQ (S "Inequality") p.2 = false) :
    (ineqFn ev st (P :: ineqArgs a r) = .ok (st, S "True") → ChainHolds ρ a r) ∧
    (ineqFn ev st (P :: ineqArgs a r) = .ok (st, S "False") → ¬ ChainHolds ρ a r) := by
  constructor
  · intro h
    rcases ineqFn_cases P ev st a r hr hn ρ with ⟨v, p, h1, h2, h3⟩ | ⟨h1, h2⟩
    · rw [h1] at h
      injection h with h
      obtain rfl := (Prod.ext_iff.1 h).2
      exact h3.1 (means_true h2)
    · rw [h1] at h
      exact (loop_true hv st st r [] a h).2
  · intro h hc
    obtain ⟨v, p, h1, h2, h3⟩ := C81_follows_partial P ρ ev g hv st a r hr hn hia hib
    rw [h1] at h
    injection h with h
    obtain rfl := (Prod.ext_iff.1 h).2
    exact means_false h2 (h3 hc)

theorem loop_decided {ev : Evaluator} {g : Ex → Ex} (run : ∀ st e, ev st e = .ok (st, g e)) (st : EState) : ∀ (r : List (Ex × Ex)) (a : Ex),
    (∀ p ∈ r, ∀ x y, g (.expr [p.1, x, y]) = S "True" ∨ g (.expr [p.1, x, y]) = S "False") →
    ineqLoop ev st [] a r = .ok (st, S "True") ∨ ineqLoop ev st [] a r = .ok (st, S "False")
  | [], a, _ => .inl rfl
  | (op, b) :: r, a, hd => by
    rw [ineqLoop, anyFalse_eq run, res_ok_bind]
    by_cases hf : (b :: r.map Prod.snd).any (fun y => decide (g (.expr [op, ([] : List Ex).getLastD a, y]) = S "False")) = true
    · rw [if_pos hf]
      exact .inr rfl
    · rw [if_neg hf, run, res_ok_bind]
      have ht : g (.expr [op, ([] : List Ex).getLastD a, b]) = S "True" := by
        refine (hd (op, b) (by simp) _ _).resolve_right (fun h => hf ?_)
        exact List.any_eq_true.2 ⟨b, by simp, decide_eq_true h⟩
      rw [if_pos ht]
      exact loop_decided run st r b (fun p hp => hd p (List.mem_cons_of_mem _ hp))

/-- C81. If every comparison can be decided, a chain of operators of one direction evaluates to its truth value. -/
theorem C81_decided (P : Ex) (ρ : Ex → K) (ev : Evaluator) (g : Ex → Ex) (hv : RightVerdicts ρ ev g) (st : EState) (a : Ex) (r : List (Ex × Ex)) (hr : r ≠ [])
    (hn : Up r ∨ Down r) (hia : isSameQ (S "Inequality") a = false) (hib : ∀ p ∈ r, isSameQ (S "Inequality") p.2 = false)
    (hd : ∀ p ∈ r, ∀ x y, g (.expr [p.1, x, y]) = S "True" ∨ g (.expr [p.1, x, y]) = S "False") :
    (ChainHolds ρ a r → ineqFn ev st (P :: ineqArgs a r) = .ok (st, S "True")) ∧
    (¬ ChainHolds ρ a r → ineqFn ev st (P :: ineqArgs a r) = .ok (st, S "False")) := by
  have hne : NoEqual r := by
    intro p hp
    rcases hn with h | h
    · rcases h p hp with h | h <;> simp [h]
    · rcases h p hp with h | h <;> simp [h]
  have hsame : ineqFn ev st (P :: ineqArgs a r) = ineqLoop ev st [] a r := by
    match r, hr with
    | (op, b) :: r, _ =>
      have hp := opPairs_chain ((op, b) :: r)
      simp only [List.flatMap_cons, List.cons_append, List.nil_append] at hp
      simp only [ineqArgs, List.flatMap_cons, List.cons_append, List.nil_append, ineqFn, hp]
      have h0 := hne.sign (op, b) (by simp)
      rw [if_neg (by rcases h0 with h | h <;> simp [h]), if_neg (by rcases h0 with h | h <;> simp [h])]
      have hgo : ∀ (s : Int) (r done : List (Ex × Ex)) (last : Ex), (∀ p ∈ r, compSign p.1 = s) → s = 1 ∨ s = -1 → findTurn s a done last r = .go := by
        intro s r
        induction r with
        | nil => intro done last _ _; rfl
        | cons q r ih =>
          obtain ⟨op', b'⟩ := q
          intro done last h hs
          have := h (op', b') (by simp)
          simp only at this
          rw [findTurn, if_neg (by rw [this]; omega), if_neg (by rw [this]; omega)]
          exact ih _ _ (fun p hp => h p (List.mem_cons_of_mem _ hp)) hs
      rw [hgo (compSign op) r _ _ ?_ h0]
      · rfl
      intro p hp
      rcases hn with h | h
      · have h1 := h (op, b) (by simp)
        have h2 := h p (List.mem_cons_of_mem _ hp)
        rcases h1 with h1 | h1 <;> rcases h2 with h2 | h2 <;> (simp only at h1; rw [h1, h2]; try decide)
      · have h1 := h (op, b) (by simp)
        have h2 := h p (List.mem_cons_of_mem _ hp)
        rcases h1 with h1 | h1 <;> rcases h2 with h2 | h2 <;> (simp only at h1; rw [h1, h2]; try decide)
  have hright := C81_right P ρ ev g hv st a r hr hne hia hib
  rw [hsame] at hright ⊢
  constructor
  · intro h
    exact (loop_decided hv.run st r a hd).resolve_right (fun h' => hright.2 h' h)
  · intro h
    exact (loop_decided hv.run st r a hd).resolve_left (fun h' => h (hright.1 h'))

/-- C81. A change of direction splits the chain in two with the same meaning: `a < b > c` is `a < b && b > c`. -/
theorem C81_split (P : Ex) (ρ : Ex → K) (ev : Evaluator) (st : EState) (a : Ex) (r : List (Ex × Ex)) (hr : r ≠ []) (hn : NoEqual r) (hud : ¬ Up r) (hdd : ¬ Down r) :
    ∃ v p, ineqFn ev st (P :: ineqArgs a r) = .ok (st, v) ∧ Means ρ v p ∧ (p ↔ ChainHolds ρ a r) :=
  (ineqFn_cases P ev st a r hr hn ρ).resolve_right (fun h => h.2.elim hud hdd)

/-- An evaluator that decides comparisons of integers and leaves everything else. -/
def intVerdict : Ex → Ex
  | .expr [.sym op, .int x, .int y] =>
    if op = "System`Less" then (if x < y then S "True" else S "False")
    else if op = "System`LessEqual" then (if x ≤ y then S "True" else S "False")
    else if op = "System`Equal" then (if x = y then S "True" else S "False")
    else if op = "System`Greater" then (if y < x then S "True" else S "False")
    else if op = "System`GreaterEqual" then (if y ≤ x then S "True" else S "False")
    else .expr [.sym op, .int x, .int y]
  | e => e

/-- C81. Parts of the statement are lost: `x < 1 < 2 < y` becomes `x < 1 < y`, which does not imply it. -/
theorem C81_comparison_lost (st : EState) :
    let x := Ex.sym "Global`x"; let y := Ex.sym "Global`y"; let r := [(S "Less", Ex.int 1), (S "Less", Ex.int 2), (S "Less", y)]
    ineqFn (fun st e => .ok (st, intVerdict e)) st (S "Inequality" :: ineqArgs x r) =
      .ok (st, .expr (S "Inequality" :: ineqArgs x [(S "Less", .int 1), (S "Less", y)])) ∧
    ∃ ρ : Ex → Int, (∀ n, ρ (.int n) = n) ∧ ChainHolds ρ x [(S "Less", .int 1), (S "Less", y)] ∧ ¬ ChainHolds ρ x r := by
  refine ⟨by rfl, fun e => match e with | .int n => n | .sym "Global`x" => 0 | _ => 2, fun n => rfl, ?_, ?_⟩
  · simp [ChainHolds, Rel, S]
  · simp [ChainHolds, Rel, S]

/-- C81. With `==` the verdict may be wrong: `1 == 1 < 2` is `False`. -/
theorem C81_equal_wrong (st : EState) (ρ : Ex → Int) (h : ∀ n, ρ (.int n) = n) :
    let r := [(S "Equal", Ex.int 1), (S "Less", Ex.int 2)]
    ineqFn (fun st e => .ok (st, intVerdict e)) st (S "Inequality" :: ineqArgs (.int 1) r) = .ok (st, S "False") ∧ ChainHolds ρ (.int 1) r := by
  refine ⟨by rfl, ?_⟩
  simp [ChainHolds, Rel, S, h]

/-- The hypotheses are met: the evaluator is right for every assignment of integers to the other expressions. -/
example (ρ : Ex → Int) (h : ∀ n, ρ (.int n) = n) : RightVerdicts ρ (fun st e => .ok (st, intVerdict e)) intVerdict := by
  have key : ∀ op x y, (intVerdict (.expr [op, x, y]) = S "True" → Rel op (ρ x) (ρ y)) ∧ (intVerdict (.expr [op, x, y]) = S "False" → ¬ Rel op (ρ x) (ρ y)) := by
    intro op x y
    cases op <;> cases x <;> cases y <;> first | (simp [intVerdict, S]; done) | skip
    rename_i op x y
    simp only [intVerdict, h]
    split_ifs <;> simp_all [Rel, S]
  exact ⟨fun _ _ => rfl, fun op x y => (key op x y).1, fun op x y => (key op x y).2⟩

end Expreduce
