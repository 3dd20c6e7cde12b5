import Verif.Proofs.Replace

/-! Matching against `h[c1, ..., ck]` where the `ci` are atoms. -/

namespace Expreduce
open Ex

/-- The outcome of matching against an atom. -/
def atomHit (x c : Ex) : Bool := isAtom x && isSameQ x c

theorem matchF_atomHit {env : MEnv} {n : Nat} {x c : Ex} {pm : PM} (hx : x ≠ .expr []) (hc : isAtom c = true) :
    matchF env (n + 1) x c pm = some (if atomHit x c then [none] else [], pm) := by
  rw [matchF_atom hx hc]
  cases x <;> simp [atomResult, atomHit, isAtom] <;> split <;> simp_all

/-- The parsed form of an atom. -/
def litForm (c : Ex) : ParsedForm := { startI := 1, endI := 1, form := c }

theorem parseForm_lit {sh : String} {d : Option Ex} {c : Ex} (hc : isAtom c = true) : parseForm false sh d c = some (litForm c) := by
  cases c <;> simp_all [isAtom, parseForm, stripOptional, argsOf, stripTest, stripPat, parseBody, hasHead, litForm]

theorem mapO_lit {sh : String} {d : Option Ex} : ∀ {cs : List Ex}, (∀ c ∈ cs, isAtom c = true) →
    mapO (parseForm false sh d) cs = some (cs.map litForm)
  | [], _ => rfl
  | c :: cs, h => by
    rw [mapO, parseForm_lit (h c (by simp)), mapO_lit (fun c' hc' => h c' (by simp [hc']))]
    rfl

theorem tries_lit (c : Ex) (rem : Int) : tries (litForm c) rem = if 1 ≤ rem then [1] else [] := by
  unfold tries litForm intRange
  simp only
  by_cases h : 1 ≤ rem
  · have : min (1 : Int) rem = 1 := by omega
    rw [this, if_pos h]
    simp [List.range_succ]
  · have : (min (1 : Int) rem + 1 - 1).toNat = 0 := by omega
    rw [this, if_neg h]
    simp

theorem completions_lit : ∀ (cs : List Ex) (rem : Int), cs ≠ [] →
    completions (cs.map litForm) rem = if rem = cs.length then [List.replicate cs.length 1] else []
  | [], _, h => absurd rfl h
  | [c], rem, _ => by
    simp only [List.map, completions, litForm, List.length_singleton]
    by_cases h : rem = 1
    · subst h; simp
    · rw [if_neg (by omega), if_neg (by simpa using h)]
  | c :: c' :: cs, rem, _ => by
    have ih := completions_lit (c' :: cs) (rem - 1) (by simp)
    simp only [List.map_cons] at ih ⊢
    rw [completions, tries_lit]
    by_cases h : 1 ≤ rem
    · rw [if_pos h]
      simp only [List.flatMap_cons, List.flatMap_nil, List.append_nil]
      rw [ih]
      by_cases h2 : rem - 1 = ((c' :: cs).length : Int)
      · rw [if_pos h2, if_pos (by simp at h2 ⊢; omega)]
        simp [List.replicate_succ]
      · rw [if_neg h2, if_neg (by simp at h2 ⊢; omega)]
        simp
    · rw [if_neg h, if_neg (by simp; omega)]
      simp

theorem cutBy_ones {α : Type} : ∀ (k : Nat) (xs : List α), xs.length = k → cutBy (List.replicate k 1) xs = xs.map (fun x => [x])
  | 0, xs, h => by
    rw [List.length_eq_zero_iff] at h; subst h; rfl
  | k + 1, [], h => by simp at h
  | k + 1, x :: xs, h => by
    simp only [List.length_cons, Nat.add_right_cancel_iff] at h
    simp [List.replicate_succ, cutBy, cutBy_ones k xs h]

theorem pick_ones (comps : List Ex) : ((List.range comps.length).map (fun i => [i])).map (pick comps) = comps.map (fun x => [x]) := by
  apply List.ext_getElem
  · simp
  · intro i h1 h2
    simp at h1
    simp [pick, h1]

/-- All comparisons succeed. -/
def allHit : List Ex → List Ex → Bool
  | x :: xs, c :: cs => atomHit x c && allHit xs cs
  | _, _ => true

theorem amiRun_lit {env : MEnv} {rec : MatchRec} {sh : String} (pm : PM) : ∀ (cs xs : List Ex), xs.length = cs.length →
    (∀ x ∈ xs, ∀ c ∈ cs, ∀ pm, rec x c pm = some (if atomHit x c then [none] else [], pm)) →
    amiRun env rec sh (cs.map litForm) (xs.map (fun x => [x])) pm = some (if allHit xs cs then [pm] else [])
  | [], xs, h, _ => by
    simp only [List.length_nil, List.length_eq_zero_iff] at h
    subst h
    simp [amiRun, allHit]
  | c :: cs, [], h, _ => by simp at h
  | c :: cs, x :: xs, h, hr => by
    simp only [List.length_cons, Nat.add_right_cancel_iff] at h
    have ih := amiRun_lit (env := env) (rec := rec) (sh := sh) pm cs xs h (fun x' hx' c' hc' => hr x' (by simp [hx']) c' (by simp [hc']))
    simp only [List.map_cons, amiRun, allHit]
    have e : amiElems rec (litForm c).form [x] pm = some (if atomHit x c then [pm] else []) := by
      have := hr x (by simp) c (by simp) pm
      simp only [amiElems, litForm]
      rw [this]
      cases atomHit x c <;> simp [bindO, mapO, PM.updateO, amiElems]
    rw [e]
    have hd : defineSequence env sh (litForm c) [x] pm = some pm := rfl
    by_cases hh : atomHit x c = true
    · simp only [hh, if_true, Bool.true_and]
      unfold bindO
      simp only [mapO, hd]
      rw [ih]
      simp
    · simp only [Bool.not_eq_true] at hh
      simp only [hh, Bool.false_eq_true, if_false, Bool.false_and]
      rfl

theorem matchRow_lit {rec : MatchRec} {c : Ex} : ∀ (xs : List Ex),
    (∀ x ∈ xs, ∀ pm, rec x c pm = some (if atomHit x c then [none] else [], pm)) →
    matchRow rec xs c = some (xs.map (fun x => atomHit x c))
  | [], _ => rfl
  | x :: xs, h => by
    have ih := matchRow_lit xs (fun x' hx' => h x' (by simp [hx']))
    unfold matchRow at ih ⊢
    rw [mapO, ih, h x (by simp)]
    cases hh : atomHit x c <;> simp [hh]

/-- The table either exists, or some form has no candidate. -/
theorem formTable_lit {rec : MatchRec} {xs : List Ex} : ∀ (cs : List Ex),
    (∀ x ∈ xs, ∀ c ∈ cs, ∀ pm, rec x c pm = some (if atomHit x c then [none] else [], pm)) →
    (∃ t, formTable rec xs (cs.map litForm) = some (some t)) ∨
      (formTable rec xs (cs.map litForm) = some none ∧ ∃ c ∈ cs, ∀ x ∈ xs, atomHit x c = false)
  | [], _ => Or.inl ⟨[], rfl⟩
  | c :: cs, h => by
    have hrow := matchRow_lit (rec := rec) (c := c) xs (fun x hx => h x hx c (by simp))
    rw [List.map_cons, formTable]
    have e : (litForm c).form = c := rfl
    rw [e, hrow]
    simp only
    by_cases hc : ((xs.map (fun x => atomHit x c)).count true : Int) < (litForm c).startI
    · right
      rw [if_pos hc]
      refine ⟨rfl, c, by simp, ?_⟩
      intro x hx
      by_contra hne
      simp only [Bool.not_eq_false] at hne
      have : 0 < (xs.map (fun x => atomHit x c)).count true := by
        rw [List.count_pos_iff]
        exact List.mem_map.2 ⟨x, hx, hne⟩
      simp only [litForm] at hc
      omega
    · rw [if_neg hc]
      rcases formTable_lit cs (fun x hx c' hc' => h x hx c' (by simp [hc'])) with ⟨t, ht⟩ | ⟨ht, c', hc', h'⟩
      · left; rw [ht]; exact ⟨_, rfl⟩
      · right; rw [ht]; exact ⟨rfl, c', by simp [hc'], h'⟩

theorem allHit_false {c : Ex} : ∀ (xs cs : List Ex), xs.length = cs.length → c ∈ cs → (∀ x ∈ xs, atomHit x c = false) → allHit xs cs = false
  | xs, [], _, h, _ => by simp at h
  | [], c' :: cs, h, _, _ => by simp at h
  | x :: xs, c' :: cs, h, hc, hx => by
    simp only [List.length_cons, Nat.add_right_cancel_iff] at h
    rcases List.mem_cons.1 hc with rfl | hc
    · simp [allHit, hx x (by simp)]
    · simp [allHit, allHit_false xs cs h hc (fun x' hx' => hx x' (by simp [hx']))]

/-- Matching a sequence against a non-empty sequence of atoms. -/
theorem seqMatch_lit {env : MEnv} {rec : MatchRec} {sh : String} {xs cs : List Ex} {pm : PM} (hc : ∀ c ∈ cs, isAtom c = true) (hne : cs ≠ [])
    (h : ∀ x ∈ xs, ∀ c ∈ cs, ∀ pm, rec x c pm = some (if atomHit x c then [none] else [], pm)) :
    seqMatch env rec xs cs false false sh pm = some (if xs.length = cs.length ∧ allHit xs cs = true then [pm] else []) := by
  unfold seqMatch
  rw [mapO_lit hc]
  simp only
  rcases formTable_lit (rec := rec) (xs := xs) cs h with ⟨t, ht⟩ | ⟨ht, c, hcm, h'⟩
  · rw [ht]
    simp only
    have ha : assignments xs.length (cs.map litForm) t false =
        some (if xs.length = cs.length then [(List.range xs.length).map (fun i => [i])] else []) := by
      unfold assignments
      rw [if_neg]
      · simp only [Bool.false_eq_true, if_false]
        rw [completions_lit cs _ hne]
        by_cases hl : xs.length = cs.length
        · rw [if_pos (by exact_mod_cast hl), if_pos hl]
          simp only [List.map_cons, List.map_nil]
          rw [← hl]
          simp only [List.map_replicate]
          have : Int.toNat 1 = 1 := rfl
          rw [this, cutBy_ones _ _ (by simp)]
        · rw [if_neg (by exact_mod_cast hl), if_neg hl]
          rfl
      · simp [litForm]
    rw [ha]
    simp only
    by_cases hl : xs.length = cs.length
    · rw [if_pos hl]
      unfold bindO
      simp only [mapO]
      rw [pick_ones, amiRun_lit pm cs xs hl h]
      simp [hl]
    · rw [if_neg hl, if_neg (fun hh => hl hh.1)]
      rfl
  · rw [ht]
    simp only
    rw [if_neg]
    rintro ⟨hl, hh⟩
    rw [allHit_false xs cs hl hcm h'] at hh
    simp at hh

/-- The comparison with a literal other than a real is by fingerprint. -/
theorem isSameQ_lit {x c : Ex} (hc : notFlt c = true) : isSameQ x c = (hash x == hash c) := by
  cases c <;> first | (cases x <;> rfl) | simp [notFlt] at hc

theorem allHit_iff {xs cs : List Ex} (hl : xs.length = cs.length) (hcf : ∀ c ∈ cs, notFlt c = true ∧ isAtom c = true)
    (hcl : ∀ x ∈ xs, ∀ c ∈ cs, hash x = hash c → x = c) : allHit xs cs = true ↔ xs = cs := by
  induction xs generalizing cs with
  | nil => cases cs <;> simp_all [allHit]
  | cons x xs ih =>
    cases cs with
    | nil => simp at hl
    | cons c cs =>
      simp only [List.length_cons, Nat.add_right_cancel_iff] at hl
      have ih' := ih hl (fun c hc => hcf c (by simp [hc])) (fun x hx c hc => hcl x (by simp [hx]) c (by simp [hc]))
      have h1 := hcf c (by simp)
      have h2 : atomHit x c = true ↔ x = c := by
        simp only [atomHit, Bool.and_eq_true, isSameQ_lit h1.1, beq_iff_eq]
        constructor
        · exact fun h => hcl x (by simp) c (by simp) h.2
        · rintro rfl; exact ⟨h1.2, rfl⟩
      simp only [allHit, Bool.and_eq_true, ih', h2, List.cons.injEq]

/-- What a literal match says. -/
def LitMatch (r : Option (List (Option PM) × PM)) (yes : Prop) : Prop :=
  (r = some ([some []], []) ∨ r = some ([none], [])) ∧ yes ∨ r = some ([], []) ∧ ¬ yes

theorem seqMatch_litMatch {env : MEnv} {n : Nat} {sh : String} {xs cs : List Ex} (hcf : ∀ c ∈ cs, notFlt c = true ∧ isAtom c = true)
    (hne : cs ≠ []) (hx : ∀ x ∈ xs, x ≠ .expr []) (hcl : ∀ x ∈ xs, ∀ c ∈ cs, hash x = hash c → x = c) :
    LitMatch ((seqMatch env (matchF env (n + 1)) xs cs false false sh []).map (fun rs => (rs.map some, []))) (xs = cs) := by
  rw [seqMatch_lit (fun c hc => (hcf c hc).2) hne (fun x hxm c hc pm => matchF_atomHit (hx x hxm) (hcf c hc).2)]
  by_cases hl : xs.length = cs.length
  · by_cases hh : allHit xs cs = true
    · rw [if_pos ⟨hl, hh⟩]
      exact Or.inl ⟨Or.inl rfl, (allHit_iff hl hcf hcl).1 hh⟩
    · rw [if_neg (fun h => hh h.2)]
      exact Or.inr ⟨rfl, fun h => hh ((allHit_iff hl hcf hcl).2 h)⟩
  · rw [if_neg (fun h => hl h.1)]
    refine Or.inr ⟨rfl, ?_⟩
    rintro rfl
    exact hl rfl

/-- A literal pattern `s[c1, ..., ck]`, `k ≥ 1`. -/
structure LitPat (env : MEnv) (s : String) (cs : List Ex) : Prop where
  head : s ∉ specialHeads
  flat : env.flat s = false
  ordl : env.orderless s = false
  ne : cs ≠ []
  atoms : ∀ c ∈ cs, notFlt c = true ∧ isAtom c = true
  rat : hash (S "Rational") ≠ hash (.sym s)
  cplx : hash (S "Complex") ≠ hash (.sym s)

theorem LitPat.parts {env s cs} (h : LitPat env s cs) : PartsPat (.sym s :: cs) :=
  PartsPat.app h.head h.ne (fun c hc => .body (.elem (.atom (h.atoms c hc).2)))

theorem matchParts_lit {env : MEnv} {n : Nat} {s : String} {cs as : List Ex} (h : LitPat env s cs) (hne : as ≠ []) (ha : ∀ x ∈ as, x ≠ .expr [])
    (hcl : ∀ x ∈ as, ∀ c ∈ .sym s :: cs, hash x = hash c → x = c) :
    LitMatch (matchParts env (matchF env (n + 1)) as (.sym s :: cs) false []) (as = .sym s :: cs) := by
  have hdiff := seqMatch_litMatch (env := env) (n := n) (sh := "Sequence") (xs := as) (cs := .sym s :: cs) (by
    intro c hc
    rcases List.mem_cons.1 hc with rfl | hc
    · exact ⟨rfl, rfl⟩
    · exact h.atoms c hc) (by simp) ha hcl
  cases as with
  | nil => exact absurd rfl hne
  | cons ah at' =>
    unfold matchParts
    split
    · rename_i e1 e2
      rename_i ah' at'' bh bt
      simp only [List.cons.injEq] at e1 e2
      obtain ⟨rfl, rfl⟩ := e1
      obtain ⟨rfl, rfl⟩ := e2
      split
      · rename_i s' t' e3
        simp only [Ex.sym.injEq] at e3
        subst e3
        split
        · rename_i e4
          subst e4
          rw [h.ordl, h.flat]
          simp only [Bool.not_false, Bool.and_true]
          have := seqMatch_litMatch (env := env) (n := n) (sh := s') (xs := at') (cs := cs) h.atoms h.ne (fun x hx => ha x (by simp [hx]))
            (fun x hx c hc => hcl x (by simp [hx]) c (by simp [hc]))
          simpa [LitMatch] using this
        · exact hdiff
      · exact hdiff
    · rename_i hh
      exact absurd rfl (hh _ _ _ _ rfl)

theorem LitMatch.first {r} {p : Prop} (h : LitMatch r p) : LitMatch (firstOnly r) p := by
  rcases h with ⟨rfl | rfl, h⟩ | ⟨rfl, h⟩
  · exact Or.inl ⟨Or.inl rfl, h⟩
  · exact Or.inl ⟨Or.inr rfl, h⟩
  · exact Or.inr ⟨rfl, h⟩

theorem LitMatch.mono {r} {p q : Prop} (h : LitMatch r p) (hpq : p ↔ q) : LitMatch r q := by
  unfold LitMatch at h ⊢; rw [← hpq]; exact h

theorem wellFormed_parts_ne {ps : List Ex} (h : wellFormed (.expr ps) = true) : ps ≠ [] ∧ ∀ p ∈ ps, p ≠ .expr [] := by
  simp only [wellFormed, Bool.and_eq_true, Bool.not_eq_true'] at h
  refine ⟨by rintro rfl; simp at h, ?_⟩
  rintro p hp rfl
  have := wellFormedL_mem h.2 _ hp
  simp [wellFormed] at this

theorem LitPat.result {env s cs} (h : LitPat env s cs) (rec : MatchRec) (a : Ex) (pm : PM) : partsResult env rec (.sym s :: cs) a pm =
    match a with
    | .expr as => matchParts env rec as (.sym s :: cs) false pm
    | _ => some (if isSameQ a (.expr (.sym s :: cs)) then ([none], pm) else ([], pm)) := by
  have h0 : headOmitted env (.sym s :: cs) a = false := by
    refine not_headOmitted (fun p hp => ?_) a
    rcases List.mem_cons.1 hp with rfl | hp
    · rfl
    · have := (h.atoms p hp).2
      cases p <;> simp_all [isAtom, isOptional]
  unfold partsResult assumedParts
  rw [h0]
  cases a <;> rfl

theorem matchF_lit {env : MEnv} {n : Nat} {s : String} {cs : List Ex} {u : Ex} (h : LitPat env s cs) (hw : wellFormed u = true)
    (hcl : ∀ x ∈ subexprs u, ∀ c ∈ subexprs (.expr (.sym s :: cs)), hash x = hash c → x = c) :
    LitMatch (matchF env (n + 3) u (.expr (.sym s :: cs)) []) (u = .expr (.sym s :: cs)) := by
  have hP := h.parts
  have hcs : ∀ c ∈ .sym s :: cs, c ∈ subexprs (.expr (.sym s :: cs)) := by
    intro c hc
    simp only [subexprs]
    exact List.mem_cons_of_mem _ (mem_subexprsL hc (subexprs_self c))
  have hconv : ∀ (t : String) (l : List Ex), hash (.sym t) ≠ hash (.sym s) → (∀ x ∈ l, x ≠ .expr []) →
      LitMatch (firstOnly (matchF env (n + 2) (.expr (.sym t :: l)) (.expr (.sym s :: cs)) [])) False := by
    intro t l ht hl
    refine LitMatch.first ?_
    rw [matchF_parts (by simp) hP, matchNormal_parts hP (verbatimOp_sym _)]
    simp only
    rw [h.result]
    simp only
    have hl' : ∀ x ∈ .sym t :: l, x ≠ .expr [] := by
      intro x hx
      rcases List.mem_cons.1 hx with rfl | hx
      · simp
      · exact hl x hx
    have hts : t ≠ s := by rintro rfl; exact ht rfl
    unfold matchParts
    simp only [hts, if_false]
    rw [seqMatch_lit (by
      intro c hc
      rcases List.mem_cons.1 hc with rfl | hc
      · rfl
      · exact (h.atoms c hc).2) (by simp) (fun x hx c hc pm => matchF_atomHit (hl' x hx) (by
        rcases List.mem_cons.1 hc with rfl | hc
        · rfl
        · exact (h.atoms c hc).2))]
    rw [if_neg]
    · exact Or.inr ⟨rfl, id⟩
    · rintro ⟨_, hh⟩
      simp only [allHit, atomHit, Bool.and_eq_true] at hh
      rw [isSameQ_lit (by rfl)] at hh
      simp at hh
      exact ht hh.1.2
  have ha : u ≠ .expr [] := by rintro rfl; simp [wellFormed] at hw
  rw [matchF_parts ha hP, matchNormal_parts hP (verbatimOp_sym _)]
  have hatom : (u ≠ .expr (.sym s :: cs)) → notFlt (.expr (.sym s :: cs)) = true → u ∈ subexprs u →
      LitMatch (some (if isSameQ u (.expr (.sym s :: cs)) then ([none], ([] : PM)) else ([], []))) (u = .expr (.sym s :: cs)) := by
    intro hne hf hu
    rw [isSameQ_lit hf, if_neg]
    · exact Or.inr ⟨rfl, hne⟩
    · simp only [beq_iff_eq]
      intro hh
      exact hne (hcl u hu _ (subexprs_self _) hh)
  cases u with
  | rat a b => exact (hconv _ _ h.rat (by simp)).mono (by simp)
  | cplx a b =>
    refine (hconv _ _ h.cplx ?_).mono (by simp)
    simp only [wellFormed, Bool.and_eq_true] at hw
    intro x hx
    simp only [List.mem_cons, List.not_mem_nil, or_false] at hx
    rcases hx with rfl | rfl <;> (rintro rfl; simp [wellFormed] at hw)
  | expr as =>
    have hw' := wellFormed_parts_ne hw
    simp only
    rw [h.result]
    refine (matchParts_lit h hw'.1 hw'.2 ?_).mono (by simp)
    intro x hx c hc
    exact hcl x (by simp only [subexprs]; exact List.mem_cons_of_mem _ (mem_subexprsL hx (subexprs_self x))) c (hcs c hc)
  | sym t =>
    simp only
    rw [h.result]
    exact hatom (by simp) rfl (subexprs_self _)
  | str t =>
    simp only
    rw [h.result]
    exact hatom (by simp) rfl (subexprs_self _)
  | int t =>
    simp only
    rw [h.result]
    exact hatom (by simp) rfl (subexprs_self _)
  | flt t =>
    simp only
    rw [h.result]
    exact hatom (by simp) rfl (subexprs_self _)

/-- `hit` describes the outcome of matching at every subexpression of `e`. -/
def Decides (env : MEnv) (m : Nat) (lhs rhs : Ex) (hit : Ex → Option Ex) (e : Ex) : Prop :=
  ∀ u ∈ subexprs e, match hit u with
    | some r => ∃ q, isMatchQ env m u lhs [] = some (true, q) ∧ replacePD rhs q = r
    | none => ∃ q, isMatchQ env m u lhs [] = some (false, q)

theorem replaceAll_eq {env : MEnv} {m : Nat} {stop : String} {lhs rhs : Ex} {hit : Ex → Option Ex}
    (hfl : ∀ s args, lhs = .expr (.sym s :: args) → env.flat s = false) : ∀ e : Ex, Decides env m lhs rhs hit e →
    (∀ u ∈ subexprs e, hash (rewriteOut (hasHead stop) hit u) = hash u → rewriteOut (hasHead stop) hit u = u) →
    replaceAll env m stop lhs rhs e = some (rewriteOut (hasHead stop) hit e) := by
  intro e
  have hatom : ∀ e : Ex, isAtom e = true → Decides env m lhs rhs hit e →
      replaceAll env m stop lhs rhs e = some (rewriteOut (hasHead stop) hit e) := by
    intro e hat hD
    have h := hD e (subexprs_self e)
    rw [replaceAll_atom hat]
    have hr : rewriteOut (hasHead stop) hit e = match hit e with
        | some r => r
        | none => e := by
      cases e with
      | expr ps => simp [isAtom] at hat
      | _ =>
        rw [rewriteOut]
        · rfl
        · simp
    cases hh : hit e with
    | none =>
      rw [hh] at h hr
      obtain ⟨q, hq⟩ := h
      rw [hq, hr]; rfl
    | some r =>
      rw [hh] at h hr
      obtain ⟨q, hq, hqr⟩ := h
      rw [hq, hr, ← hqr]; rfl
  induction e using Ex.ind with
  | hexpr ps ih =>
    intro hD hcl
    rw [replaceAll, rewriteOut]
    by_cases hs : hasHead stop (.expr ps) = true
    · rw [if_pos hs, if_pos hs]
    · rw [if_neg hs, if_neg hs]
      have h := hD _ (subexprs_self _)
      have hsub : ∀ p ∈ ps, ∀ u ∈ subexprs p, u ∈ subexprs (.expr ps) := by
        intro p hp u hu
        simp only [subexprs]
        exact List.mem_cons_of_mem _ (mem_subexprsL hp hu)
      cases hh : hit (.expr ps) with
      | some r =>
        rw [hh] at h
        obtain ⟨q, hq, hqr⟩ := h
        rw [hq]
        simp only
        rw [hqr]
      | none =>
        rw [hh] at h
        obtain ⟨q, hq⟩ := h
        rw [hq]
        simp only [flatCase_none hfl]
        have hl : replaceAllL env m stop lhs rhs ps = some (rewriteOutL (hasHead stop) hit ps) := by
          have : ∀ p ∈ ps, replaceAll env m stop lhs rhs p = some (rewriteOut (hasHead stop) hit p) := by
            intro p hp
            exact ih p hp (fun u hu => hD u (hsub p hp u hu)) (fun u hu => hcl u (hsub p hp u hu))
          clear ih hD hcl hs hh hq hsub
          induction ps with
          | nil => rfl
          | cons p ps ihp =>
            rw [replaceAllL, this p (by simp), ihp (fun p' hp' => this p' (by simp [hp']))]
            rfl
        rw [hl]
        simp only [keepIfSame]
        have hc := hcl _ (subexprs_self _)
        rw [rewriteOut, if_neg hs, hh] at hc
        simp only at hc
        split
        · rfl
        · rename_i hne
          simp only [ne_eq, not_not] at hne
          rw [hc hne]
  | _ => intro hD hcl; exact hatom _ rfl hD

end Expreduce
