import Verif.Proofs.MatchInst

/-! The bindings of a match concern only the names of the pattern. -/

namespace Expreduce
open Ex

mutual
/-- The names a pattern can bind: `x` for every part `x : body`. -/
def patNames : Ex → List String
  | .expr ps => (patName ps).toList ++ patNamesL ps
  | _ => []
/-- The same for a list. -/
def patNamesL : List Ex → List String
  | [] => []
  | p :: ps => patNames p ++ patNamesL ps
end

theorem mem_patNamesL {y : String} {ps : List Ex} : y ∈ patNamesL ps ↔ ∃ p ∈ ps, y ∈ patNames p := by
  induction ps with
  | nil => simp [patNamesL]
  | cons p ps ih => simp [patNamesL, ih]

/-- `y` is not a name of the pattern. -/
def Foreign (y : String) (p : Ex) : Prop := y ∉ patNames p

theorem foreign_sub {y : String} {ps : List Ex} (h : Foreign y (.expr ps)) : ∀ p ∈ ps, Foreign y p := by
  intro p hp hy
  exact h (by simp only [patNames, List.mem_append]; exact Or.inr (mem_patNamesL.2 ⟨p, hp, hy⟩))

theorem foreign_pat {y x : String} {b : Ex} (h : Foreign y (.expr [S "Pattern", .sym x, b])) : y ≠ x := by
  rintro rfl
  exact h (by simp [patNames, patName, S])

theorem patName_none_of {s : String} {args : List Ex} (h : s ≠ "System`Pattern") : patName (.sym s :: args) = none := by
  unfold patName
  split
  · rename_i h'
    rw [if_neg]
    simp only [List.cons.injEq, Ex.sym.injEq] at h'
    rw [← h'.1]; exact h
  · rfl

theorem foreign_expr {y : String} {s : String} {args : List Ex} (hs : s ≠ "System`Pattern") (h : ∀ p ∈ args, Foreign y p) :
    Foreign y (.expr (.sym s :: args)) := by
  intro hy
  simp only [patNames, patName_none_of hs, Option.toList_none, List.nil_append, mem_patNamesL] at hy
  obtain ⟨p, hp, hy⟩ := hy
  rcases List.mem_cons.1 hp with rfl | hp
  · simp [patNames] at hy
  · exact h p hp hy

theorem foreign_inherits (y : String) : Inherits (Foreign y) where
  sub := fun _ h => foreign_sub h
  blank := by
    intro s args as _ h1 h
    refine foreign_expr (by decide) ?_
    intro p hp
    rcases h1 with rfl | rfl
    · exact foreign_sub h p (by simp [List.mem_of_mem_take hp])
    · simp at hp

theorem foreign_shape {y : String} {d flat sh} {p : Ex} (h : APat p) (hp : Foreign y p) : Foreign y (shape d flat sh p).elem := by
  refine (foreign_inherits y).shapeElem ?_ h hp
  intro q e t hq h1
  have hq' := foreign_sub hq
  refine foreign_expr (by decide) ?_
  intro z hz
  simp only [List.mem_cons, List.not_mem_nil, or_false] at hz
  rcases hz with rfl | rfl
  · rcases h1 with ⟨b, rfl, _, hd⟩ | ⟨x, b, rfl, _, hd⟩
    · exact (foreign_inherits y).derived hd (hq' _ (by simp))
    · have hb := hq' (.expr [S "Pattern", .sym x, b]) (by simp)
      rcases hd with hd | ⟨_, rfl⟩
      · exact (foreign_inherits y).derived hd hb
      · exact foreign_sub hb _ (by simp)
  · exact hq' _ (by simp)

theorem foreign_name {y : String} {d flat sh} {p : Ex} (h : APat p) (hp : Foreign y p) : (shape d flat sh p).name ≠ some y := by
  have hN : ∀ {x : String} {q : Ex}, BPat q → Foreign y (.expr [S "Pattern", .sym x, q]) →
      (namedShape flat sh (.expr [S "Pattern", .sym x, q])).name ≠ some y := by
    intro x q _ hf
    have := foreign_pat hf
    simp only [namedShape, S]
    simp
    exact fun e => this e.symm
  have hB : ∀ {q : Ex}, BPat q → Foreign y q → (namedShape flat sh q).name ≠ some y := by
    intro q hq hf hc
    have := hq.derived.2 (Option.isSome_iff_ne_none.2 (by rw [hc]; simp))
    obtain ⟨x, t, rfl, ht⟩ := hq.isPat this
    have := foreign_pat hf
    simp only [namedShape, S] at hc
    simp at hc
    exact this hc.symm
  have hT : ∀ {q : Ex} (t : Ex), (testShape flat sh (.expr [S "PatternTest", q, t])).name = (namedShape flat sh q).name := by
    intro q t
    simp [testShape, S]
  have hO : ∀ {q : Ex} (rest : List Ex), OPat q → Foreign y (.expr (S "Optional" :: q :: rest)) →
      (shape d flat sh (.expr (S "Optional" :: q :: rest))).name ≠ some y := by
    intro q rest hq h
    obtain ⟨tst, nm, c2, t, hs⟩ := hq.strip
    rw [shape_opt, hs.shape]
    have hPq := foreign_sub h q (by simp)
    have hc : Foreign y c2 := by
      rcases hs.form with ⟨_, rfl⟩ | ⟨u, _, rfl⟩
      · exact hPq
      · exact foreign_sub hPq c2 (by simp)
    rcases hs.name with ⟨rfl, _⟩ | ⟨x, rfl, rfl⟩
    · simp
    · have := foreign_pat hc
      simp only [ne_eq, Option.some.injEq]
      exact fun e => this e.symm
  cases h with
  | body h =>
    rw [shape_eq_test h.headSym_ne]
    by_cases hTt : headSym p = some "System`PatternTest"
    · obtain ⟨t, q, rfl, hq⟩ := h.isTest hTt
      rw [hT]
      exact hB hq (foreign_sub hp _ (by simp))
    · rw [shape_eq_named hTt]; exact hB h hp
  | named x h =>
    rw [shape_eq_test (by simp [headSym, S]), shape_eq_named (by simp [headSym, S])]
    exact hN h hp
  | test t h =>
    rw [shape_eq_test (by simp [headSym, S]), hT]
    exact hB h (foreign_sub hp _ (by simp))
  | @namedTest b x t h =>
    rw [shape_eq_test (by simp [headSym, S]), hT]
    exact hN h (foreign_sub hp _ (by simp))
  | opt h => exact hO [] h hp
  | optD d h _ => exact hO [d] h hp

/-- The match does not change the binding of `y`. -/
def InertAt (y : String) (pm : PM) (rs : List (Option PM)) (pm' : PM) : Prop :=
  pm'.get y = pm.get y ∧ ∀ r ∈ rs, ∀ q, r = some q → q.get y = pm.get y

theorem InertAt.eff {y pm rs pm'} (h : InertAt y pm rs pm') {r} (hr : r ∈ rs) : (pm'.updateO r).get y = pm.get y := by
  cases r with
  | none => exact h.1
  | some q =>
    simp only [PM.updateO]
    rw [PM.get_update, h.2 _ hr q rfl, h.1]
    cases pm.get y <;> rfl

/-- The pattern never binds `y`. -/
def InertAtRec (y : String) (rec : MatchRec) (form : Ex) : Prop := ∀ x pm rs pm', rec x form pm = some (rs, pm') → InertAt y pm rs pm'

theorem amiElems_inertAt {y : String} {rec : MatchRec} {form : Ex} (hrec : InertAtRec y rec form) : ∀ (xs : List Ex) (pm : PM) (out : List PM),
    amiElems rec form xs pm = some out → ∀ q ∈ out, q.get y = pm.get y
  | [], pm, out, h, q, hq => by
    simp only [amiElems, Option.some.injEq] at h
    subst h
    simp at hq; rw [hq]
  | x :: xs, pm, out, h, q, hq => by
    rw [amiElems] at h
    split at h
    · simp at h
    · rename_i rs pm' hr
      obtain ⟨r, hrm, zs, h1, h2⟩ := bindO_mem h q hq
      rw [amiElems_inertAt hrec xs _ zs h1 q h2]
      exact (hrec _ _ _ _ hr).eff hrm

theorem defineSequence_at {env : MEnv} {sh : String} {f : ParsedForm} {seq : List Ex} {pm q : PM} {y : String} (hy : f.patSym ≠ some y)
    (h : defineSequence env sh f seq pm = some q) : q.get y = pm.get y := by
  unfold defineSequence at h
  split at h
  · simp only [Option.some.injEq] at h; rw [h]
  · rename_i x hx
    have hxy : y ≠ x := by rintro rfl; exact hy hx
    split at h
    · simp only [Option.some.injEq] at h; rw [← h, PM.get_set, if_neg hxy]
    · split at h
      · simp only [Option.some.injEq] at h; rw [← h, PM.get_set, if_neg hxy]
      · simp at h

theorem amiRun_inertAt {y : String} {env : MEnv} {rec : MatchRec} {sh : String} : ∀ (forms : List ParsedForm) (segs : List (List Ex)) (pm : PM)
    (out : List PM), (∀ f ∈ forms, InertAtRec y rec f.form ∧ f.patSym ≠ some y) → amiRun env rec sh forms segs pm = some out →
    ∀ q ∈ out, q.get y = pm.get y
  | [], segs, pm, out, _, h, q, hq => by
    simp only [amiRun, Option.some.injEq] at h
    subst h
    simp at hq; rw [hq]
  | f :: fs, [], pm, out, _, h, q, hq => by
    simp only [amiRun, Option.some.injEq] at h
    subst h
    simp at hq; rw [hq]
  | f :: fs, seg :: segs, pm, out, hf, h, q, hq => by
    rw [amiRun] at h
    split at h
    · simp at h
    · rename_i pms hp
      obtain ⟨p1, hp1, zs, h1, h2⟩ := bindO_mem h q hq
      have e1 := amiElems_inertAt (hf f (by simp)).1 seg pm pms hp p1 hp1
      split at h1
      · simp only [Option.some.injEq] at h1; subst h1; simp at h2
      · rename_i q' hd
        rw [amiRun_inertAt fs segs q' zs (fun g hg => hf g (by simp [hg])) h1 q h2, defineSequence_at (hf f (by simp)).2 hd, e1]

theorem seqMatch_inertAt {y : String} {env : MEnv} {rec : MatchRec} {comps lhs : List Ex} {ordl flat sh} {pm : PM} {out}
    (hl : ∀ p ∈ lhs, APat p) (hnf : ∀ p ∈ lhs, Foreign y p) (hrec : ∀ p ∈ lhs, InertAtRec y rec (shape (env.dflt sh) flat sh p).elem)
    (h : seqMatch env rec comps lhs ordl flat sh pm = some out) : ∀ q ∈ out, q.get y = pm.get y := by
  intro q hq
  unfold seqMatch at h
  obtain ⟨forms, hforms, hag⟩ := parse_all env (flat := flat) (sh := sh) (d := env.dflt sh) hl
  rw [hforms] at h
  simp only at h
  split at h
  · simp at h
  · simp only [Option.some.injEq] at h; subst h; simp at hq
  · split at h
    · simp at h
    · obtain ⟨A, hA, zs, h1, h2⟩ := bindO_mem h q hq
      refine amiRun_inertAt forms _ pm zs ?_ h1 q h2
      intro f hf
      obtain ⟨p, hp, ha⟩ := forall₂_mem_right hag hf
      rw [ha.elem, ha.name]
      exact ⟨hrec p hp, foreign_name (hl p hp) (hnf p hp)⟩

theorem matchParts_inertAt {y : String} {env : MEnv} {rec : MatchRec} {as ps : List Ex} {pm pm' : PM} {rs} {fo : Bool} (h : PartsPat ps)
    (hnf : ∀ p ∈ ps, Foreign y p) (hrec : ∀ p ∈ ps, ∀ d flat sh, InertAtRec y rec (shape d flat sh p).elem)
    (hm : matchParts env rec as ps fo pm = some (rs, pm')) : InertAt y pm rs pm' := by
  have hgen : ∀ (out : Option (List PM)), (∀ o, out = some o → ∀ q ∈ o, q.get y = pm.get y) →
      out.map (fun rs => (rs.map some, pm)) = some (rs, pm') → InertAt y pm rs pm' := by
    intro out ho hm
    rw [Option.map_eq_some_iff] at hm
    obtain ⟨qs, h1, h2⟩ := hm
    simp only [Prod.mk.injEq] at h2
    obtain ⟨rfl, rfl⟩ := h2
    refine ⟨rfl, ?_⟩
    intro r hr q hq
    subst hq
    simp at hr
    exact ho qs h1 q hr
  have hd := hgen (seqMatch env rec as ps false false "Sequence" pm)
    (fun o ho => seqMatch_inertAt h.args hnf (fun p hp => hrec p hp _ _ _) ho)
  unfold matchParts at hm
  split at hm
  · rename_i ah at' bh bt
    split at hm
    · rename_i s t
      split at hm
      · rename_i hst
        exact hgen _ (fun o ho => seqMatch_inertAt (fun p hp => h.args p (by simp [hp])) (fun p hp => hnf p (by simp [hp]))
          (fun p hp => hrec p (by simp [hp]) _ _ _) ho) hm
      · exact hd hm
    · exact hd hm
  · simp at hm

theorem matchAlts_inertAt {y : String} {rec : MatchRec} {a : Ex} : ∀ (alts : List Ex) (pm pm' : PM) (rs),
    (∀ p ∈ alts, InertAtRec y rec p) → matchAlts rec a alts pm = some (rs, pm') → InertAt y pm rs pm'
  | [], pm, pm', rs, _, h => by
    simp only [matchAlts, Option.some.injEq, Prod.mk.injEq] at h
    obtain ⟨rfl, rfl⟩ := h
    exact ⟨rfl, by simp⟩
  | alt :: alts, pm, pm', rs, hE, h => by
    rw [matchAlts] at h
    split at h
    · simp at h
    · rename_i pm1 h1
      have k1 := hE alt (by simp) _ _ _ _ h1
      have k2 := matchAlts_inertAt alts pm1 pm' rs (fun p hp => hE p (by simp [hp])) h
      exact ⟨k2.1.trans k1.1, fun r hr q hq => (k2.2 r hr q hq).trans k1.1⟩
    · rename_i r0 tl pm1 h1
      simp only [Option.some.injEq, Prod.mk.injEq] at h
      obtain ⟨rfl, rfl⟩ := h
      have k1 := hE alt (by simp) _ _ _ _ h1
      refine ⟨k1.1, fun r hr => ?_⟩
      simp at hr; subst hr
      exact k1.2 r (by simp)

theorem capture_inertAt {y x : String} {a : Ex} {pm : PM} (hy : y ≠ x) : InertAt y pm (capture a (.sym x) pm).1 (capture a (.sym x) pm).2 := by
  unfold capture
  simp only
  split
  · refine ⟨by simp [PM.get_set, hy], ?_⟩
    intro r hr q hq
    simp at hr; subst hr; simp at hq; subst hq
    simp [PM.get_set, hy]
  · split
    · exact ⟨rfl, by simp⟩
    · exact ⟨rfl, by simp⟩

theorem matchF_inertAt (y : String) (env : MEnv) : ∀ n b, EPat b → Foreign y b → InertAtRec y (matchF env n) b
  | 0, b, _, _ => by intro x pm rs pm' h; simp [matchF] at h
  | n + 1, b, hb, hf => by
    have hrec := matchF_inertAt y env n
    intro a pm rs pm' h
    have ha : a ≠ .expr [] := by rintro rfl; rw [matchF_empty] at h; simp at h
    have hsimple : ∀ {r r' : List (Option PM) × PM} {c : Bool}, InertAt y pm r.1 r.2 →
        r' = ([], pm) → some (if c then r else r') = some (rs, pm') → InertAt y pm rs pm' := by
      intro r r' c h1 h3 h4
      simp only [Option.some.injEq] at h4
      split at h4
      · subst h4; exact h1
      · rw [h3] at h4
        simp only [Prod.mk.injEq] at h4
        obtain ⟨rfl, rfl⟩ := h4
        exact ⟨rfl, by simp⟩
    have hparts : ∀ ps, PartsPat ps → EPat (.expr ps) → Foreign y (.expr ps) → verbatimOp a (.expr ps) = none →
        matchF env (n + 1) a (.expr ps) pm = some (rs, pm') → InertAt y pm rs pm' := by
      intro ps hP hE hf hv hm
      rw [matchF_parts ha hP, matchNormal_parts hP hv] at hm
      have hconv : ∀ x, firstOnly (matchF env n x (.expr ps) pm) = some (rs, pm') → InertAt y pm rs pm' := by
        intro x hx
        obtain ⟨rs0, h1, rfl⟩ := firstOnly_some hx
        have := hrec _ hE hf _ _ _ _ h1
        exact ⟨this.1, fun r hr => this.2 r (List.mem_of_mem_take hr)⟩
      split at hm
      · exact hconv _ hm
      · exact hconv _ hm
      · unfold partsResult at hm
        split at hm
        · refine matchParts_inertAt hP (foreign_sub hf) ?_ hm
          intro p hp d flat sh
          exact hrec _ (hP.args p hp).shape_cases.1 (foreign_shape (hP.args p hp) (foreign_sub hf p hp))
        · exact hsimple ⟨rfl, by simp⟩ rfl hm
    have hbE := hb
    cases hb with
    | atom hat =>
      rw [matchF_atom ha hat] at h
      unfold atomResult at h
      split at h
      · simp only [Option.some.injEq, Prod.mk.injEq] at h
        obtain ⟨rfl, rfl⟩ := h
        exact ⟨rfl, by simp⟩
      · exact hsimple ⟨rfl, by simp⟩ rfl h
    | @blank s args hs hlen =>
      rw [matchF_blank ha hs] at h
      exact hsimple ⟨rfl, by simp⟩ rfl h
    | @named s args x hs hlen =>
      rw [matchF_named ha hs] at h
      exact hsimple (capture_inertAt (foreign_pat hf)) rfl h
    | app h1 h2 h3 => exact hparts _ (PartsPat.app h1 h2 h3) hbE hf (verbatimOp_sym a) h
    | appE h1 hv h2 h3 h4 => exact hparts _ (PartsPat.appE h1 h2 h4) hbE hf (verbatimOp_head a hv) h
    | @verb s ps h1 h2 h3 =>
      cases hv : verbatimOp a (.expr (.expr [S "Verbatim", .sym s] :: ps)) with
      | none => exact hparts _ (PartsPat.verb h3) hbE hf hv h
      | some b =>
        obtain ⟨g, as, rfl, _⟩ := verbatimOp_applies hv
        have hP := PartsPat.app h1 h2 h3
        obtain ⟨as', _, e⟩ := matchNormal_verb (env := env) (rec := matchF env n) (pm := pm) h1 hP hv
        rw [matchF_parts ha (PartsPat.verb h3), e] at h
        have hsub : ∀ p ∈ ps, Foreign y p := fun p hp => foreign_sub hf p (by simp [hp])
        have hsub' : ∀ p ∈ (.sym s :: ps : List Ex), Foreign y p := by
          intro p hp
          rcases List.mem_cons.1 hp with rfl | hp
          · exact (by simp [Foreign, patNames])
          · exact hsub p hp
        refine matchParts_inertAt hP hsub' ?_ h
        intro p hp d flat sh
        exact hrec _ (hP.args p hp).shape_cases.1 (foreign_shape (hP.args p hp) (hsub' p hp))
    | @alt alts hall =>
      rw [matchF_alt ha] at h
      exact matchAlts_inertAt alts pm pm' rs (fun p hp => hrec p (hall p hp) (foreign_sub hf p (by simp [hp]))) h
    | @test p t hp =>
      rw [matchF_test ha] at h
      unfold testResult at h
      have hpf := foreign_sub hf p (by simp)
      split at h
      · simp at h
      · rename_i pm1 h2
        simp only [Option.some.injEq, Prod.mk.injEq] at h
        obtain ⟨rfl, rfl⟩ := h
        exact ⟨(hrec p hp hpf _ _ _ _ h2).1, by simp⟩
      · rename_i r0 tl pm1 h2
        have k := hrec p hp hpf _ _ _ _ h2
        simp only [Option.some.injEq] at h
        split at h
        · simp only [Prod.mk.injEq] at h
          obtain ⟨rfl, rfl⟩ := h
          refine ⟨k.1, fun r hr => ?_⟩
          simp at hr; subst hr
          exact k.2 r (by simp)
        · simp only [Prod.mk.injEq] at h
          obtain ⟨rfl, rfl⟩ := h
          exact ⟨k.1, by simp⟩
    | @hold p hp =>
      rw [matchF_hold ha] at h
      exact hrec p hp (foreign_sub hf p (by simp)) _ _ _ _ h

end Expreduce
