import Verif.Proofs.MatchTotal

/-! The element pattern of an argument pattern, and patterns without names. -/

namespace Expreduce
open Ex

/-- `e` is the element pattern of the argument pattern without test `p`. -/
inductive Derived : Ex → Ex → Prop
  | refl {t} : headSym t ≠ some "System`Pattern" → headSym t ≠ some "System`PatternTest" ∨ EPat t → Derived t t
  | blank {s args as} : s ∈ blankHeads → as = args.take 1 ∨ as = [] → Derived (.expr (.sym s :: args)) (.expr (S "Blank" :: as))
  | rep {s e rest} : s ∉ specialHeads ∨ s = "System`Repeated" ∨ s = "System`RepeatedNull" → Derived (.expr (.sym s :: e :: rest)) e
  | pat {x body e} : Derived body e → Derived (.expr [S "Pattern", .sym x, body]) e

theorem bodyShape_derived {flat sh} {t : Ex} (h : BPat t) (hp : headSym t ≠ some "System`Pattern") : Derived t (bodyShape flat sh t).elem := by
  cases h with
  | elem h =>
    have hh := h.headSym_ne
    by_cases hb : ∃ s args, t = .expr (.sym s :: args) ∧ s ∈ blankHeads
    · obtain ⟨s, args, rfl, hs⟩ := hb
      rcases mem_blankHeads.1 hs with rfl | rfl | rfl
      · have hr : Derived (.expr (.sym "System`Blank" :: args)) (.expr (.sym "System`Blank" :: args)) := .refl hp (Or.inr h)
        cases flat with
        | false => simpa [bodyShape] using hr
        | true =>
          rcases args with _ | ⟨k, args⟩
          · simpa [bodyShape] using hr
          · cases k with
            | sym k =>
              by_cases hk : k = sh
              · subst hk
                simp only [bodyShape]
                simp
                exact .blank hs (Or.inr rfl)
              · simpa [bodyShape, hk] using hr
            | _ => simpa [bodyShape] using hr
      · simp only [bodyShape]; exact .blank hs (Or.inl rfl)
      · simp only [bodyShape]; exact .blank hs (Or.inl rfl)
    · rw [bodyShape_other]
      · exact .refl hp (Or.inr h)
      · intro s hs
        have ht : ∃ args, t = .expr (.sym s :: args) := by
          unfold headSym at hs
          split at hs
          · simp only [Option.some.injEq] at hs; subst hs; exact ⟨_, rfl⟩
          · simp at hs
        obtain ⟨args, rfl⟩ := ht
        have hnb : s ∉ blankHeads := fun h => hb ⟨s, args, rfl, h⟩
        rw [mem_blankHeads] at hnb
        push Not at hnb
        refine ⟨hnb.1, hnb.2.1, hnb.2.2, ?_, ?_⟩
        · rintro rfl; exact hh.1 rfl
        · rintro rfl; exact hh.2.1 rfl
  | rep h => simp only [bodyShape, S]; exact .rep (by simp)
  | repN n h hn => simp only [bodyShape, S]; exact .rep (by simp)
  | repNull h => simp only [bodyShape, S]; exact .rep (by simp)

theorem bodyShape_pattern {flat sh} (x body : Ex) : (bodyShape flat sh (.expr [S "Pattern", x, body])).elem = .expr [S "Pattern", x, body] := by
  simp [bodyShape, S]

/-- The pattern under a name is not itself named. -/
theorem BPat.derived {flat sh} {q : Ex} (hq : BPat q) : Derived q (namedShape flat sh q).elem ∧
    ((namedShape flat sh q).name.isSome → headSym q = some "System`Pattern") := by
  by_cases hp : headSym q = some "System`Pattern"
  · refine ⟨?_, fun _ => hp⟩
    cases hq with
    | elem h =>
      cases h with
      | atom h => cases q <;> simp_all [isAtom, headSym]
      | blank h1 h2 => rcases mem_blankHeads.1 h1 with rfl | rfl | rfl <;> simp [headSym] at hp
      | @named s args x h1 h2 =>
        have : (namedShape flat sh (.expr [S "Pattern", .sym x, .expr (.sym s :: args)])).elem = (bodyShape flat sh (.expr (.sym s :: args))).elem := by
          simp [namedShape, S]
        rw [this]
        refine .pat (bodyShape_derived (.elem (.blank h1 h2)) ?_)
        rcases mem_blankHeads.1 h1 with rfl | rfl | rfl <;> simp [headSym]
      | @app s ps h1 _ _ =>
        simp only [headSym, Option.some.injEq] at hp
        subst hp
        simp [specialHeads] at h1
      | verb _ _ _ => simp [headSym] at hp
      | @appE h ps h1 _ h2 _ _ =>
        cases h <;> simp [headSym] at hp
        exact absurd rfl (h1 _)
      | alt => simp [headSym, S] at hp
      | test => simp [headSym, S] at hp
      | hold => simp [headSym, S] at hp
    | rep h => simp [headSym, S] at hp
    | repN n h hn => simp [headSym, S] at hp
    | repNull h => simp [headSym, S] at hp
  · rw [namedShape_eq_body hp]
    exact ⟨bodyShape_derived hq hp, by rw [bodyShape_name hq]; simp⟩

/-- Bodies that `x : body` may have in the fragment: not named again, except `x : y_`. -/
theorem named_derived {flat sh} {q : Ex} (x : String) (hq : BPat q) :
    Derived (.expr [S "Pattern", .sym x, q]) (namedShape flat sh (.expr [S "Pattern", .sym x, q])).elem ∨
      (∃ y b, q = .expr [S "Pattern", .sym y, b]) ∧ (namedShape flat sh (.expr [S "Pattern", .sym x, q])).elem = q := by
  have e : (namedShape flat sh (.expr [S "Pattern", .sym x, q])).elem = (bodyShape flat sh q).elem := by
    simp [namedShape, S]
  by_cases hp : headSym q = some "System`Pattern"
  · obtain ⟨y, t, rfl, _⟩ := hq.isPat hp
    right
    refine ⟨⟨y, t, rfl⟩, ?_⟩
    rw [e]
    exact bodyShape_pattern _ _
  · left
    rw [e]
    exact .pat (bodyShape_derived hq hp)

/-- Predicates that pass from a pattern to its element pattern. -/
structure Inherits (P : Ex → Prop) : Prop where
  sub : ∀ ps, P (.expr ps) → ∀ p ∈ ps, P p
  blank : ∀ s args as, s ∈ blankHeads → as = args.take 1 ∨ as = [] → P (.expr (.sym s :: args)) → P (.expr (S "Blank" :: as))

theorem Inherits.derived {P} (hP : Inherits P) {p e : Ex} (h : Derived p e) (hp : P p) : P e := by
  induction h with
  | refl => exact hp
  | blank h1 h2 => exact hP.blank _ _ _ h1 h2 hp
  | rep _ => exact hP.sub _ hp _ (by simp)
  | pat _ ih => exact ih (hP.sub _ hp _ (by simp))

theorem Inherits.named {P} (hP : Inherits P) {flat sh} {q : Ex} (hq : BPat q) (h : P q) : P (namedShape flat sh q).elem :=
  hP.derived hq.derived.1 h

theorem Inherits.named' {P} (hP : Inherits P) {flat sh} {q : Ex} {x : String} (hq : BPat q) (h : P (.expr [S "Pattern", .sym x, q])) :
    P (namedShape flat sh (.expr [S "Pattern", .sym x, q])).elem := by
  rcases named_derived (flat := flat) (sh := sh) x hq with h1 | ⟨_, h1⟩
  · exact hP.derived h1 h
  · rw [h1]; exact hP.sub _ h _ (by simp)

/-- The relation between a pattern under a test and its element pattern. -/
def TestDerived (q e : Ex) : Prop := (∃ b, q = b ∧ BPat b ∧ Derived b e) ∨
      (∃ x b, q = .expr [S "Pattern", .sym x, b] ∧ BPat b ∧ (Derived q e ∨ (∃ y b', b = .expr [S "Pattern", .sym y, b']) ∧ e = b))

theorem OptStrip.derived {q tst nm c2 t} (h : OptStrip q tst nm c2 t) : TestDerived c2 t := by
  rcases h.name with ⟨_, rfl, hp⟩ | ⟨x, _, rfl⟩
  · exact Or.inl ⟨t, rfl, .elem h.body, .refl hp (Or.inr h.body)⟩
  · refine Or.inr ⟨x, t, rfl, .elem h.body, ?_⟩
    by_cases hp : headSym t = some "System`Pattern"
    · obtain ⟨y, b, e, _⟩ := h.body.isPat hp
      exact Or.inr ⟨⟨y, b, e⟩, rfl⟩
    · exact Or.inl (.pat (.refl hp (Or.inr h.body)))

theorem Inherits.shapeElem {P} (hP : Inherits P)
    (htest : ∀ q e t, P (.expr [S "PatternTest", q, t]) → TestDerived q e → P (.expr [S "PatternTest", e, t]))
    {d flat sh} {p : Ex} (h : APat p) (hp : P p) : P (shape d flat sh p).elem := by
  have hT : ∀ {q : Ex} (t : Ex), (testShape flat sh (.expr [S "PatternTest", q, t])).elem = .expr [S "PatternTest", (namedShape flat sh q).elem, t] := by
    intro q t
    simp [testShape, S]
  have hO : ∀ {q : Ex} (rest : List Ex), OPat q → P (.expr (S "Optional" :: q :: rest)) →
      P (shape d flat sh (.expr (S "Optional" :: q :: rest))).elem := by
    intro q rest hq h
    obtain ⟨tst, nm, c2, t, hs⟩ := hq.strip
    rw [shape_opt, hs.shape]
    have hPq : P q := hP.sub _ h q (by simp)
    rcases hs.form with ⟨rfl, rfl⟩ | ⟨u, rfl, rfl⟩
    · rcases hs.name with ⟨_, rfl, _⟩ | ⟨x, _, rfl⟩
      · exact hPq
      · exact hP.sub _ hPq t (by simp)
    · exact htest c2 t u hPq hs.derived
  cases h with
  | body h =>
    rw [shape_eq_test h.headSym_ne]
    by_cases hTt : headSym p = some "System`PatternTest"
    · obtain ⟨t, q, rfl, hq⟩ := h.isTest hTt
      rw [hT]
      exact htest _ _ _ hp (Or.inl ⟨q, rfl, hq, hq.derived.1⟩)
    · rw [shape_eq_named hTt]; exact hP.named h hp
  | named x h =>
    rw [shape_eq_test (by simp [headSym, S]), shape_eq_named (by simp [headSym, S])]
    exact hP.named' h hp
  | test t h =>
    rw [shape_eq_test (by simp [headSym, S]), hT]
    exact htest _ _ _ hp (Or.inl ⟨_, rfl, h, h.derived.1⟩)
  | namedTest x t h =>
    rw [shape_eq_test (by simp [headSym, S]), hT]
    exact htest _ _ _ hp (Or.inr ⟨x, _, rfl, h, named_derived x h⟩)
  | opt h => exact hO [] h hp
  | optD d h _ => exact hO [d] h hp

/-! ### Patterns without names -/

theorem containsSymbolL_iff (x : String) (ps : List Ex) : containsSymbolL x ps = true ↔ ∃ p ∈ ps, containsSymbol x p = true := by
  induction ps with
  | nil => simp [containsSymbolL]
  | cons p ps ih => simp [containsSymbolL, ih]

theorem nameFree_expr (ps : List Ex) : nameFree (.expr ps) = true ↔ ∀ p ∈ ps, nameFree p = true := by
  have h := containsSymbolL_iff "System`Pattern" ps
  unfold nameFree
  simp only [containsSymbol, Bool.not_eq_true']
  rw [← Bool.not_eq_true, h]
  push Not
  simp

theorem nameFree_S {s : String} (h : s ≠ "Pattern") : nameFree (S s) = true := by
  simp only [nameFree, S, containsSymbol, Bool.not_eq_true', beq_eq_false_iff_ne, ne_eq]
  intro e
  apply h
  have e' := congrArg String.toList e
  rw [String.toList_append] at e'
  have : ("System`Pattern" : String).toList = ("System`" : String).toList ++ ("Pattern" : String).toList := by decide
  rw [this, List.append_cancel_left_eq] at e'
  exact String.toList_inj.1 e'

theorem nameFree_inherits : Inherits (fun p => nameFree p = true) where
  sub := fun ps h => (nameFree_expr ps).1 h
  blank := by
    intro s args as _ h1 h
    rw [nameFree_expr] at h ⊢
    intro p hp
    rcases List.mem_cons.1 hp with rfl | hp
    · exact nameFree_S (by decide)
    · rcases h1 with rfl | rfl
      · exact h p (by simp [List.mem_of_mem_take hp])
      · simp at hp

theorem nameFree_pattern {x b : Ex} (h : nameFree (.expr [S "Pattern", x, b]) = true) : False := by
  rw [nameFree_expr] at h
  have := h (S "Pattern") (by simp)
  simp [nameFree, S, containsSymbol] at this

theorem nameFree_shape {d flat sh} {p : Ex} (h : APat p) (hp : nameFree p = true) : nameFree (shape d flat sh p).elem = true := by
  refine nameFree_inherits.shapeElem ?_ h hp
  intro q e t hq h1
  have hq' := (nameFree_expr _).1 hq
  rw [nameFree_expr]
  intro y hy
  simp only [List.mem_cons, List.not_mem_nil, or_false] at hy
  rcases hy with rfl | rfl | rfl
  · exact nameFree_S (by decide)
  · rcases h1 with ⟨b, rfl, _, hd⟩ | ⟨x, b, rfl, _, _⟩
    · exact nameFree_inherits.derived hd (hq' _ (by simp))
    · exact (nameFree_pattern (hq' (.expr [S "Pattern", .sym x, b]) (by simp))).elim
  · exact hq' _ (by simp)

theorem nameFree_name {d flat sh} {p : Ex} (h : APat p) (hp : nameFree p = true) : (shape d flat sh p).name = none := by
  have hB : ∀ {q : Ex}, BPat q → nameFree q = true → (namedShape flat sh q).name = none := by
    intro q hq hf
    by_contra hc
    have := hq.derived.2 (Option.isSome_iff_ne_none.2 hc)
    obtain ⟨x, t, rfl, _⟩ := hq.isPat this
    exact nameFree_pattern hf
  have hT : ∀ {q : Ex} (t : Ex), (testShape flat sh (.expr [S "PatternTest", q, t])).name = (namedShape flat sh q).name := by
    intro q t
    simp [testShape, S]
  have hO : ∀ {q : Ex} (rest : List Ex), OPat q → nameFree (.expr (S "Optional" :: q :: rest)) = true →
      (shape d flat sh (.expr (S "Optional" :: q :: rest))).name = none := by
    intro q rest hq h
    obtain ⟨tst, nm, c2, t, hs⟩ := hq.strip
    rw [shape_opt, hs.shape]
    have hPq := (nameFree_expr _).1 h q (by simp)
    have hc : nameFree c2 = true := by
      rcases hs.form with ⟨_, rfl⟩ | ⟨u, _, rfl⟩
      · exact hPq
      · exact (nameFree_expr _).1 hPq c2 (by simp)
    rcases hs.name with ⟨rfl, _⟩ | ⟨x, _, rfl⟩
    · rfl
    · exact (nameFree_pattern hc).elim
  cases h with
  | body h =>
    rw [shape_eq_test h.headSym_ne]
    by_cases hTt : headSym p = some "System`PatternTest"
    · obtain ⟨t, q, rfl, hq⟩ := h.isTest hTt
      rw [hT]
      exact hB hq ((nameFree_expr _).1 hp _ (by simp))
    · rw [shape_eq_named hTt]; exact hB h hp
  | named x h => exact absurd hp (fun h => nameFree_pattern h)
  | test t h =>
    rw [shape_eq_test (by simp [headSym, S]), hT]
    exact hB h ((nameFree_expr _).1 hp _ (by simp))
  | @namedTest b x t h => exact (nameFree_pattern ((nameFree_expr _).1 hp (.expr [S "Pattern", .sym x, b]) (by simp))).elim
  | opt h => exact hO [] h hp
  | optD d h _ => exact hO [d] h hp

/-- The match changes no binding. -/
def Inert (pm : PM) (rs : List (Option PM)) (pm' : PM) : Prop :=
  pm'.get = pm.get ∧ ∀ r ∈ rs, ∀ q, r = some q → q.get = pm.get

theorem Inert.eff {pm rs pm'} (h : Inert pm rs pm') {r} (hr : r ∈ rs) : (pm'.updateO r).get = pm.get := by
  cases r with
  | none => exact h.1
  | some q =>
    funext x
    simp only [PM.updateO]
    rw [PM.get_update, h.2 _ hr q rfl, h.1]
    cases pm.get x <;> rfl

/-- Name-free patterns change no binding. -/
def InertRec (rec : MatchRec) (form : Ex) : Prop := ∀ x pm rs pm', rec x form pm = some (rs, pm') → Inert pm rs pm'

theorem amiElems_inert {rec : MatchRec} {form : Ex} (hrec : InertRec rec form) : ∀ (xs : List Ex) (pm : PM) (out : List PM),
    amiElems rec form xs pm = some out → ∀ q ∈ out, q.get = pm.get
  | [], pm, out, h, q, hq => by
    simp only [amiElems, Option.some.injEq] at h
    subst h
    simp at hq; rw [hq]
  | x :: xs, pm, out, h, q, hq => by
    rw [amiElems] at h
    split at h
    · simp at h
    · rename_i rs pm' hr
      obtain ⟨r, hrm, zs, h1, h2⟩ := bindO_mem h q hq
      rw [amiElems_inert hrec xs _ zs h1 q h2]
      exact (hrec _ _ _ _ hr).eff hrm

theorem amiRun_inert {env : MEnv} {rec : MatchRec} {sh : String} : ∀ (forms : List ParsedForm) (segs : List (List Ex)) (pm : PM) (out : List PM),
    (∀ f ∈ forms, InertRec rec f.form ∧ f.patSym = none) → amiRun env rec sh forms segs pm = some out → ∀ q ∈ out, q.get = pm.get
  | [], segs, pm, out, _, h, q, hq => by
    simp only [amiRun, Option.some.injEq] at h
    subst h
    simp at hq; rw [hq]
  | f :: fs, [], pm, out, _, h, q, hq => by
    simp only [amiRun, Option.some.injEq] at h
    subst h
    simp at hq; rw [hq]
  | f :: fs, seg :: segs, pm, out, hf, h, q, hq => by
    rw [amiRun] at h
    split at h
    · simp at h
    · rename_i pms hp
      obtain ⟨p1, hp1, zs, h1, h2⟩ := bindO_mem h q hq
      have e1 := amiElems_inert (hf f (by simp)).1 seg pm pms hp p1 hp1
      have hd : defineSequence env sh f seg p1 = some p1 := by
        unfold defineSequence; rw [(hf f (by simp)).2]
      rw [hd] at h1
      rw [amiRun_inert fs segs p1 zs (fun g hg => hf g (by simp [hg])) h1 q h2, e1]

theorem seqMatch_inert {env : MEnv} {rec : MatchRec} {comps lhs : List Ex} {ordl flat sh} {pm : PM} {out} (hl : ∀ p ∈ lhs, APat p)
    (hnf : ∀ p ∈ lhs, nameFree p = true) (hrec : ∀ p ∈ lhs, InertRec rec (shape (env.dflt sh) flat sh p).elem)
    (h : seqMatch env rec comps lhs ordl flat sh pm = some out) : ∀ q ∈ out, q.get = pm.get := by
  intro q hq
  unfold seqMatch at h
  obtain ⟨forms, hforms, hag⟩ := parse_all env (flat := flat) (sh := sh) (d := env.dflt sh) hl
  rw [hforms] at h
  simp only at h
  split at h
  · simp at h
  · simp only [Option.some.injEq] at h; subst h; simp at hq
  · split at h
    · simp at h
    · obtain ⟨A, hA, zs, h1, h2⟩ := bindO_mem h q hq
      refine amiRun_inert forms _ pm zs ?_ h1 q h2
      intro f hf
      obtain ⟨p, hp, ha⟩ := forall₂_mem_right hag hf
      rw [ha.elem, ha.name]
      exact ⟨hrec p hp, nameFree_name (hl p hp) (hnf p hp)⟩

theorem matchParts_inert {env : MEnv} {rec : MatchRec} {as ps : List Ex} {pm pm' : PM} {rs} {fo : Bool} (h : PartsPat ps)
    (hnf : ∀ p ∈ ps, nameFree p = true) (hrec : ∀ p ∈ ps, ∀ d flat sh, InertRec rec (shape d flat sh p).elem)
    (hm : matchParts env rec as ps fo pm = some (rs, pm')) : Inert pm rs pm' := by
  have hgen : ∀ (out : Option (List PM)), (∀ o, out = some o → ∀ q ∈ o, q.get = pm.get) →
      out.map (fun rs => (rs.map some, pm)) = some (rs, pm') → Inert pm rs pm' := by
    intro out ho hm
    rw [Option.map_eq_some_iff] at hm
    obtain ⟨qs, h1, h2⟩ := hm
    simp only [Prod.mk.injEq] at h2
    obtain ⟨rfl, rfl⟩ := h2
    refine ⟨rfl, ?_⟩
    intro r hr q hq
    subst hq
    simp at hr
    exact ho qs h1 q hr
  have hd := hgen (seqMatch env rec as ps false false "Sequence" pm)
    (fun o ho => seqMatch_inert h.args hnf (fun p hp => hrec p hp _ _ _) ho)
  unfold matchParts at hm
  split at hm
  · rename_i ah at' bh bt
    split at hm
    · rename_i s t
      split at hm
      · rename_i hst
        exact hgen _ (fun o ho => seqMatch_inert (fun p hp => h.args p (by simp [hp])) (fun p hp => hnf p (by simp [hp]))
          (fun p hp => hrec p (by simp [hp]) _ _ _) ho) hm
      · exact hd hm
    · exact hd hm
  · simp at hm

theorem matchAlts_inert {rec : MatchRec} {a : Ex} : ∀ (alts : List Ex) (pm pm' : PM) (rs),
    (∀ p ∈ alts, InertRec rec p) → matchAlts rec a alts pm = some (rs, pm') → Inert pm rs pm'
  | [], pm, pm', rs, _, h => by
    simp only [matchAlts, Option.some.injEq, Prod.mk.injEq] at h
    obtain ⟨rfl, rfl⟩ := h
    exact ⟨rfl, by simp⟩
  | alt :: alts, pm, pm', rs, hE, h => by
    rw [matchAlts] at h
    split at h
    · simp at h
    · rename_i pm1 h1
      have k1 := hE alt (by simp) _ _ _ _ h1
      have k2 := matchAlts_inert alts pm1 pm' rs (fun p hp => hE p (by simp [hp])) h
      exact ⟨k2.1.trans k1.1, fun r hr q hq => (k2.2 r hr q hq).trans k1.1⟩
    · rename_i r0 tl pm1 h1
      simp only [Option.some.injEq, Prod.mk.injEq] at h
      obtain ⟨rfl, rfl⟩ := h
      have k1 := hE alt (by simp) _ _ _ _ h1
      refine ⟨k1.1, fun r hr => ?_⟩
      simp at hr; subst hr
      exact k1.2 r (by simp)

theorem matchF_inert (env : MEnv) : ∀ n b, EPat b → nameFree b = true → InertRec (matchF env n) b
  | 0, b, _, _ => by intro x pm rs pm' h; simp [matchF] at h
  | n + 1, b, hb, hf => by
    have hrec := matchF_inert env n
    intro a pm rs pm' h
    have ha : a ≠ .expr [] := by rintro rfl; rw [matchF_empty] at h; simp at h
    have hsimple : ∀ {r r' : List (Option PM) × PM} {c : Bool}, (∀ q ∈ r.1, ∀ q', q = some q' → q'.get = pm.get) → r.2 = pm →
        r' = ([], pm) → some (if c then r else r') = some (rs, pm') → Inert pm rs pm' := by
      intro r r' c h1 h2 h3 h4
      simp only [Option.some.injEq] at h4
      split at h4
      · subst h4; exact ⟨by simp only at h2; rw [h2], h1⟩
      · rw [h3] at h4
        simp only [Prod.mk.injEq] at h4
        obtain ⟨rfl, rfl⟩ := h4
        exact ⟨rfl, by simp⟩
    have hparts : ∀ ps, PartsPat ps → EPat (.expr ps) → nameFree (.expr ps) = true → verbatimOp a (.expr ps) = none →
        matchF env (n + 1) a (.expr ps) pm = some (rs, pm') → Inert pm rs pm' := by
      intro ps hP hE hf hv hm
      rw [matchF_parts ha hP, matchNormal_parts hP hv] at hm
      have hconv : ∀ x, firstOnly (matchF env n x (.expr ps) pm) = some (rs, pm') → Inert pm rs pm' := by
        intro x hx
        obtain ⟨rs0, h1, rfl⟩ := firstOnly_some hx
        have := hrec _ hE hf _ _ _ _ h1
        exact ⟨this.1, fun r hr => this.2 r (List.mem_of_mem_take hr)⟩
      split at hm
      · exact hconv _ hm
      · exact hconv _ hm
      · unfold partsResult at hm
        split at hm
        · refine matchParts_inert hP ((nameFree_expr _).1 hf) ?_ hm
          intro p hp d flat sh
          exact hrec _ (hP.args p hp).shape_cases.1 (nameFree_shape (hP.args p hp) ((nameFree_expr _).1 hf p hp))
        · exact hsimple (by simp) rfl rfl hm
    have hbE := hb
    cases hb with
    | atom hat =>
      rw [matchF_atom ha hat] at h
      unfold atomResult at h
      split at h
      · simp only [Option.some.injEq, Prod.mk.injEq] at h
        obtain ⟨rfl, rfl⟩ := h
        exact ⟨rfl, by simp⟩
      · exact hsimple (by simp) rfl rfl h
    | @blank s args hs hlen =>
      rw [matchF_blank ha hs] at h
      exact hsimple (by simp) rfl rfl h
    | @named s args x hs hlen => exact absurd hf (fun h => nameFree_pattern h)
    | app h1 h2 h3 => exact hparts _ (PartsPat.app h1 h2 h3) hbE hf (verbatimOp_sym a) h
    | appE h1 hv h2 h3 h4 => exact hparts _ (PartsPat.appE h1 h2 h4) hbE hf (verbatimOp_head a hv) h
    | @verb s ps h1 h2 h3 =>
      cases hv : verbatimOp a (.expr (.expr [S "Verbatim", .sym s] :: ps)) with
      | none => exact hparts _ (PartsPat.verb h3) hbE hf hv h
      | some b =>
        obtain ⟨g, as, rfl, _⟩ := verbatimOp_applies hv
        have hP := PartsPat.app h1 h2 h3
        obtain ⟨as', _, e⟩ := matchNormal_verb (env := env) (rec := matchF env n) (pm := pm) h1 hP hv
        rw [matchF_parts ha (PartsPat.verb h3), e] at h
        have hsub : ∀ p ∈ ps, nameFree p = true := fun p hp => (nameFree_expr _).1 hf p (by simp [hp])
        have hsub' : ∀ p ∈ (.sym s :: ps : List Ex), nameFree p = true := by
          intro p hp
          rcases List.mem_cons.1 hp with rfl | hp
          · have := (nameFree_expr _).1 ((nameFree_expr _).1 hf (.expr [S "Verbatim", .sym s]) (by simp)) (.sym s) (by simp)
            exact this
          · exact hsub p hp
        refine matchParts_inert hP hsub' ?_ h
        intro p hp d flat sh
        exact hrec _ (hP.args p hp).shape_cases.1 (nameFree_shape (hP.args p hp) (hsub' p hp))
    | @alt alts hall =>
      rw [matchF_alt ha] at h
      exact matchAlts_inert alts pm pm' rs (fun p hp => hrec p (hall p hp) ((nameFree_expr _).1 hf p (by simp [hp]))) h
    | @test p t hp =>
      rw [matchF_test ha] at h
      unfold testResult at h
      have hpf := (nameFree_expr _).1 hf p (by simp)
      split at h
      · simp at h
      · rename_i pm1 h2
        simp only [Option.some.injEq, Prod.mk.injEq] at h
        obtain ⟨rfl, rfl⟩ := h
        exact ⟨(hrec p hp hpf _ _ _ _ h2).1, by simp⟩
      · rename_i r0 tl pm1 h2
        have k := hrec p hp hpf _ _ _ _ h2
        simp only [Option.some.injEq] at h
        split at h
        · simp only [Prod.mk.injEq] at h
          obtain ⟨rfl, rfl⟩ := h
          refine ⟨k.1, fun r hr => ?_⟩
          simp at hr; subst hr
          exact k.2 r (by simp)
        · simp only [Prod.mk.injEq] at h
          obtain ⟨rfl, rfl⟩ := h
          exact ⟨k.1, by simp⟩
    | @hold p hp =>
      rw [matchF_hold ha] at h
      exact hrec p hp ((nameFree_expr _).1 hf p (by simp)) _ _ _ _ h

end Expreduce
