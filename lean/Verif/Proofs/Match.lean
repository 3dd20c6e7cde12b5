import Verif.Spec.Match

/-! Lemmas for the matcher: soundness. -/

namespace Expreduce
open Ex

/-- Not a real at the top. -/
def notFlt : Ex → Bool
  | .flt _ => false
  | _ => true

theorem isSameQ_notFlt {v a : Ex} (h : notFlt a = true) : isSameQ v a = true ↔ hash v = hash a := by
  unfold isSameQ
  cases v <;> cases a <;> simp_all [notFlt]

theorem isSameQ_notFlt' {v a : Ex} (h : notFlt v = true) : isSameQ v a = true ↔ hash v = hash a := by
  unfold isSameQ
  cases v <;> cases a <;> simp_all [notFlt]

theorem noReal_notFlt {a : Ex} (h : noReal a = true) : notFlt a = true := by cases a <;> simp_all [noReal, notFlt]

theorem noRealL_mem {ps : List Ex} (h : noRealL ps = true) : ∀ p ∈ ps, noReal p = true := by
  induction ps with
  | nil => simp
  | cons p ps ih =>
    simp only [noRealL, Bool.and_eq_true] at h
    intro q hq
    rcases List.mem_cons.1 hq with rfl | hq
    · exact h.1
    · exact ih h.2 q hq

theorem noReal_parts {a : Ex} {ps : List Ex} (h : noReal a = true) (hp : partsOf a = some ps) : ∀ p ∈ ps, noReal p = true := by
  cases a <;> simp only [partsOf, Option.some.injEq, reduceCtorEq] at hp
  · subst hp; simp [noReal, S]
  · subst hp; simp only [noReal, Bool.and_eq_true] at h; simp [noReal, S, h.1, h.2]
  · subst hp; exact noRealL_mem h

theorem PM.get_nil (x : String) : PM.get [] x = none := rfl

theorem PM.get_set (pm : PM) (x y : String) (v : Ex) : (pm.set x v).get y = if y = x then some v else pm.get y := by
  unfold PM.set PM.get
  by_cases h : y = x
  · subst h; simp [List.lookup]
  · rw [if_neg h, List.lookup]
    rw [show (y == x) = false by simpa using h]
    simp only
    induction pm with
    | nil => rfl
    | cons kv pm ih =>
      by_cases h2 : kv.1 = x
      · have : (kv.1 != x) = false := by simp [h2]
        rw [List.filter_cons, this]
        simp only [Bool.false_eq_true, if_false]
        rw [ih]
        obtain ⟨k, w⟩ := kv
        simp only at h2
        rw [List.lookup, show (y == k) = false by simp [h2, h]]
      · have : (kv.1 != x) = true := by simp [h2]
        rw [List.filter_cons, this]
        simp only [if_true]
        obtain ⟨k, w⟩ := kv
        simp only [List.lookup]
        rw [ih]

theorem PM.get_update (pm q : PM) (y : String) : (pm.update q).get y = (q.get y).orElse (fun _ => pm.get y) := by
  unfold PM.update
  induction q with
  | nil => simp [PM.get]
  | cons kv q ih =>
    obtain ⟨k, w⟩ := kv
    simp only [List.foldr_cons]
    rw [PM.get_set, ih]
    by_cases h : y = k
    · subst h; simp [PM.get, List.lookup]
    · rw [if_neg h]
      have : PM.get ((k, w) :: q) y = PM.get q y := by
        unfold PM.get; rw [List.lookup, show (y == k) = false by simpa using h]
      rw [this]

/-- The bindings `pm` are kept in `ρ`, up to sameness. -/
def Kept (pm : PM) (ρ : String → Option Ex) : Prop := ∀ x v, pm.get x = some v → ∃ w, ρ x = some w ∧ hash v = hash w

theorem Kept.refl (pm : PM) : Kept pm pm.get := fun _ v h => ⟨v, h, rfl⟩

theorem Kept.trans {p q : PM} {ρ} (h1 : Kept p q.get) (h2 : Kept q ρ) : Kept p ρ := by
  intro x v hv
  obtain ⟨w, hw, e⟩ := h1 x v hv
  obtain ⟨w', hw', e'⟩ := h2 x w hw
  exact ⟨w', hw', e.trans e'⟩

theorem kept_update_right (pm q : PM) : Kept q (pm.update q).get := by
  intro x v h
  refine ⟨v, ?_, rfl⟩
  rw [PM.get_update, h]; rfl

theorem kept_nil (ρ) : Kept [] ρ := by intro x v h; simp [PM.get] at h

theorem notFlt_value (sh : Shape) (b : Bool) (xs : List Ex) (hd : ∀ d, sh.absent = some d → noReal d = true)
    (h : ∀ x ∈ xs, noReal x = true) : notFlt (sh.value b xs) = true := by
  unfold Shape.value
  split
  · cases ha : sh.absent with
    | none => rfl
    | some d => exact noReal_notFlt (hd d ha)
  · split
    · exact noReal_notFlt (h _ (by simp))
    · rfl
  · rfl

theorem mem_filterMap_get {as : List Ex} {is : List Nat} : ∀ x ∈ is.filterMap (as[·]?), x ∈ as := by
  intro x hx
  simp only [List.mem_filterMap] at hx
  obtain ⟨i, _, hi⟩ := hx
  exact List.mem_of_getElem? hi

/-! ### `parseForm` and `shape` -/

theorem mem_blankHeads {s : String} : s ∈ blankHeads ↔ s = "System`Blank" ∨ s = "System`BlankSequence" ∨ s = "System`BlankNullSequence" := by
  simp [blankHeads]

/-- The head symbol of a pattern, if it is one of the special ones. -/
def headSym : Ex → Option String
  | .expr (.sym s :: _) => some s
  | _ => none

theorem argsOf_none {h : String} {t : Ex} (hs : headSym t ≠ some h) : argsOf h t = none := by
  unfold argsOf
  split
  · rw [if_neg]
    intro e; subst e; exact hs rfl
  · rfl

theorem hasHead_false {h : String} {t : Ex} (hs : headSym t ≠ some h) : hasHead h t = false := by
  unfold hasHead
  split
  · simp only [beq_eq_false_iff_ne]
    intro e; subst e; exact hs rfl
  · rfl

theorem EPat.headSym_ne {p : Ex} (h : EPat p) : headSym p ≠ some "System`Repeated" ∧ headSym p ≠ some "System`RepeatedNull" ∧
    headSym p ≠ some "System`Optional" := by
  cases h with
  | atom h => cases p <;> simp_all [isAtom, headSym]
  | blank h1 h2 => rcases mem_blankHeads.1 h1 with rfl | rfl | rfl <;> simp [headSym]
  | named x h1 h2 => simp [headSym, S]
  | app h1 _ _ =>
    refine ⟨?_, ?_, ?_⟩ <;>
    · intro e
      simp only [headSym, Option.some.injEq] at e
      subst e
      simp [specialHeads, blankHeads] at h1
  | verb _ _ _ => simp [headSym]
  | @appE h ps h1 _ _ _ _ =>
    have : headSym (.expr (h :: ps)) = none := by
      unfold headSym
      split
      · rename_i e
        simp only [Ex.expr.injEq, List.cons.injEq] at e
        exact absurd e.1 (h1 _)
      · rfl
    simp [this]
  | alt _ => simp [headSym, S]
  | test _ _ => simp [headSym, S]
  | hold _ => simp [headSym, S]

theorem toBlank_eq (s : Ex) (args : List Ex) : toBlank (.expr (s :: args)) = .expr (S "Blank" :: args.take 1) := by
  cases args <;> simp [toBlank]

theorem unlimited_eq : unlimited = maxInt := rfl

/-- What parsing the body gives, in terms of its shape. -/
structure BodyAgrees (flat : Bool) (sh : String) (t : Ex) (r : (Int × Int × Ex) × Option Ex) : Prop where
  lo : r.1.1 = (bodyShape flat sh t).lo
  hi : r.1.2.1 = (bodyShape flat sh t).hi
  elem : r.1.2.2 = (bodyShape flat sh t).elem
  dflt : r.2 = none
  bare : (bodyShape flat sh t).bare = (hasHead "System`Blank" t && !flat)
  wrap : (bodyShape flat sh t).wrap = if hasHead "System`Blank" t && flat then .sym sh else S "Sequence"
  name : (bodyShape flat sh t).name = none
  absent : (bodyShape flat sh t).absent = none

theorem bodyShape_other {flat sh} {t : Ex} (h : ∀ s, headSym t = some s → s ≠ "System`Blank" ∧ s ≠ "System`BlankSequence" ∧
    s ≠ "System`BlankNullSequence" ∧ s ≠ "System`Repeated" ∧ s ≠ "System`RepeatedNull") :
    bodyShape flat sh t = ⟨1, 1, t, none, false, S "Sequence", none⟩ := by
  unfold bodyShape
  split
  · rename_i s args
    obtain ⟨h1, h2, h3, h4, h5⟩ := h s rfl
    rw [if_neg h3, if_neg h2, if_neg h1, if_neg h5, if_neg h4]
  · rfl

theorem parseBody_other {flat sh d tst} {t : Ex} (h : ∀ s, headSym t = some s → s ≠ "System`Blank" ∧ s ≠ "System`BlankSequence" ∧
    s ≠ "System`BlankNullSequence" ∧ s ≠ "System`Repeated" ∧ s ≠ "System`RepeatedNull") :
    BodyAgrees flat sh t (parseBody flat sh d none tst t) := by
  have hn : ∀ k, (k = "System`Blank" ∨ k = "System`BlankSequence" ∨ k = "System`BlankNullSequence" ∨ k = "System`Repeated" ∨
      k = "System`RepeatedNull") → headSym t ≠ some k := by
    intro k hk e
    obtain ⟨h1, h2, h3, h4, h5⟩ := h k e
    rcases hk with rfl | rfl | rfl | rfl | rfl <;> contradiction
  have hp : parseBody flat sh d none tst t = ((1, 1, t), none) := by
    unfold parseBody
    rw [argsOf_none (hn "System`BlankNullSequence" (by simp)), argsOf_none (hn "System`Blank" (by simp)),
      argsOf_none (hn "System`Repeated" (by simp)), argsOf_none (hn "System`RepeatedNull" (by simp)),
      argsOf_none (hn "System`BlankSequence" (by simp))]
  have hb : hasHead "System`Blank" t = false := hasHead_false (hn _ (by simp))
  rw [hp]
  constructor <;> (try rw [bodyShape_other h]) <;> simp [hb]

theorem parseBody_blank {flat sh d tst s} {args : List Ex} (hs : s ∈ blankHeads) :
    BodyAgrees flat sh (.expr (.sym s :: args)) (parseBody flat sh d none tst (.expr (.sym s :: args))) := by
  rcases mem_blankHeads.1 hs with rfl | rfl | rfl
  · cases flat with
    | false => constructor <;> simp [parseBody, bodyShape, argsOf, hasHead]
    | true =>
      rcases args with _ | ⟨k, args⟩
      · constructor <;> simp [parseBody, bodyShape, argsOf, hasHead, impliedBs, unlimited, maxInt]
      · cases k with
        | sym k =>
          by_cases hk : k = sh
          · subst hk; constructor <;> simp [parseBody, bodyShape, argsOf, hasHead, impliedBs, unlimited, maxInt]
          · constructor <;> simp [parseBody, bodyShape, argsOf, hasHead, impliedBs, unlimited, maxInt, hk]
        | _ => constructor <;> simp [parseBody, bodyShape, argsOf, hasHead, impliedBs, unlimited, maxInt]
  · constructor <;> simp [parseBody, bodyShape, argsOf, hasHead, unlimited, maxInt, toBlank_eq]
  · constructor <;> simp [parseBody, bodyShape, argsOf, hasHead, unlimited, maxInt, toBlank_eq]

theorem EPat.parse {flat sh d tst} {t : Ex} (h : EPat t) : BodyAgrees flat sh t (parseBody flat sh d none tst t) := by
  have hh := h.headSym_ne
  by_cases hb : ∃ s args, t = .expr (.sym s :: args) ∧ s ∈ blankHeads
  · obtain ⟨s, args, rfl, hs⟩ := hb
    exact parseBody_blank hs
  · refine parseBody_other ?_
    intro s hs
    have ht : ∃ args, t = .expr (.sym s :: args) := by
      unfold headSym at hs
      split at hs
      · simp only [Option.some.injEq] at hs; subst hs; exact ⟨_, rfl⟩
      · simp at hs
    obtain ⟨args, rfl⟩ := ht
    have hnb : s ∉ blankHeads := fun h => hb ⟨s, args, rfl, h⟩
    rw [mem_blankHeads] at hnb
    push Not at hnb
    refine ⟨hnb.1, hnb.2.1, hnb.2.2, ?_, ?_⟩
    · rintro rfl; exact hh.1 rfl
    · rintro rfl; exact hh.2.1 rfl

theorem wrap64_small {n : Nat} (h : (n : Int) ≤ unlimited) : wrap64 n = n := by
  unfold wrap64; unfold unlimited at h; omega

theorem BPat.parse {flat sh d tst} {t : Ex} (h : BPat t) : BodyAgrees flat sh t (parseBody flat sh d none tst t) := by
  cases h with
  | elem h => exact h.parse
  | rep h => constructor <;> simp [parseBody, bodyShape, argsOf, hasHead, unlimited, maxInt, S, parseRepeated]
  | repN n h hn =>
    have hw := wrap64_small hn
    have h1 : ¬ ((n : Int) = -1) := by omega
    constructor <;> simp [parseBody, bodyShape, argsOf, hasHead, unlimited, maxInt, S, parseRepeated, hw, h1]
  | repNull h => constructor <;> simp [parseBody, bodyShape, argsOf, hasHead, unlimited, maxInt, S]

theorem BPat.headSym_ne {p : Ex} (h : BPat p) : headSym p ≠ some "System`Optional" := by
  cases h with
  | elem h => exact h.headSym_ne.2.2
  | rep h => simp [headSym, S]
  | repN n h _ => simp [headSym, S]
  | repNull h => simp [headSym, S]

/-- What parsing an argument pattern gives, in terms of its shape. -/
structure FormAgrees (env : MEnv) (d : Option Ex) (flat : Bool) (sh : String) (p : Ex) (f : ParsedForm) : Prop where
  lo : f.startI = (shape d flat sh p).lo
  hi : f.endI = (shape d flat sh p).hi
  elem : f.form = (shape d flat sh p).elem
  name : f.patSym = (shape d flat sh p).name
  value : ∀ xs, attemptDefine env sh f xs = (shape d flat sh p).value (env.oneIdentity sh) xs

theorem value_agrees {env : MEnv} {flat sh t} {f : ParsedForm} {s : Shape}
    (h1 : f.isBlank = (hasHead "System`Blank" t && !flat)) (h2 : f.isImpliedBs = (hasHead "System`Blank" t && flat))
    (h3 : f.isOptional = false) (h4 : f.defaultExpr = none) (h5 : s.bare = (hasHead "System`Blank" t && !flat))
    (h6 : s.wrap = if hasHead "System`Blank" t && flat then .sym sh else S "Sequence") (h7 : s.absent = none) (xs : List Ex) :
    attemptDefine env sh f xs = s.value (env.oneIdentity sh) xs := by
  unfold attemptDefine Shape.value
  rw [h4, h3, h1, h2, h5, h6, h7]
  generalize hasHead "System`Blank" t = hb
  match xs with
  | [] => cases hb <;> cases flat <;> simp
  | [x] => cases hb <;> cases flat <;> simp
  | x :: y :: xs => cases hb <;> cases flat <;> simp

theorem shape_eq_test {d flat sh} {p : Ex} (h : headSym p ≠ some "System`Optional") : shape d flat sh p = testShape flat sh p := by
  unfold shape
  split
  · rw [if_neg]; rintro rfl; exact h rfl
  · rfl

/-- Parsing when the wrappers are known. -/
theorem parse_of_strip {env : MEnv} {flat sh d} {p c2 t : Ex} {tst : Option Ex} {nm : Option String}
    (h0 : headSym p ≠ some "System`Optional")
    (h1 : stripOptional p = some (none, p)) (h2 : stripTest p = some (tst, c2)) (h3 : stripPat c2 = some (nm, t)) (ht : BPat t)
    (hs : testShape flat sh p = { bodyShape flat sh t with name := nm, elem := match tst with
      | some q => .expr [S "PatternTest", (bodyShape flat sh t).elem, q]
      | none => (bodyShape flat sh t).elem }) :
    ∃ f, parseForm flat sh d p = some f ∧ FormAgrees env d flat sh p f := by
  have hb := ht.parse (flat := flat) (sh := sh) (d := d) (tst := tst.isSome)
  refine ⟨_, by unfold parseForm; rw [h1]; simp only [h2]; rw [h3], ?_⟩
  rw [← shape_eq_test (d := d) h0] at hs
  constructor
  · rw [hs]; simp [hb.lo]
  · rw [hs]; simp [hb.hi]
  · rw [hs]; simp only [hb.elem]; cases tst <;> rfl
  · rw [hs]
  · intro xs
    refine value_agrees (t := t) (flat := flat) rfl rfl rfl hb.dflt ?_ ?_ ?_ xs
    · rw [hs]; exact hb.bare
    · rw [hs]; exact hb.wrap
    · rw [hs]; exact hb.absent

theorem EPat.isPat {p : Ex} (h : EPat p) (hp : headSym p = some "System`Pattern") :
    ∃ x q, p = .expr [S "Pattern", .sym x, q] ∧ EPat q := by
  cases h with
  | atom h => cases p <;> simp_all [isAtom, headSym]
  | blank h1 h2 => rcases mem_blankHeads.1 h1 with rfl | rfl | rfl <;> simp [headSym] at hp
  | named x h1 h2 => exact ⟨x, _, rfl, .blank h1 h2⟩
  | app h1 _ _ =>
    simp only [headSym, Option.some.injEq] at hp
    subst hp
    simp [specialHeads, blankHeads] at h1
  | verb _ _ _ => simp [headSym] at hp
  | @appE h ps h1 _ _ _ _ =>
    cases h <;> simp [headSym] at hp
    exact absurd rfl (h1 _)
  | alt _ => simp [headSym, S] at hp
  | test _ _ => simp [headSym, S] at hp
  | hold _ => simp [headSym, S] at hp

theorem EPat.isTest {p : Ex} (h : EPat p) (hp : headSym p = some "System`PatternTest") :
    ∃ t q, p = .expr [S "PatternTest", q, t] ∧ EPat q := by
  cases h with
  | atom h => cases p <;> simp_all [isAtom, headSym]
  | blank h1 h2 => rcases mem_blankHeads.1 h1 with rfl | rfl | rfl <;> simp [headSym] at hp
  | named x h1 h2 => simp [headSym, S] at hp
  | app h1 _ _ =>
    simp only [headSym, Option.some.injEq] at hp
    subst hp
    simp [specialHeads, blankHeads] at h1
  | verb _ _ _ => simp [headSym] at hp
  | @appE h ps h1 _ _ _ _ =>
    cases h <;> simp [headSym] at hp
    exact absurd rfl (h1 _)
  | alt _ => simp [headSym, S] at hp
  | test t h => exact ⟨t, _, rfl, h⟩
  | hold _ => simp [headSym, S] at hp

theorem BPat.isPat {p : Ex} (h : BPat p) (hp : headSym p = some "System`Pattern") :
    ∃ x q, p = .expr [S "Pattern", .sym x, q] ∧ BPat q := by
  cases h with
  | elem h => obtain ⟨x, q, e, hq⟩ := h.isPat hp; exact ⟨x, q, e, .elem hq⟩
  | rep h => simp [headSym, S] at hp
  | repN n h _ => simp [headSym, S] at hp
  | repNull h => simp [headSym, S] at hp

theorem BPat.isTest {p : Ex} (h : BPat p) (hp : headSym p = some "System`PatternTest") :
    ∃ t q, p = .expr [S "PatternTest", q, t] ∧ BPat q := by
  cases h with
  | elem h => obtain ⟨x, q, e, hq⟩ := h.isTest hp; exact ⟨x, q, e, .elem hq⟩
  | rep h => simp [headSym, S] at hp
  | repN n h _ => simp [headSym, S] at hp
  | repNull h => simp [headSym, S] at hp

theorem shape_eq_named {flat sh} {p : Ex} (h : headSym p ≠ some "System`PatternTest") : testShape flat sh p = namedShape flat sh p := by
  unfold testShape
  split
  · rw [if_neg]; rintro rfl; exact h rfl
  · rfl

theorem namedShape_eq_body {flat sh} {p : Ex} (h : headSym p ≠ some "System`Pattern") : namedShape flat sh p = bodyShape flat sh p := by
  unfold namedShape
  split
  · rw [if_neg]; rintro rfl; exact h rfl
  · rfl

theorem stripOptional_none {p : Ex} (h : headSym p ≠ some "System`Optional") : stripOptional p = some (none, p) := by
  unfold stripOptional; rw [argsOf_none h]
theorem stripTest_none {p : Ex} (h : headSym p ≠ some "System`PatternTest") : stripTest p = some (none, p) := by
  unfold stripTest; rw [argsOf_none h]
theorem stripPat_none {p : Ex} (h : headSym p ≠ some "System`Pattern") : stripPat p = some (none, p) := by
  unfold stripPat; rw [argsOf_none h]

theorem bodyShape_name {flat sh} {t : Ex} (h : BPat t) : (bodyShape flat sh t).name = none := (h.parse (d := none) (tst := false)).name

/-- The part after the test: with or without a name. -/
theorem named_cases {flat sh} {q : Ex} (hq : BPat q) : ∃ nm t, stripPat q = some (nm, t) ∧ BPat t ∧
    namedShape flat sh q = { bodyShape flat sh t with name := nm } := by
  by_cases hp : headSym q = some "System`Pattern"
  · obtain ⟨x, t, rfl, ht⟩ := hq.isPat hp
    exact ⟨some x, t, by simp [stripPat, argsOf, S], ht, by simp [namedShape, S]⟩
  · refine ⟨none, q, stripPat_none hp, hq, ?_⟩
    rw [namedShape_eq_body hp, ← bodyShape_name (flat := flat) (sh := sh) hq]

theorem parse_body (env : MEnv) {flat sh d} {p : Ex} (h : BPat p) : ∃ f, parseForm flat sh d p = some f ∧ FormAgrees env d flat sh p f := by
  by_cases hT : headSym p = some "System`PatternTest"
  · obtain ⟨t, q, rfl, hq⟩ := h.isTest hT
    obtain ⟨nm, b, h1, h2, h3⟩ := named_cases (flat := flat) (sh := sh) hq
    refine parse_of_strip h.headSym_ne (stripOptional_none h.headSym_ne) (tst := some t) (c2 := q) (by simp [stripTest, argsOf, S]) h1 h2 ?_
    simp only [testShape, S, if_true, show ("System`" ++ "PatternTest" : String) = "System`PatternTest" from rfl, h3]
  · obtain ⟨nm, b, h1, h2, h3⟩ := named_cases (flat := flat) (sh := sh) h
    refine parse_of_strip h.headSym_ne (stripOptional_none h.headSym_ne) (stripTest_none hT) h1 h2 ?_
    rw [shape_eq_named hT, h3]

theorem isBlank_eq (t : Ex) : hasHead "System`Blank" t = isBlank t := by
  unfold hasHead isBlank
  rfl

theorem optValue_agrees {env : MEnv} {flat sh t d} {f : ParsedForm} {s : Shape}
    (h1 : f.isBlank = (hasHead "System`Blank" t && !flat)) (h2 : f.isImpliedBs = (hasHead "System`Blank" t && flat))
    (h3 : f.isOptional = true) (h4 : f.defaultExpr = d) (h5 : s.bare = true)
    (h6 : s.wrap = if flat && isBlank t then .sym sh else S "Sequence") (h7 : s.absent = d) (xs : List Ex) :
    attemptDefine env sh f xs = s.value (env.oneIdentity sh) xs := by
  unfold attemptDefine Shape.value
  rw [h4, h3, h1, h2, h5, h6, h7, isBlank_eq]
  generalize isBlank t = hb
  match xs with
  | [] => cases d <;> cases hb <;> cases flat <;> simp
  | [x] => cases hb <;> cases flat <;> simp
  | x :: y :: xs => cases hb <;> cases flat <;> simp

/-- The pattern with its test, if any. -/
def wrapTest (tst : Option Ex) (e : Ex) : Ex :=
  match tst with
  | some q => .expr [S "PatternTest", e, q]
  | none => e

/-- The wrappers of an optional argument. -/
structure OptStrip (q : Ex) (tst : Option Ex) (nm : Option String) (c2 t : Ex) : Prop where
  test : stripTest q = some (tst, c2)
  pat : stripPat c2 = some (nm, t)
  body : EPat t
  form : (tst = none ∧ c2 = q ∨ ∃ u, tst = some u ∧ q = .expr [S "PatternTest", c2, u])
  name : (nm = none ∧ t = c2 ∧ headSym c2 ≠ some "System`Pattern") ∨ ∃ x, nm = some x ∧ c2 = .expr [S "Pattern", .sym x, t]
  shape : ∀ d flat h, optShape d flat h q = { optBody d flat h tst.isSome t with name := nm, elem := wrapTest tst t }

theorem optNamed_cases {q : Ex} (hq : EPat q) : ∃ nm t, stripPat q = some (nm, t) ∧ EPat t ∧
    ((nm = none ∧ t = q ∧ headSym q ≠ some "System`Pattern") ∨ ∃ x, nm = some x ∧ q = .expr [S "Pattern", .sym x, t]) ∧
    ∀ d flat sh tested, optNamed d flat sh tested q = { optBody d flat sh tested t with name := nm } := by
  by_cases hp : headSym q = some "System`Pattern"
  · obtain ⟨x, t, rfl, ht⟩ := hq.isPat hp
    exact ⟨some x, t, by simp [stripPat, argsOf, S], ht, Or.inr ⟨x, rfl, rfl⟩, fun d flat sh tested => by simp [optNamed, S]⟩
  · refine ⟨none, q, stripPat_none hp, hq, Or.inl ⟨rfl, rfl, hp⟩, ?_⟩
    intro d flat sh tested
    unfold optNamed
    split
    · rw [if_neg (by rintro rfl; exact hp rfl)]; rfl
    · rfl

theorem OPat.strip {q : Ex} (h : OPat q) : ∃ tst nm c2 t, OptStrip q tst nm c2 t := by
  have hPT : ("System`" ++ "PatternTest" : String) = "System`PatternTest" := rfl
  have hno : ∀ {q : Ex}, headSym q ≠ some "System`PatternTest" → ∀ d flat h, optShape d flat h q = optNamed d flat h false q := by
    intro q hq d flat h
    unfold optShape
    split
    · rw [if_neg (by rintro rfl; exact hq rfl)]
    · rfl
  have htest : ∀ {q : Ex} (u : Ex), EPat q → ∃ tst nm c2 t, OptStrip (.expr [S "PatternTest", q, u]) tst nm c2 t := by
    intro q u hq
    obtain ⟨nm, t, h1, h2, h3, h4⟩ := optNamed_cases hq
    refine ⟨some u, nm, q, t, by simp [stripTest, argsOf, S], h1, h2, Or.inr ⟨u, rfl, rfl⟩, h3, ?_⟩
    intro d flat sh
    simp only [optShape, S, hPT, if_true, h4, wrapTest, Option.isSome_some]
    rfl
  cases h with
  | body h =>
    by_cases hT : headSym q = some "System`PatternTest"
    · obtain ⟨u, q', rfl, hq⟩ := h.isTest hT
      exact htest u hq
    · obtain ⟨nm, t, h1, h2, h3, h4⟩ := optNamed_cases h
      refine ⟨none, nm, q, t, stripTest_none hT, h1, h2, Or.inl ⟨rfl, rfl⟩, h3, ?_⟩
      intro d flat sh
      rw [hno hT, h4]
      rfl
  | @named p x h =>
    refine ⟨none, some x, _, p, stripTest_none (by simp [headSym, S]), by simp [stripPat, argsOf, S], h, Or.inl ⟨rfl, rfl⟩, Or.inr ⟨x, rfl, rfl⟩, ?_⟩
    intro d flat sh
    rw [hno (by simp [headSym, S])]
    simp [optNamed, S, wrapTest, optBody]
  | test u h => exact htest u h
  | @namedTest p x u h =>
    refine ⟨some u, some x, .expr [S "Pattern", .sym x, p], p, by simp [stripTest, argsOf, S], by simp [stripPat, argsOf, S], h,
      Or.inr ⟨u, rfl, rfl⟩, Or.inr ⟨x, rfl, rfl⟩, ?_⟩
    intro d flat sh
    simp [optShape, optNamed, S, wrapTest, optBody]

theorem shape_opt (d flat sh) (q : Ex) (rest : List Ex) : shape d flat sh (.expr (S "Optional" :: q :: rest)) = optShape (rest.head?.or d) flat sh q := by
  simp [shape, S]

theorem parse_opt (env : MEnv) {flat sh d} {q : Ex} (rest : List Ex) (h : OPat q) :
    ∃ f, parseForm flat sh d (.expr (S "Optional" :: q :: rest)) = some f ∧ FormAgrees env d flat sh (.expr (S "Optional" :: q :: rest)) f := by
  obtain ⟨tst, nm, c2, t, hs⟩ := h.strip
  have h1 : stripOptional (.expr (S "Optional" :: q :: rest)) = some (some (q :: rest), q) := by
    simp [stripOptional, argsOf, S]
  have hb : parseBody flat sh d (some (q :: rest)) tst.isSome t = ((if (rest.head?.or d).isNone then 1 else 0,
      if (hasHead "System`Blank" t && flat) && !tst.isSome then maxInt else 1, t), rest.head?.or d) := by
    cases rest <;> rfl
  have hd : ((rest.head?.or d).isNone) = !(rest.head?.or d).isSome := by cases rest.head?.or d <;> rfl
  refine ⟨_, by unfold parseForm; rw [h1]; simp only [hs.test]; rw [hs.pat], ?_⟩
  rw [hb]
  have hsh : shape d flat sh (.expr (S "Optional" :: q :: rest)) =
      { optBody (rest.head?.or d) flat sh tst.isSome t with name := nm, elem := wrapTest tst t } := by
    rw [shape_opt, hs.shape]
  constructor
  · rw [hsh]; simp only [optBody, hd]
    cases rest.head?.or d <;> simp
  · rw [hsh]; simp only [optBody, isBlank_eq, unlimited_eq]; rw [Bool.and_comm (isBlank t) flat]
  · rw [hsh]; cases tst <;> rfl
  · rw [hsh]
  · intro xs
    refine optValue_agrees (t := t) (flat := flat) (d := rest.head?.or d) rfl rfl rfl rfl ?_ ?_ ?_ xs
    · rw [hsh]; rfl
    · rw [hsh]; rfl
    · rw [hsh]; rfl

/-- Every argument pattern of the fragment is parsed into a form that agrees with its shape. -/
theorem APat.parse (env : MEnv) {flat sh d} {p : Ex} (h : APat p) : ∃ f, parseForm flat sh d p = some f ∧ FormAgrees env d flat sh p f := by
  cases h with
  | body h => exact parse_body env h
  | @named q x h =>
    refine parse_of_strip (by simp [headSym, S]) (stripOptional_none (by simp [headSym, S])) (stripTest_none (by simp [headSym, S])) (nm := some x) (t := q)
      (by simp [stripPat, argsOf, S]) h ?_
    rw [shape_eq_named (by simp [headSym, S])]
    simp [namedShape, S]
  | @test q t h =>
    obtain ⟨nm, b, h1, h2, h3⟩ := named_cases (flat := flat) (sh := sh) h
    refine parse_of_strip (by simp [headSym, S]) (stripOptional_none (by simp [headSym, S])) (tst := some t) (c2 := q) (by simp [stripTest, argsOf, S]) h1 h2 ?_
    simp only [testShape, S, if_true, show ("System`" ++ "PatternTest" : String) = "System`PatternTest" from rfl, h3]
  | @namedTest q x t h =>
    refine parse_of_strip (by simp [headSym, S]) (stripOptional_none (by simp [headSym, S])) (tst := some t) (c2 := .expr [S "Pattern", .sym x, q]) (nm := some x) (t := q)
      (by simp [stripTest, argsOf, S]) (by simp [stripPat, argsOf, S]) h ?_
    simp [testShape, namedShape, S]
  | opt h => exact parse_opt env [] h
  | optD d h hd => exact parse_opt env [d] h

/-! ### The element pattern of a shape -/

theorem BPat.elem_ok {flat sh} {t : Ex} (h : BPat t) : EPat (bodyShape flat sh t).elem ∧ size (bodyShape flat sh t).elem ≤ size t ∧
    0 ≤ (bodyShape flat sh t).lo := by
  have hE : ∀ {t : Ex}, EPat t → EPat (bodyShape flat sh t).elem ∧ size (bodyShape flat sh t).elem ≤ size t ∧ 0 ≤ (bodyShape flat sh t).lo := by
    intro t h
    have hh := h.headSym_ne
    by_cases hb : ∃ s args, t = .expr (.sym s :: args) ∧ s ∈ blankHeads
    · obtain ⟨s, args, rfl, hs⟩ := hb
      have ht : EPat (.expr (S "Blank" :: args.take 1)) ∧ size (.expr (S "Blank" :: args.take 1)) ≤ size (.expr (.sym s :: args)) := by
        refine ⟨.blank (by simp [blankHeads]) (by simp), ?_⟩
        cases args <;> simp [size, sizeL, S]
      rcases mem_blankHeads.1 hs with rfl | rfl | rfl
      · cases flat with
        | false => simp [bodyShape, h]
        | true =>
          rcases args with _ | ⟨k, args⟩
          · simp [bodyShape, h]
          · cases k with
            | sym k =>
              by_cases hk : k = sh
              · subst hk
                simp only [bodyShape]
                simp [size, sizeL, S]
                exact ⟨.blank (by simp [blankHeads]) (by simp), by omega⟩
              · simp [bodyShape, h, hk]
            | _ => simp [bodyShape, h]
      · simpa [bodyShape] using ht
      · simpa [bodyShape] using ht
    · rw [bodyShape_other]
      · exact ⟨h, Nat.le_refl _, by simp⟩
      · intro s hs
        have ht : ∃ args, t = .expr (.sym s :: args) := by
          unfold headSym at hs
          split at hs
          · simp only [Option.some.injEq] at hs; subst hs; exact ⟨_, rfl⟩
          · simp at hs
        obtain ⟨args, rfl⟩ := ht
        have hnb : s ∉ blankHeads := fun h => hb ⟨s, args, rfl, h⟩
        rw [mem_blankHeads] at hnb
        push Not at hnb
        refine ⟨hnb.1, hnb.2.1, hnb.2.2, ?_, ?_⟩
        · rintro rfl; exact hh.1 rfl
        · rintro rfl; exact hh.2.1 rfl
  cases h with
  | elem h => exact hE h
  | rep h => simp [bodyShape, S, h, size, sizeL]; omega
  | repN n h hn => simp [bodyShape, S, h, size, sizeL]; omega
  | repNull h => simp [bodyShape, S, h, size, sizeL]; omega

theorem OptStrip.size {q tst nm c2 t} (h : OptStrip q tst nm c2 t) : size (wrapTest tst t) ≤ size q := by
  have h1 : Ex.size t ≤ Ex.size c2 := by
    rcases h.name with ⟨_, rfl, _⟩ | ⟨x, _, rfl⟩
    · exact Nat.le_refl _
    · simp [Ex.size, sizeL]; omega
  rcases h.form with ⟨rfl, rfl⟩ | ⟨u, rfl, rfl⟩
  · exact h1
  · simp [wrapTest, Ex.size, sizeL]; omega

theorem OptStrip.elem {q tst nm c2 t} (h : OptStrip q tst nm c2 t) : EPat (wrapTest tst t) := by
  cases tst with
  | none => exact h.body
  | some u => exact .test u h.body

theorem APat.shape_cases {d flat sh} {p : Ex} (h : APat p) : EPat (shape d flat sh p).elem ∧ size (shape d flat sh p).elem ≤ size p ∧
    0 ≤ (shape d flat sh p).lo := by
  have hO : ∀ {q : Ex} (rest : List Ex), OPat q → EPat (shape d flat sh (.expr (S "Optional" :: q :: rest))).elem ∧
      size (shape d flat sh (.expr (S "Optional" :: q :: rest))).elem ≤ size (.expr (S "Optional" :: q :: rest)) ∧
      0 ≤ (shape d flat sh (.expr (S "Optional" :: q :: rest))).lo := by
    intro q rest hq
    obtain ⟨tst, nm, c2, t, hs⟩ := hq.strip
    rw [shape_opt, hs.shape]
    refine ⟨hs.elem, ?_, ?_⟩
    · have := hs.size
      simp [size, sizeL]; omega
    · simp only [optBody]; split <;> simp
  have hB : ∀ {q : Ex}, BPat q → ∃ t nm, BPat t ∧ size t ≤ size q ∧ namedShape flat sh q = { bodyShape flat sh t with name := nm } := by
    intro q hq
    by_cases hp : headSym q = some "System`Pattern"
    · obtain ⟨x, t, rfl, ht⟩ := hq.isPat hp
      exact ⟨t, some x, ht, by simp [size, sizeL]; omega, by simp [namedShape, S]⟩
    · refine ⟨q, none, hq, Nat.le_refl _, ?_⟩
      rw [namedShape_eq_body hp, ← bodyShape_name (flat := flat) (sh := sh) hq]
  have hN : ∀ {q : Ex}, BPat q → EPat (namedShape flat sh q).elem ∧ size (namedShape flat sh q).elem ≤ size q ∧ 0 ≤ (namedShape flat sh q).lo := by
    intro q hq
    obtain ⟨t, nm, h1, h2, h3⟩ := hB hq
    have := h1.elem_ok (flat := flat) (sh := sh)
    rw [h3]
    exact ⟨this.1, by simp; omega, this.2.2⟩
  have hT : ∀ {q : Ex} (t : Ex), EPat (namedShape flat sh q).elem ∧ size (namedShape flat sh q).elem ≤ size q ∧ 0 ≤ (namedShape flat sh q).lo →
      EPat (testShape flat sh (.expr [S "PatternTest", q, t])).elem ∧
      size (testShape flat sh (.expr [S "PatternTest", q, t])).elem ≤ size (.expr [S "PatternTest", q, t]) ∧
      0 ≤ (testShape flat sh (.expr [S "PatternTest", q, t])).lo := by
    intro q t h
    simp only [testShape, S, show ("System`" ++ "PatternTest" : String) = "System`PatternTest" from rfl, if_true]
    refine ⟨.test _ h.1, ?_, h.2.2⟩
    simp [size, sizeL]; omega
  have hX : ∀ {q : Ex} (x : String), BPat q → EPat (namedShape flat sh (.expr [S "Pattern", .sym x, q])).elem ∧
      size (namedShape flat sh (.expr [S "Pattern", .sym x, q])).elem ≤ size (.expr [S "Pattern", .sym x, q]) ∧
      0 ≤ (namedShape flat sh (.expr [S "Pattern", .sym x, q])).lo := by
    intro q x hq
    have := hq.elem_ok (flat := flat) (sh := sh)
    simp only [namedShape, S, show ("System`" ++ "Pattern" : String) = "System`Pattern" from rfl, if_true]
    refine ⟨this.1, ?_, this.2.2⟩
    simp [size, sizeL]; omega
  cases h with
  | body h =>
    rw [shape_eq_test h.headSym_ne]
    by_cases hTt : headSym p = some "System`PatternTest"
    · obtain ⟨t, q, rfl, hq⟩ := h.isTest hTt
      exact hT t (hN hq)
    · rw [shape_eq_named hTt]; exact hN h
  | named x h =>
    rw [shape_eq_test (by simp [headSym, S])]
    rw [shape_eq_named (by simp [headSym, S])]
    exact hX x h
  | test t h =>
    rw [shape_eq_test (by simp [headSym, S])]
    exact hT t (hN h)
  | namedTest x t h =>
    rw [shape_eq_test (by simp [headSym, S])]
    exact hT t (hX x h)
  | opt h => exact hO [] h
  | optD d h _ => exact hO [d] h

theorem BPat.absent {flat sh} {t : Ex} (h : BPat t) : (bodyShape flat sh t).absent = none := (h.parse (d := none) (tst := false)).absent

/-- The value an argument pattern has of its own contains no real. -/
theorem APat.absent_ok {env : MEnv} [env.Exact] {k flat sh} {p : Ex} (h : APat p) :
    ∀ d, (shape (env.dflt k) flat sh p).absent = some d → noReal d = true := by
  have hO : ∀ {q : Ex} (rest : List Ex), OPat q → (∀ e ∈ rest, noReal e = true) → ∀ d,
      (shape (env.dflt k) flat sh (.expr (S "Optional" :: q :: rest))).absent = some d → noReal d = true := by
    intro q rest hq hr d hd
    obtain ⟨tst, nm, c2, t, hs⟩ := hq.strip
    rw [shape_opt, hs.shape] at hd
    simp only [optBody] at hd
    cases rest with
    | nil => exact MEnv.Exact.exact k d (by simpa using hd)
    | cons e rest =>
      simp at hd; subst hd; exact hr _ (by simp)
  have hN : ∀ {q : Ex}, BPat q → (namedShape flat sh q).absent = none := by
    intro q hq
    obtain ⟨nm, t, _, h2, h3⟩ := named_cases (flat := flat) (sh := sh) hq
    rw [h3]; exact h2.absent
  have hX : ∀ {q : Ex} (x : String), BPat q → (namedShape flat sh (.expr [S "Pattern", .sym x, q])).absent = none := by
    intro q x hq
    simp only [namedShape, S, show ("System`" ++ "Pattern" : String) = "System`Pattern" from rfl, if_true]
    exact hq.absent
  have hT : ∀ {q : Ex} (t : Ex), (testShape flat sh (.expr [S "PatternTest", q, t])).absent = (namedShape flat sh q).absent := by
    intro q t
    simp only [testShape, S, show ("System`" ++ "PatternTest" : String) = "System`PatternTest" from rfl, if_true]
  have hno : headSym p ≠ some "System`Optional" → (testShape flat sh p).absent = none →
      ∀ d, (shape (env.dflt k) flat sh p).absent = some d → noReal d = true := by
    intro h1 h2 d hd
    rw [shape_eq_test h1, h2] at hd
    simp at hd
  cases h with
  | body h =>
    refine hno h.headSym_ne ?_
    by_cases hTt : headSym p = some "System`PatternTest"
    · obtain ⟨t, q, rfl, hq⟩ := h.isTest hTt
      rw [hT, hN hq]
    · rw [shape_eq_named hTt, hN h]
  | named x h => exact hno (by simp [headSym, S]) (by rw [shape_eq_named (by simp [headSym, S])]; exact hX x h)
  | test t h => exact hno (by simp [headSym, S]) (by rw [hT, hN h])
  | namedTest x t h => exact hno (by simp [headSym, S]) (by rw [hT, hX x h])
  | opt h => exact hO [] h (by simp)
  | optD d h hd => exact hO [d] h (by simpa using hd)

theorem verbHead_epat (s : String) : EPat (.expr [S "Verbatim", .sym s]) :=
  .app (by decide) (by simp) (by simpa using .body (.elem (.atom rfl)))

theorem noReal_opened {a : Ex} (h : noReal a = true) : noReal (opened a) = true := by
  unfold opened
  cases hp : partsOf a with
  | none => exact h
  | some ps =>
    have := noReal_parts h hp
    simp only [Option.map_some, Option.getD_some, noReal]
    clear hp
    induction ps with
    | nil => rfl
    | cons p ps ih => simp [noRealL, this p (by simp), ih (fun q hq => this q (by simp [hq]))]

theorem noReal_assumed (s : String) {a : Ex} (h : noReal a = true) : noReal (.expr [.sym s, opened a]) = true := by
  simp [noReal, noRealL, noReal_opened h]

/-- The parts of a compound pattern are argument patterns. -/
theorem EPat.args {ps : List Ex} (h : EPat (.expr ps)) (hs : ∀ s, ps.head? = some (.sym s) → s ∉ specialHeads) : ∀ p ∈ ps, APat p := by
  cases h with
  | atom h => simp [isAtom] at h
  | blank h1 _ => exact absurd (by simp [specialHeads, h1]) (hs _ rfl)
  | named => exact absurd (by simp [specialHeads]) (hs "System`Pattern" rfl)
  | app _ _ h =>
    intro p hp
    rcases List.mem_cons.1 hp with rfl | hp
    · exact .body (.elem (.atom rfl))
    · exact h p hp
  | verb h1 h2 h =>
    intro p hp
    rcases List.mem_cons.1 hp with rfl | hp
    · exact .body (.elem (verbHead_epat _))
    · exact h p hp
  | appE _ _ h2 _ h =>
    intro p hp
    rcases List.mem_cons.1 hp with rfl | hp
    · exact .body (.elem h2)
    · exact h p hp
  | alt => exact absurd (by simp [specialHeads]) (hs "System`Alternatives" rfl)
  | test => exact absurd (by simp [specialHeads]) (hs "System`PatternTest" rfl)
  | hold => exact absurd (by simp [specialHeads]) (hs "System`HoldPattern" rfl)

/-- More bindings (up to sameness) do not destroy a match. -/
theorem Matches.mono {env : MEnv} [env.Exact] {ρ ρ' : String → Option Ex} (hρ : ∀ x v, ρ x = some v → ∃ w, ρ' x = some w ∧ hash v = hash w)
    {p a : Ex} (h : Matches env ρ p a) : EPat p → noReal a = true → Matches env ρ' p a := by
  induction h with
  | lit h1 h2 h3 => intro _ _; exact .lit h1 h2 h3
  | blank h1 h2 => intro _ _; exact .blank h1 h2
  | named h1 h2 h3 h4 =>
    intro _ ha
    obtain ⟨w, hw, e⟩ := hρ _ _ h3
    refine .named h1 h2 hw ?_
    rw [isSameQ_notFlt (noReal_notFlt ha)] at h4 ⊢
    rw [← e, h4]
  | @same s ps as a A h1 h2 h3 h4 h5 h6 h7 ih =>
    intro hE ha
    have hn := noReal_parts ha h2
    have hargs := hE.args (by intro t ht; simp at ht; subst ht; exact h1)
    refine .same A h1 h2 h3 h4 h5 ?_ ?_
    · intro j p is i c hp hA hi hc
      exact ih j p is i c hp hA hi hc (hargs p (by simp [List.mem_of_getElem? hp])).shape_cases.1 (hn c (by simp [List.mem_of_getElem? hc]))
    · intro j p is x hp hA hx
      obtain ⟨v, hv, e⟩ := h7 j p is x hp hA hx
      obtain ⟨w, hw, e'⟩ := hρ _ _ hv
      refine ⟨w, hw, ?_⟩
      have hf : notFlt ((shape (env.dflt s) (env.flat s) s p).value (env.oneIdentity s) (is.filterMap (as[·]?))) = true :=
        notFlt_value _ _ _ (hargs p (by simp [List.mem_of_getElem? hp])).absent_ok (fun x hx => hn x (by simp [mem_filterMap_get x hx]))
      rw [isSameQ_notFlt hf] at e ⊢
      rw [← e', e]
  | @diff ps as a A h1 h2 h3 h0 h3' h4 h5 h6 h7 ih =>
    intro hE ha
    have hn := noReal_parts ha h2
    have hargs := hE.args h1
    refine .diff A h1 h2 h3 h0 h3' h4 h5 ?_ ?_
    · intro j p is i c hp hA hi hc
      exact ih j p is i c hp hA hi hc (hargs p (List.mem_of_getElem? hp)).shape_cases.1 (hn c (List.mem_of_getElem? hc))
    · intro j p is x hp hA hx
      obtain ⟨v, hv, e⟩ := h7 j p is x hp hA hx
      obtain ⟨w, hw, e'⟩ := hρ _ _ hv
      refine ⟨w, hw, ?_⟩
      have hf : notFlt ((shape (env.dflt "Sequence") false "Sequence" p).value (env.oneIdentity "Sequence") (is.filterMap (as[·]?))) = true :=
        notFlt_value _ _ _ (hargs p (List.mem_of_getElem? hp)).absent_ok (fun x hx => hn x (mem_filterMap_get x hx))
      rw [isSameQ_notFlt hf] at e ⊢
      rw [← e', e]
  | clash h1 h2 h3 h4 h5 => intro _ _; exact .clash h1 h2 h3 h4 h5
  | verbClash h0 h1 h2 => intro _ _; exact .verbClash h0 h1 h2
  | @verb s ps as a A h1 h2 h3 h4 h5 h6 h7 ih =>
    intro hE ha
    have hn := noReal_parts ha h2
    have hargs := hE.args (by simp)
    refine .verb A h1 h2 h3 h4 h5 ?_ ?_
    · intro j p is i c hp hA hi hc
      exact ih j p is i c hp hA hi hc (hargs p (by simp [List.mem_of_getElem? hp])).shape_cases.1 (hn c (by simp [List.mem_of_getElem? hc]))
    · intro j p is x hp hA hx
      obtain ⟨v, hv, e⟩ := h7 j p is x hp hA hx
      obtain ⟨w, hw, e'⟩ := hρ _ _ hv
      refine ⟨w, hw, ?_⟩
      have hf : notFlt ((shape (env.dflt s) false s p).value (env.oneIdentity s) (is.filterMap (as[·]?))) = true :=
        notFlt_value _ _ _ (hargs p (by simp [List.mem_of_getElem? hp])).absent_ok (fun x hx => hn x (by simp [mem_filterMap_get x hx]))
      rw [isSameQ_notFlt hf] at e ⊢
      rw [← e', e]
  | assumed h1 h2 _ ih => intro hE ha; exact .assumed h1 h2 (ih hE (noReal_assumed _ ha))
  | alt h1 _ ih =>
    intro hE ha
    refine .alt h1 (ih ?_ ha)
    cases hE with
    | blank h => simp [blankHeads] at h
    | app h => simp [specialHeads] at h
    | appE h => exact absurd rfl (h _)
    | alt h => exact h _ h1
    | atom h => simp [isAtom] at h
  | test _ h2 ih =>
    intro hE ha
    refine .test (ih ?_ ha) h2
    obtain ⟨t, q, e, hq⟩ := hE.isTest rfl
    simp only [Ex.expr.injEq, List.cons.injEq] at e
    rw [e.2.1]; exact hq
  | hold _ ih =>
    intro hE ha
    refine .hold (ih ?_ ha)
    cases hE with
    | blank h => simp [blankHeads] at h
    | app h => simp [specialHeads] at h
    | appE h => exact absurd rfl (h _)
    | hold h => exact h
    | atom h => simp [isAtom] at h

theorem Matches.kept {env : MEnv} [env.Exact] {pm : PM} {ρ' : String → Option Ex} (hρ : Kept pm ρ')
    {p a : Ex} (h : Matches env pm.get p a) (hp : EPat p) (ha : noReal a = true) : Matches env ρ' p a := h.mono hρ hp ha


end Expreduce
