import Verif.Proofs.PrintRead

/-! Property C83: printing and reading back. -/

namespace Expreduce
open Ex

section
variable (prec : String → Option Nat) (fl : Rat → String)

/-- C83: `FullForm` of an expression without real and complex numbers is its plain text, whatever builtins exist: `head[arg, arg, ...]` all the way down. The only
exceptions are the format wrappers. -/
theorem C83_fullform (p : PParams) (hf : p.form = .full) (e : Ex) (he : everyPart PlainPart e) :
    Prints prec fl p e (String.ofList (plainText p.context p.path e)) :=
  ⟨6 * size e, fun n hn => sf_full prec fl e p hf he n hn⟩

end

/-- Prefixes of names. -/
theorem prefix_split {c s : String} (h : c.toList.isPrefixOf s.toList = true) : s = c ++ String.ofList (s.toList.drop c.toList.length) := by
  rw [List.isPrefixOf_iff_prefix] at h
  obtain ⟨l, hl⟩ := h
  apply String.toList_inj.1
  rw [String.toList_append, String.toList_ofList, ← hl]
  simp

theorem shown_cases (context : String) (path : List String) (s : String) :
    (∃ c ∈ context :: path, s = c ++ shown context path s) ∨ (shown context path s = s ∧ ∀ c ∈ context :: path, ∀ n, s ≠ c ++ n) := by
  unfold shown
  cases h : (context :: path).find? (fun c => c.toList.isPrefixOf s.toList) with
  | none =>
    refine Or.inr ⟨rfl, ?_⟩
    rintro c hc n rfl
    have := List.find?_eq_none.1 h c hc
    apply this
    simp
  | some c =>
    refine Or.inl ⟨c, List.mem_of_find?_eq_some h, ?_⟩
    exact prefix_split (by simpa using List.find?_some h)

/-- C83: a symbol is printed with the first of the current context and the contexts of the path that it carries removed, otherwise in full. -/
theorem C83_symbol (prec : String → Option Nat) (fl : Rat → String) (n : Nat) (p : PParams) (s : String) (hs : s ≠ "") :
    sf prec fl (n + 1) p (.sym s) = .ok (shown p.context p.path s) ∧
    ((∃ c ∈ p.context :: p.path, s = c ++ shown p.context p.path s) ∨ shown p.context p.path s = s) := by
  refine ⟨by rw [sf_sym, symForm_shown p s hs], ?_⟩
  rcases shown_cases p.context p.path s with h | h
  · exact Or.inl h
  · exact Or.inr h.1

/-- C83: the printed name of a symbol, read again, is the symbol exactly under the condition `comesBack`. -/
theorem C83_symbol_back (context : String) (path : List String) (st : DState) (s : String) :
    (resolveName context path st (shown context path s)).2 = s ↔ comesBack context path st s := by
  rw [(C48_name context path st _).1, comesBack]
  split <;> rfl

mutual
/-- The expression in the text, before the contexts are added. -/
def shownEx (context : String) (path : List String) : Ex → Ex
  | .sym s => .sym (shown context path s)
  | .rat n d => .expr [.sym "Rational", .int n, .int d]
  | .expr ps => .expr (shownExL context path ps)
  | e => e
/-- The same for a list. -/
def shownExL (context : String) (path : List String) : List Ex → List Ex
  | [] => []
  | e :: r => shownEx context path e :: shownExL context path r
end

theorem reading_int (n : Int) : reading (intTree n) = .int n := by
  unfold intTree
  split
  · rfl
  · simp [reading, inParens, negated, tokenMeaning]

theorem proper_int (n : Int) : properTree NoParensName (intTree n) := by
  unfold intTree
  split <;> simp [properTree, NoParensName, tokenConv, allSyms]

theorem name_not_greek {s : String} (h : NameLike s) : s ≠ "π" ∧ s ≠ "ⅈ" ∧ s ≠ "ⅉ" := by
  obtain ⟨c, l, hs, hc, -⟩ := h
  refine ⟨?_, ?_, ?_⟩ <;> rintro rfl
  · have : c = 'π' := by
      have : "π".toList = ['π'] := by decide
      rw [this, List.cons.injEq] at hs; exact hs.1.symm
    subst this; revert hc; decide
  · have : c = 'ⅈ' := by
      have : "ⅈ".toList = ['ⅈ'] := by decide
      rw [this, List.cons.injEq] at hs; exact hs.1.symm
    subst this; revert hc; decide
  · have : c = 'ⅉ' := by
      have : "ⅉ".toList = ['ⅉ'] := by decide
      rw [this, List.cons.injEq] at hs; exact hs.1.symm
    subst this; revert hc; decide

theorem tree_ok (context : String) (path : List String) : ∀ e : Ex, everyPart PlainPart e → everyPart (ReadablePart context path) e →
    properTree NoParensName (plainTree context path e) ∧ reading (plainTree context path e) = shownEx context path e := by
  intro e
  induction e using Ex.ind with
  | hsym s =>
    intro _ hr
    simp only [everyPart, ReadablePart] at hr
    obtain ⟨h1, h2, h3⟩ := name_not_greek hr.1
    simp only [plainTree, properTree, NoParensName, tokenConv, redefined, h1, h2, h3, if_false, allSyms, reading, tokenMeaning, or_self, shownEx]
    exact ⟨hr.2, trivial⟩
  | hstr s => intro _ _; simp [plainTree, properTree, NoParensName, tokenConv, allSyms, reading, tokenMeaning, shownEx]
  | hint n => intro _ _; exact ⟨proper_int n, reading_int n⟩
  | hrat n d =>
    intro _ _
    constructor
    · simp only [plainTree, properTree, properTreeL, proper_int, and_true, NoParensName, tokenConv]
      show allSyms _ (.sym (redefined "Rational"))
      simp only [allSyms]
      decide
    · simp only [plainTree, reading, readings, reading_int, shownEx, tokenMeaning]
      rw [if_neg (by decide), if_neg (by decide)]
  | hflt v => intro h; simp [everyPart, PlainPart] at h
  | hcplx a b => intro h; simp [everyPart, PlainPart] at h
  | hexpr ps ih =>
    intro hp hr
    simp only [everyPart] at hp hr
    have hl : properTreeL NoParensName (plainTrees context path ps) ∧ readings (plainTrees context path ps) = shownExL context path ps := by
      have hpa := hp.2
      have hra := hr.2
      clear hp hr
      induction ps with
      | nil => exact ⟨trivial, rfl⟩
      | cons a args ihl =>
        simp only [everyPartL] at hpa hra
        have h1 := ih a List.mem_cons_self hpa.1 hra.1
        have h2 := ihl (fun p hp => ih p (List.mem_cons_of_mem _ hp)) hpa.2 hra.2
        simp only [plainTrees, properTreeL, readings, shownExL]
        exact ⟨⟨h1.1, h2.1⟩, by rw [h1.2, h2.2]⟩
    cases ps with
    | nil => exact absurd hp.1 (by simp [PlainPart])
    | cons h args =>
      simp only [plainTrees, properTreeL, readings, shownExL, List.cons.injEq] at hl
      simp only [plainTree, plainTrees, callTree, properTree, reading, shownEx, shownExL, hl.2.1, hl.2.2]
      exact ⟨hl.1, trivial⟩

theorem grown_outside {context : String} {path : List String} {st0 st : DState} (hg : Grown context path st0 st) {n : String} (hb : '`' ∈ n.toList)
    (hn : ∀ p ∈ path, ∀ m, n ≠ p ++ m) : Grown context path st0 (resolveName context path st n).1 := by
  have hname := C48_name context path st n
  rw [if_pos hb] at hname
  refine ⟨fun x hx => by rw [hname.2 x, hg.1 x hx]; rfl, ?_⟩
  intro x hx
  rw [hname.2 x, Bool.or_eq_true, decide_eq_true_eq, hname.1] at hx
  rcases hx with hx | rfl
  · exact hg.2 x hx
  · exact Or.inr (Or.inr hn)

theorem resolve_shown {context : String} {path : List String} (hc : ContextName context) (hp : ∀ p ∈ path, ContextName p) (st0 : DState)
    (hrat : meantBy context path st0 "Rational" = "System`Rational") : ∀ e st, everyPart PlainPart e →
    allSyms (comesBack context path st0) e → Grown context path st0 st →
      (resolve context path st (shownEx context path e)).2 = spelled e ∧ Grown context path st0 (resolve context path st (shownEx context path e)).1 := by
  intro e
  induction e using Ex.ind with
  | hsym s =>
    intro st _ hs hg
    simp only [allSyms, comesBack] at hs
    simp only [shownEx, resolve, spelled]
    split at hs
    · next hb =>
      rw [(C48_name context path st _).1, if_pos hb]
      refine ⟨by rw [hs], ?_⟩
      rcases shown_cases context path s with ⟨c, hcm, hcs⟩ | ⟨h1, h2⟩
      · exfalso
        have hcn : ContextName c := by
          rcases List.mem_cons.1 hcm with rfl | h
          · exact hc
          · exact hp c h
        obtain ⟨l, hl⟩ := hcn
        have := congrArg (fun x => x.toList.length) hcs
        rw [hs] at this
        simp only [String.toList_append, hl, List.length_append, List.length_cons, List.length_nil] at this
        omega
      · exact grown_outside hg hb (fun p hpm m => by rw [h1]; exact h2 p (List.mem_cons_of_mem _ hpm) m)
    · next hb =>
      refine ⟨?_, grown_step hc hp hg hb⟩
      rw [(C48_name context path st _).1, if_neg hb, grown_meantBy hc hp hg hb, hs]
  | hrat n d =>
    intro st _ _ hg
    have hb : '`' ∉ "Rational".toList := by decide
    simp only [shownEx, resolve, resolveL, spelled]
    refine ⟨?_, grown_step hc hp hg hb⟩
    rw [(C48_name context path st _).1, if_neg hb, grown_meantBy hc hp hg hb, hrat]
    rfl
  | hexpr ps ih =>
    intro st hpl hs hg
    simp only [everyPart] at hpl
    replace hpl := hpl.2
    simp only [allSyms] at hs
    simp only [shownEx, resolve, spelled, Ex.expr.injEq]
    induction ps generalizing st with
    | nil => exact ⟨rfl, hg⟩
    | cons p ps ihl =>
      simp only [allSymsL] at hs
      simp only [everyPartL] at hpl
      simp only [shownExL, resolveL, spelledL]
      have h1 := ih p List.mem_cons_self st hpl.1 hs.1 hg
      have h2 := ihl (fun q hq => ih q (List.mem_cons_of_mem _ hq)) _ hs.2 h1.2 hpl.2
      exact ⟨by rw [h1.1, h2.1], h2.2⟩
  | _ => intro st _ _ hg; exact ⟨rfl, hg⟩

section
variable (prec : String → Option Nat) (fl : Rat → String)

/-- C83: **what is printed in `FullForm` is read back as the same expression**. The text is read in exactly one way, and the parser and the resolution of names make the
original expression of it (with `Rational[n, d]` for rational numbers, as before evaluation), provided that the names come back. -/
theorem C83_readback (p : PParams) (hf : p.form = .full) (hc : ContextName p.context) (hp : ∀ c ∈ p.path, ContextName c) (st : DState) (e : Ex)
    (he : everyPart PlainPart e) (hr : everyPart (ReadablePart p.context p.path) e) (hs : allSyms (comesBack p.context p.path st) e)
    (hrat : meantBy p.context p.path st "Rational" = "System`Rational") :
    ∃ text t, Prints prec fl p e text ∧ ReadsAs text t ∧ (∀ u, ReadsAs text u → u = t) ∧
      ∃ st', interp p.context p.path st t = some (st', spelled e) := by
  have h1 := plain_readsAs p.context p.path e he hr
  have h2 := tree_ok p.context p.path e he hr
  have h3 := resolve_shown hc hp st hrat e st he hs ⟨fun _ h => h, fun _ h => Or.inl h⟩
  refine ⟨_, _, ⟨6 * size e, fun n hn => sf_full prec fl e p hf he n hn⟩, h1, fun u hu => readsAs_unique hu h1, (resolve p.context p.path st (shownEx p.context p.path e)).1, ?_⟩
  have h4 := C47_reading h2.1
  unfold parsed at h4
  rw [interp, h4, h2.2, Option.map_some, ← h3.1]

theorem prints_unique {p : PParams} {e : Ex} {s t : String} (h₁ : Prints prec fl p e s) (h₂ : Prints prec fl p e t) : s = t := by
  obtain ⟨n, hn⟩ := h₁
  obtain ⟨m, hm⟩ := h₂
  have a := hn _ (Nat.le_max_left n m)
  rw [hm _ (Nat.le_max_right n m)] at a
  exact (Res.ok.inj a).symm

/-- C83: two expressions with the same `FullForm` text are the same, up to the notation of rational numbers, if their names come back. -/
theorem C83_unambiguous (p : PParams) (hf : p.form = .full) (hc : ContextName p.context) (hp : ∀ c ∈ p.path, ContextName c) (st : DState) (e₁ e₂ : Ex)
    (he₁ : everyPart PlainPart e₁) (hr₁ : everyPart (ReadablePart p.context p.path) e₁) (hs₁ : allSyms (comesBack p.context p.path st) e₁)
    (he₂ : everyPart PlainPart e₂) (hr₂ : everyPart (ReadablePart p.context p.path) e₂) (hs₂ : allSyms (comesBack p.context p.path st) e₂)
    (hrat : meantBy p.context p.path st "Rational" = "System`Rational") {text : String}
    (h₁ : Prints prec fl p e₁ text) (h₂ : Prints prec fl p e₂ text) : spelled e₁ = spelled e₂ := by
  obtain ⟨x₁, t₁, a₁, b₁, -, s₁, c₁⟩ := C83_readback prec fl p hf hc hp st e₁ he₁ hr₁ hs₁ hrat
  obtain ⟨x₂, t₂, a₂, b₂, u₂, s₂, c₂⟩ := C83_readback prec fl p hf hc hp st e₂ he₂ hr₂ hs₂ hrat
  have k₁ := prints_unique prec fl a₁ h₁
  have k₂ := prints_unique prec fl a₂ h₂
  subst k₁ k₂
  have := u₂ _ b₁
  subst this
  rw [c₁] at c₂
  simpa using (Prod.mk.inj (Option.some.inj c₂)).2

/-- The usual parameters: ``Global` `` is the current context, ``System` `` and ``Global` `` are on the path. -/
def usual (f : PForm) : PParams := { form := f, context := "Global`", path := ["System`", "Global`"], prev := topHead, fns := true }

/-- The state that knows some names. -/
def knowing (l : List String) : DState := { defs := fun n => if n ∈ l then some {} else none }

theorem plain_prints {p : PParams} (hf : p.form = .full) {e : Ex} (he : everyPart PlainPart e) {text : String}
    (ht : plainText p.context p.path e = text.toList) : Prints prec fl p e text := by
  have := C83_fullform prec fl p hf e he
  rw [ht, String.ofList_toList] at this
  exact this

/-- The hypotheses of `C83_readback` are met by `f[x, -3, 2/3, "a b", g[h][]]` in the usual setting; the text is the expected one. -/
example : Prints prec fl (usual .full) (.expr [.sym "Global`f", .sym "Global`x", .int (-3), .rat 2 3, .str "a b", .expr [.expr [.sym "P`g", .sym "System`Plus"]]])
    "f[x, -3, Rational[2, 3], \"a b\", P`g[Plus][]]" ∧
    everyPart (ReadablePart "Global`" ["System`", "Global`"]) (.expr [.sym "Global`f", .sym "Global`x", .int (-3), .rat 2 3, .str "a b", .expr [.expr [.sym "P`g", .sym "System`Plus"]]]) ∧
    allSyms (comesBack "Global`" ["System`", "Global`"] (knowing ["System`Plus", "System`Rational"])) (.expr [.sym "Global`f", .sym "Global`x", .int (-3), .rat 2 3, .str "a b", .expr [.expr [.sym "P`g", .sym "System`Plus"]]]) ∧
    meantBy "Global`" ["System`", "Global`"] (knowing ["System`Plus", "System`Rational"]) "Rational" = "System`Rational" := by
  refine ⟨?_, ?_, ?_, by decide +kernel⟩
  · apply plain_prints prec fl rfl
    · simp only [everyPart, everyPartL, PlainPart]; decide +kernel
    · decide +kernel
  · simp only [everyPart, everyPartL, ReadablePart, and_true, true_and]
    refine ⟨by decide +kernel, ⟨⟨'f', [], by decide +kernel, by decide +kernel, by decide +kernel⟩, by decide +kernel⟩, ⟨⟨'x', [], by decide +kernel, by decide +kernel, by decide +kernel⟩, by decide +kernel⟩,
      by decide +kernel, by decide +kernel, by decide +kernel, ⟨⟨'P', "`g".toList, by decide +kernel, by decide +kernel, by decide +kernel⟩, by decide +kernel⟩, ⟨'P', "lus".toList, by decide +kernel, by decide +kernel, by decide +kernel⟩, by decide +kernel⟩
  · simp only [allSyms, allSymsL, and_true, comesBack]
    decide +kernel

/-- C83 disagreement: a symbol hidden by another one is printed without its context, and read back as the other: ``Global`Plus`` is printed `Plus`. -/
theorem C83_hidden : Prints prec fl (usual .full) (.sym "Global`Plus") "Plus" ∧ Prints prec fl (usual .full) (.sym "System`Plus") "Plus" ∧
    ¬ comesBack "Global`" ["System`", "Global`"] (knowing ["System`Plus", "Global`Plus"]) "Global`Plus" := by
  refine ⟨plain_prints prec fl rfl (by simp only [everyPart, PlainPart]; decide) (by decide +kernel),
    plain_prints prec fl rfl (by simp only [everyPart, PlainPart]; decide) (by decide +kernel), ?_⟩
  unfold comesBack
  decide +kernel

/-- C83 disagreement: a symbol in a context inside the current one is printed as if it were in a context of its own, and never comes back. -/
theorem C83_nested_context (context : String) (path : List String) (hc : ContextName context) (st : DState) (s : String) (hs : '`' ∈ s.toList) :
    (∀ p : PParams, p.context = context → p.path = path → Prints prec fl p (.sym (context ++ s)) s) ∧ ¬ comesBack context path st (context ++ s) := by
  have hne : context ++ s ≠ "" := by
    intro h
    have := congrArg String.toList h
    rw [String.toList_append] at this
    have h2 : s.toList = [] := (List.append_eq_nil_iff.1 this).2
    rw [h2] at hs
    simp at hs
  have hsh : shown context path (context ++ s) = s := by
    unfold shown
    rw [List.find?_cons]
    have : context.toList.isPrefixOf (context ++ s).toList = true := by simp
    rw [this]
    simp [String.ofList_toList]
  refine ⟨?_, ?_⟩
  · rintro p rfl rfl
    refine ⟨1, ?_⟩
    intro n hn
    obtain ⟨n, rfl⟩ : ∃ m, n = m + 1 := ⟨n - 1, by omega⟩
    rw [sf_sym, symForm_shown p _ hne, hsh]
  · unfold comesBack
    rw [hsh, if_pos hs]
    intro h
    obtain ⟨l, hl⟩ := hc
    have := congrArg (fun x => x.toList.length) h
    simp only [String.toList_append, hl, List.length_append, List.length_cons, List.length_nil] at this
    omega

/-- C83 disagreement: strings are not escaped, so that a call with one string and a call with two strings have the same text. -/
theorem C83_unescaped : Prints prec fl (usual .full) (.expr [.sym "Global`f", .str "a\", \"b"]) "f[\"a\", \"b\"]" ∧
    Prints prec fl (usual .full) (.expr [.sym "Global`f", .str "a", .str "b"]) "f[\"a\", \"b\"]" := by
  constructor <;> exact plain_prints prec fl rfl (by simp only [everyPart, everyPartL, PlainPart]; decide +kernel) (by decide +kernel)

/-- C83 disagreement: a negative number as a head is printed without parentheses: `(-5)[x]` is printed like `-(5[x])`. -/
theorem C83_negative_head : Prints prec fl (usual .full) (.expr [.int (-5), .sym "Global`x"]) "-5[x]" ∧
    ReadsAs "-5[x]" (.neg (.call (.tok (.int 5)) [.tok (.ident "x")])) := by
  constructor
  · exact plain_prints prec fl rfl (by simp only [everyPart, everyPartL, PlainPart]; decide +kernel) (by decide +kernel)
  · have h5 := (nat_reads 5).1
    have hx := name_reads (s := "x") ⟨'x', [], by decide, by decide, by decide⟩
    have h := call_reads h5 (.cons (hx.arg ⟨'x', [], by decide, by decide⟩) .nil)
    obtain ⟨n, hn⟩ := h [] (by intro c l e; simp at e) 1 _ (readTail_stop (Or.inl rfl) _ 0)
    refine ⟨n + 1, ?_⟩
    have e : "-5[x]".toList = '-' :: (callText [(Nat.repr 5).toList, "x".toList] ++ []) := by decide +kernel
    rw [e, readExpr_neg, hn]
    rfl

/-- C83 disagreement: a format applied to one argument leaves no trace in the text, even inside an expression: it only switches the format. -/
theorem C83_format_vanishes (p : PParams) (x : Ex) (text : String) (h : Prints prec fl { p with form := .full } x text) :
    Prints prec fl p (.expr [.sym "System`FullForm", x]) text := by
  obtain ⟨N, hN⟩ := h
  refine ⟨N + 2, ?_⟩
  intro n hn
  obtain ⟨n, rfl⟩ : ∃ m, n = m + 2 := ⟨n - 2, by omega⟩
  have h1 : special prec fl (n + 1) p (.sym "System`FullForm") [x] = .ok none := by
    have a : infixOf "System`FullForm" = none := by decide +kernel
    have b : blankRepr "System`FullForm" = none := by decide +kernel
    unfold special
    simp only [a, b]
    split
    · rfl
    · repeat rw [if_neg (by decide +kernel)]
  have h2 : formOfCall (.sym "System`FullForm") [x] = some (some .full, x) := by
    have : formOf "System`FullForm" = some (some .full) := by decide +kernel
    simp only [formOfCall, this, Option.map_some]
  rw [sf, h1]
  simp only [Res.bind, h2]
  exact hN _ (by omega)

end

end Expreduce
