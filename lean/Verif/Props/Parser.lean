import Verif.Spec.Parser
import Verif.Proofs.Arith

/-! Property C47: from parse trees to expressions. -/

namespace Expreduce
open Ex

/-! ## Parentheses -/

/-- Every placeholder stands at the head of an expression with one argument. -/
inductive WfP : Ex → Prop
  | sym (s : String) : s ≠ "Internal`Parens" → WfP (.sym s)
  | str (s : String) : WfP (.str s)
  | int (n : Int) : WfP (.int n)
  | rat (n d : Int) : WfP (.rat n d)
  | flt (v : Rat) : WfP (.flt v)
  | cplx (a b : Ex) : WfP (.cplx a b)
  | paren (x : Ex) : WfP x → WfP (.expr [.sym "Internal`Parens", x])
  | expr (ps : List Ex) : ps ≠ [] → (∀ p ∈ ps, WfP p) → WfP (.expr ps)

theorem sys_ne (h : String) : "System`" ++ h ≠ "Internal`Parens" := by
  intro e
  have := congrArg String.toList e
  simp [String.toList_append] at this

theorem WfP.S (h : String) : WfP (S h) := .sym _ (sys_ne h)

mutual
/-- No expression without parts. -/
def noEmpty : Ex → Prop
  | .expr [] => False
  | .expr (p :: ps) => noEmpty p ∧ noEmptyL ps
  | _ => True
/-- The same for a list. -/
def noEmptyL : List Ex → Prop
  | [] => True
  | p :: ps => noEmpty p ∧ noEmptyL ps
end

theorem noEmptyL_mem {ps : List Ex} (h : noEmptyL ps) : ∀ p ∈ ps, noEmpty p := by
  induction ps with
  | nil => simp
  | cons a as ih =>
    intro p hp
    rcases List.mem_cons.1 hp with rfl | hp
    · exact h.1
    · exact ih h.2 p hp

theorem allSymsL_mem {P : String → Prop} {ps : List Ex} (h : allSymsL P ps) : ∀ p ∈ ps, allSyms P p := by
  induction ps with
  | nil => simp
  | cons a as ih =>
    intro p hp
    rcases List.mem_cons.1 hp with rfl | hp
    · exact h.1
    · exact ih h.2 p hp

theorem wfp_of_allSyms : ∀ e : Ex, noEmpty e → allSyms (· ≠ "Internal`Parens") e → WfP e := by
  intro e
  induction e using Ex.ind with
  | hsym s => intro _ h; exact .sym s h
  | hstr s => intros; exact .str s
  | hint n => intros; exact .int n
  | hrat n d => intros; exact .rat n d
  | hflt v => intros; exact .flt v
  | hcplx a b => intros; exact .cplx a b
  | hexpr ps ih =>
    intro he hs
    match ps with
    | [] => exact absurd he (by simp [noEmpty])
    | p :: ps =>
      refine .expr _ (by simp) ?_
      intro q hq
      have hs' : allSymsL (· ≠ "Internal`Parens") (p :: ps) := hs
      exact ih q hq (by
        rcases List.mem_cons.1 hq with rfl | hq
        · exact he.1
        · exact noEmptyL_mem he.2 q hq) (allSymsL_mem hs' q hq)

theorem noEmpty_patternOf (d : List Char) (bt : String) (l : List (List Char)) : noEmpty (patternOf d bt l) := by
  unfold patternOf
  split
  · simp [noEmpty, noEmptyL, S]
  · split
    · split
      · simp [noEmpty, noEmptyL, S]
      · split <;> simp [noEmpty, noEmptyL, S]
    · split
      · simp [noEmpty, noEmptyL, S]
      · split <;> simp [noEmpty, noEmptyL, S]
  · simp [noEmpty, noEmptyL, S]

theorem wfp_token {t : Token} (h : NoParensName t) : WfP (tokenConv t) := by
  refine wfp_of_allSyms _ ?_ h
  cases t with
  | pat s => exact noEmpty_patternOf _ _ _
  | slot n => simp [tokenConv, noEmpty, noEmptyL, S]
  | _ => simp [tokenConv, noEmpty]

theorem WfP.parts {ps : List Ex} (h : WfP (.expr ps)) : (∃ x, ps = [.sym "Internal`Parens", x] ∧ WfP x) ∨ ps ≠ [] ∧ ∀ p ∈ ps, WfP p := by
  cases h with
  | paren x hx => exact Or.inl ⟨x, rfl, hx⟩
  | expr _ hn hp => exact Or.inr ⟨hn, hp⟩

theorem WfP.app (h : String) (xs : List Ex) (hx : ∀ x ∈ xs, WfP x) : WfP (.expr (Ex.S h :: xs)) :=
  .expr _ (by simp) (by
    intro p hp
    rcases List.mem_cons.1 hp with rfl | hp
    · exact WfP.S h
    · exact hx p hp)

theorem interleave_mem {op : Ex} : ∀ {xs : List Ex} {p : Ex}, p ∈ interleave op xs → p = op ∨ p ∈ xs
  | [], p, h => by simp [interleave] at h
  | [a], p, h => by simp [interleave] at h; exact Or.inr (by simp [h])
  | a :: b :: r, p, h => by
    simp only [interleave, List.mem_cons] at h
    rcases h with rfl | rfl | h
    · exact Or.inr (by simp)
    · exact Or.inl rfl
    · rcases interleave_mem h with h | h
      · exact Or.inl h
      · exact Or.inr (List.mem_cons_of_mem _ h)

theorem wfp_fullyAssoc {op : String} (hop : op ≠ "Internal`Parens") {x y : Ex} (hx : WfP x) (hy : WfP y) : WfP (fullyAssoc op x y) := by
  have plain : WfP (.expr [.sym op, x, y]) := .expr _ (by simp) (by
    intro p hp
    simp only [List.mem_cons, List.not_mem_nil, or_false] at hp
    rcases hp with rfl | rfl | rfl
    · exact .sym _ hop
    · exact hx
    · exact hy)
  unfold fullyAssoc
  split
  · next h args =>
    rcases hx.parts with ⟨z, he, -⟩ | ⟨-, hp⟩
    · simp only [List.cons.injEq, Ex.sym.injEq] at he
      have h1 : h = "Internal`Parens" := he.1
      subst h1
      have : isComparison "Internal`Parens" = false := by decide
      have hne : ¬ ("Internal`Parens" = op) := fun e => hop e.symm
      simp only [this, hne, if_false]
      simpa using plain
    · have hargs : ∀ p ∈ args, WfP p := fun p hp' => hp p (List.mem_cons_of_mem _ hp')
      have hhd : WfP (.sym h) := hp _ List.mem_cons_self
      have app : ∀ (a b : List Ex), (∀ p ∈ a, WfP p) → (∀ p ∈ b, WfP p) → a ≠ [] → WfP (.expr (a ++ b)) := by
        intro a b ha hb hne
        refine .expr _ (by simp [hne]) ?_
        intro p hp
        rcases List.mem_append.1 hp with hp | hp
        · exact ha p hp
        · exact hb p hp
      have tail : ∀ p ∈ [Ex.sym op, y], WfP p := by
        intro p hp
        simp only [List.mem_cons, List.not_mem_nil, or_false] at hp
        rcases hp with rfl | rfl
        · exact .sym _ hop
        · exact hy
      have tail1 : ∀ p ∈ [y], WfP p := by simpa using hy
      have hall : ∀ p ∈ Ex.sym h :: args, WfP p := fun p h' => hp p h'
      split
      · split
        · exact app (.sym h :: args) _ hall tail (by simp)
        · refine app (Ex.S "Inequality" :: interleave (.sym h) args) _ ?_ tail (by simp)
          intro p hp'
          rcases List.mem_cons.1 hp' with rfl | hp'
          · exact WfP.S _
          · rcases interleave_mem hp' with rfl | hm
            · exact hhd
            · exact hargs p hm
      · split
        · exact app (.sym h :: args) _ hall tail1 (by simp)
        · exact plain
  · exact plain

theorem wfp_neg {x : Ex} (hx : WfP x) : WfP (negConv x) := by
  unfold negConv
  split
  · exact .int _
  · exact .flt _
  · exact WfP.app "Times" _ (by
      intro p hp
      simp only [List.mem_cons, List.not_mem_nil, or_false] at hp
      rcases hp with rfl | rfl
      · exact hx
      · exact .int _)

theorem wfp_cons {x : Ex} {xs : List Ex} (hx : WfP x) (hxs : ∀ p ∈ xs, WfP p) : WfP (.expr (x :: xs)) :=
  .expr _ (by simp) (by
    intro p hp
    rcases List.mem_cons.1 hp with rfl | hp
    · exact hx
    · exact hxs p hp)

theorem mem2 {P : Ex → Prop} {x y : Ex} (hx : P x) (hy : P y) : ∀ p ∈ [x, y], P p := by
  intro p hp
  simp only [List.mem_cons, List.not_mem_nil, or_false] at hp
  rcases hp with rfl | rfl
  · exact hx
  · exact hy

mutual
theorem conv_wf : ∀ t : PT, properTree NoParensName t → ∃ e, conv t = some e ∧ WfP e
  | .tok t, h => ⟨_, rfl, wfp_token h⟩
  | .bin hd a b, h => by
    simp only [properTree] at h
    obtain ⟨x, hx, wx⟩ := conv_wf a h.1
    obtain ⟨y, hy, wy⟩ := conv_wf b h.2
    exact ⟨.expr [S hd, x, y], by simp [conv, hx, hy], WfP.app hd _ (mem2 wx wy)⟩
  | .assoc hd a b, h => by
    simp only [properTree] at h
    obtain ⟨x, hx, wx⟩ := conv_wf a h.1
    obtain ⟨y, hy, wy⟩ := conv_wf b h.2
    exact ⟨_, by simp [conv, hx, hy], wfp_fullyAssoc (sys_ne hd) wx wy⟩
  | .un hd a, h => by
    simp only [properTree] at h
    obtain ⟨x, hx, wx⟩ := conv_wf a h
    exact ⟨.expr [S hd, x], by simp [conv, hx], WfP.app hd _ (by simpa using wx)⟩
  | .semi a, h => by
    simp only [properTree] at h
    obtain ⟨x, hx, wx⟩ := conv_wf a h
    exact ⟨fullyAssoc "System`CompoundExpression" x (S "Null"), by simp [conv, hx], wfp_fullyAssoc (by decide) wx (WfP.S _)⟩
  | .colon a b, h => by
    simp only [properTree] at h
    obtain ⟨x, hx, wx⟩ := conv_wf a h.1
    obtain ⟨y, hy, wy⟩ := conv_wf b h.2
    exact ⟨colonConv x y, by simp [conv, hx, hy], WfP.app _ _ (mem2 wx wy)⟩
  | .msg t tag, h => by
    simp only [properTree] at h
    obtain ⟨ht, s, rfl⟩ := h
    exact ⟨_, rfl, WfP.app "MessageName" _ (mem2 (wfp_token ht) (.str _))⟩
  | .call f l, h => by
    simp only [properTree] at h
    obtain ⟨x, hx, wx⟩ := conv_wf f h.1
    obtain ⟨xs, hxs, wxs⟩ := convL_wf l h.2
    exact ⟨.expr (x :: xs), by simp [conv, hx, hxs], wfp_cons wx wxs⟩
  | .list l, h => by
    simp only [properTree] at h
    obtain ⟨xs, hxs, wxs⟩ := convL_wf l h
    exact ⟨.expr (S "List" :: xs), by simp [conv, hxs], WfP.app _ _ wxs⟩
  | .paren a, h => by
    simp only [properTree] at h
    obtain ⟨x, hx, wx⟩ := conv_wf a h
    exact ⟨.expr [.sym parensName, x], by simp only [conv, hx, Option.map_some], WfP.paren x wx⟩
  | .part a l, h => by
    simp only [properTree] at h
    obtain ⟨x, hx, wx⟩ := conv_wf a h.1
    obtain ⟨xs, hxs, wxs⟩ := convL_wf l h.2
    exact ⟨.expr (S "Part" :: x :: xs), by simp [conv, hx, hxs], WfP.app _ _ (by
      intro p hp
      rcases List.mem_cons.1 hp with rfl | hp
      · exact wx
      · exact wxs p hp)⟩
  | .neg a, h => by
    simp only [properTree] at h
    obtain ⟨x, hx, wx⟩ := conv_wf a h
    exact ⟨negConv x, by simp only [conv, hx, Option.map_some], wfp_neg wx⟩
  | .div a b, h => by
    simp only [properTree] at h
    obtain ⟨x, hx, wx⟩ := conv_wf a h.1
    obtain ⟨y, hy, wy⟩ := conv_wf b h.2
    exact ⟨.expr [S "Times", x, .expr [S "Power", y, .int (-1)]], by simp [conv, hx, hy], WfP.app _ _ (mem2 wx (WfP.app _ _ (mem2 wy (.int _))))⟩
  | .sub a b, h => by
    simp only [properTree] at h
    obtain ⟨x, hx, wx⟩ := conv_wf a h.1
    obtain ⟨y, hy, wy⟩ := conv_wf b h.2
    exact ⟨_, by simp only [conv, hx, hy, Option.bind_some, Option.map_some]; rfl, wfp_fullyAssoc (by decide) wx (WfP.app "Times" _ (mem2 wy (.int _)))⟩
  | .post a f, h => by
    simp only [properTree] at h
    obtain ⟨x, hx, wx⟩ := conv_wf a h.1
    obtain ⟨y, hy, wy⟩ := conv_wf f h.2
    exact ⟨.expr [y, x], by simp [conv, hx, hy], wfp_cons wy (by simpa using wx)⟩
  | .pre f a, h => by
    simp only [properTree] at h
    obtain ⟨x, hx, wx⟩ := conv_wf f h.1
    obtain ⟨y, hy, wy⟩ := conv_wf a h.2
    exact ⟨.expr [x, y], by simp [conv, hx, hy], wfp_cons wx (by simpa using wy)⟩
  | .apply1 f a, h => by
    simp only [properTree] at h
    obtain ⟨x, hx, wx⟩ := conv_wf f h.1
    obtain ⟨y, hy, wy⟩ := conv_wf a h.2
    refine ⟨.expr [S "Apply", x, y, .expr [S "List", .int 1]], by simp [conv, hx, hy], WfP.app _ _ ?_⟩
    intro p hp
    simp only [List.mem_cons, List.not_mem_nil, or_false] at hp
    rcases hp with rfl | rfl | rfl
    · exact wx
    · exact wy
    · exact WfP.app _ _ (by intro p hp; simp only [List.mem_singleton] at hp; subst hp; exact .int _)
  | .tagSet f (.bin hd a b), h => by
    simp only [properTree] at h
    obtain ⟨x, hx, wx⟩ := conv_wf a h.2.2.1
    obtain ⟨y, hy, wy⟩ := conv_wf b h.2.2.2
    obtain ⟨g, hg, wg⟩ := conv_wf f h.1
    refine ⟨_, by simp only [conv, hx, hy, hg, Option.bind_some, Option.map_some, tagSetConv]; rfl, WfP.app _ _ ?_⟩
    intro p hp
    simp only [List.mem_cons, List.not_mem_nil, or_false] at hp
    rcases hp with rfl | rfl | rfl
    · exact wg
    · exact wx
    · exact wy
  | .deriv f, h => by
    simp only [properTree] at h
    obtain ⟨x, hx, wx⟩ := conv_wf f h
    refine ⟨.expr [.expr [S "Derivative", .int 1], x], by simp [conv, hx], wfp_cons (WfP.app _ _ ?_) (by simpa using wx)⟩
    intro p hp
    simp only [List.mem_singleton] at hp
    subst hp
    exact .int _
  | .sqrt a, h => by
    simp only [properTree] at h
    obtain ⟨x, hx, wx⟩ := conv_wf a h
    exact ⟨.expr [S "Sqrt", x], by simp [conv, hx], WfP.app _ _ (by simpa using wx)⟩
  | .info tag, h => by
    simp only [properTree] at h
    exact ⟨_, rfl, WfP.app _ _ (by simpa using wfp_token h)⟩
  | .infoShort tag, h => by
    simp only [properTree] at h
    exact ⟨_, rfl, WfP.app _ _ (mem2 (wfp_token h) (WfP.app _ _ (mem2 (WfP.S _) (WfP.S _))))⟩
  | .out n, _ => ⟨_, rfl, WfP.app _ _ (by
      intro p hp
      simp only [List.mem_singleton] at hp
      subst hp
      exact WfP.app _ _ (mem2 (WfP.S _) (.int _)))⟩
  | .tagSet _ (.tok _), h | .tagSet _ (.assoc _ _ _), h | .tagSet _ (.un _ _), h | .tagSet _ (.semi _), h | .tagSet _ (.colon _ _), h
  | .tagSet _ (.msg _ _), h | .tagSet _ (.call _ _), h | .tagSet _ (.list _), h | .tagSet _ (.paren _), h | .tagSet _ (.part _ _), h
  | .tagSet _ (.neg _), h | .tagSet _ (.div _ _), h | .tagSet _ (.sub _ _), h | .tagSet _ (.post _ _), h | .tagSet _ (.pre _ _), h
  | .tagSet _ (.apply1 _ _), h | .tagSet _ (.tagSet _ _), h | .tagSet _ (.deriv _), h | .tagSet _ (.sqrt _), h | .tagSet _ (.info _), h
  | .tagSet _ (.infoShort _), h | .tagSet _ (.out _), h => by exact absurd h (by simp [properTree])
theorem convL_wf : ∀ ts : List PT, properTreeL NoParensName ts → ∃ es, convL ts = some es ∧ ∀ e ∈ es, WfP e
  | [], _ => ⟨[], rfl, by simp⟩
  | t :: ts, h => by
    simp only [properTreeL] at h
    obtain ⟨x, hx, wx⟩ := conv_wf t h.1
    obtain ⟨xs, hxs, wxs⟩ := convL_wf ts h.2
    refine ⟨x :: xs, by simp [convL, hx, hxs], ?_⟩
    intro p hp
    rcases List.mem_cons.1 hp with rfl | hp
    · exact wx
    · exact wxs p hp
end

/-! ### Removing the placeholders -/

theorem strip_cons {h : Ex} (hh : h ≠ .sym "Internal`Parens") (ps : List Ex) :
    strip (.expr (h :: ps)) = (strip h).bind (fun x => (stripL ps).map (fun xs => .expr (x :: xs))) := by
  have hp : ¬ (h = .sym parensName) := hh
  cases ps with
  | nil =>
    simp only [strip, stripParts, hp, if_false, stripL, Option.map_some]
    cases strip h <;> rfl
  | cons a r =>
    simp only [strip, stripParts, hp, if_false, stripL]
    cases strip h with
    | none => rfl
    | some x =>
      simp only [Option.bind_some]
      cases strip a with
      | none => rfl
      | some y =>
        simp only [Option.bind_some]
        cases stripL r <;> rfl

theorem strip_sym {s : String} (hs : s ≠ "Internal`Parens") (ps : List Ex) :
    strip (.expr (.sym s :: ps)) = (stripL ps).map (fun xs => .expr (.sym s :: xs)) := by
  rw [strip_cons (by simpa using hs)]
  simp [strip]

theorem strip_S (n : String) (ps : List Ex) : strip (.expr (S n :: ps)) = (stripL ps).map (fun xs => .expr (S n :: xs)) :=
  strip_sym (sys_ne n) ps

theorem strip_paren (x : Ex) : strip (.expr [.sym "Internal`Parens", x]) = strip x := by
  simp [strip, stripParts, parensName]

theorem stripL_append : ∀ (a b : List Ex), stripL (a ++ b) = (stripL a).bind (fun xs => (stripL b).map (xs ++ ·))
  | [], b => by simp [stripL]
  | p :: ps, b => by
    simp only [List.cons_append, stripL]
    rw [stripL_append ps b]
    cases strip p with
    | none => rfl
    | some x =>
      simp only [Option.bind_some]
      cases stripL ps with
      | none => rfl
      | some xs =>
        simp only [Option.bind_some, Option.map_some]
        cases stripL b <;> rfl

theorem allSymsL_of_mem {P : String → Prop} : ∀ {ps : List Ex}, (∀ p ∈ ps, allSyms P p) → allSymsL P ps
  | [], _ => trivial
  | a :: as, h => ⟨h a List.mem_cons_self, allSymsL_of_mem (fun p hp => h p (List.mem_cons_of_mem _ hp))⟩

theorem stripL_wf {ps : List Ex} (h : ∀ p ∈ ps, ∃ e, strip p = some e ∧ allSyms (· ≠ "Internal`Parens") e) :
    ∃ es, stripL ps = some es ∧ allSymsL (· ≠ "Internal`Parens") es := by
  induction ps with
  | nil => exact ⟨[], rfl, trivial⟩
  | cons a as ih =>
    obtain ⟨e, he, we⟩ := h a List.mem_cons_self
    obtain ⟨es, hes, wes⟩ := ih (fun p hp => h p (List.mem_cons_of_mem _ hp))
    exact ⟨e :: es, by simp [stripL, he, hes], we, wes⟩

theorem strip_wf {x : Ex} (w : WfP x) : ∃ e, strip x = some e ∧ allSyms (· ≠ "Internal`Parens") e := by
  induction w with
  | sym s h => exact ⟨.sym s, rfl, h⟩
  | str s => exact ⟨.str s, rfl, trivial⟩
  | int n => exact ⟨.int n, rfl, trivial⟩
  | rat n d => exact ⟨.rat n d, rfl, trivial⟩
  | flt v => exact ⟨.flt v, rfl, trivial⟩
  | cplx a b => exact ⟨.cplx a b, rfl, trivial⟩
  | paren x _ ih => rw [strip_paren]; exact ih
  | expr ps hn _ ih =>
    match ps, hn, ih with
    | p :: ps, _, ih =>
      obtain ⟨e, he, we⟩ := ih p List.mem_cons_self
      obtain ⟨es, hes, wes⟩ := stripL_wf (fun q hq => ih q (List.mem_cons_of_mem _ hq))
      have hp : p ≠ .sym "Internal`Parens" := by
        rintro rfl
        simp only [strip, Option.some.injEq] at he
        subst he
        exact we rfl
      exact ⟨.expr (e :: es), by rw [strip_cons hp, he, hes]; rfl, we, wes⟩

/-- **Parsing succeeds and leaves no trace of the parentheses.** Whatever the parse tree, if the text does not itself mention the name of the internal placeholder, the result
exists and contains the placeholder nowhere. -/
theorem C47_no_parens {t : PT} (h : properTree NoParensName t) : ∃ e, parsed t = some e ∧ allSyms (· ≠ "Internal`Parens") e := by
  obtain ⟨x, hx, wx⟩ := conv_wf t h
  obtain ⟨e, he, we⟩ := strip_wf wx
  exact ⟨e, by rw [parsed, hx]; exact he, we⟩

/-- The hypotheses are met, with nested parentheses: `((a + (b))) c`, and the result is `Times[Plus[a, b], c]`. -/
example : properTree NoParensName (.assoc "Times" (.paren (.paren (.assoc "Plus" (.tok (.ident "a")) (.paren (.tok (.ident "b")))))) (.tok (.ident "c"))) ∧
    parsed (.assoc "Times" (.paren (.paren (.assoc "Plus" (.tok (.ident "a")) (.paren (.tok (.ident "b")))))) (.tok (.ident "c"))) =
      some (.expr [S "Times", .expr [S "Plus", .sym "a", .sym "b"], .sym "c"]) := by
  constructor
  · simp [properTree, NoParensName, tokenConv, redefined, allSyms]
  · decide +kernel

/-- Without the hypothesis parsing can end the interpreter: `Internal`Parens[]`. -/
theorem C47_parens_crash : parsed (.call (.tok (.ident "Internal`Parens")) []) = none := by decide +kernel

/-! ## Chains of an operator -/

theorem strip_head {x e : Ex} {s : String} {l : List Ex} (hs : s ≠ "Internal`Parens") (h : strip x = some e) (hx : x = .expr (.sym s :: l)) :
    ∃ l', stripL l = some l' ∧ e = .expr (.sym s :: l') := by
  subst hx
  rw [strip_sym hs] at h
  cases hl : stripL l with
  | none => rw [hl] at h; simp at h
  | some l' =>
    rw [hl] at h
    simp only [Option.map_some, Option.some.injEq] at h
    exact ⟨l', rfl, h.symm⟩

/-- Where the left operand is not already an application of an operator of the same kind. -/
def Fresh (op : String) (x : Ex) : Prop :=
  ∀ h args, x = .expr (.sym h :: args) → h ≠ op ∧ (isComparison op = true → isComparison h = false ∧ h ≠ "System`Inequality")

theorem fullyAssoc_fresh {op : String} {x y : Ex} (h : Fresh op x) : fullyAssoc op x y = .expr [.sym op, x, y] := by
  unfold fullyAssoc
  split
  · next hd args =>
    obtain ⟨h1, h2⟩ := h hd args rfl
    cases hc : isComparison op with
    | true =>
      obtain ⟨h3, h4⟩ := h2 hc
      simp [h3, h4, h1]
    | false => simp [h1]
  · rfl

theorem fullyAssoc_same (op : String) (args : List Ex) (y : Ex) : fullyAssoc op (.expr (.sym op :: args)) y = .expr (.sym op :: args ++ [y]) := by
  simp [fullyAssoc]

/-- What is written at the left end of a chain: something in parentheses, or something that is not parsed to an application of a name in `heads`. -/
def LeftEnd (heads : List String) (t : PT) (e : Ex) : Prop := (∃ s, t = .paren s) ∨ ∀ h ∈ heads, ∀ l, e ≠ .expr (S h :: l)

theorem leftEnd_conv {heads : List String} {t : PT} {e x : Ex} (hl : LeftEnd heads t e) (hx : conv t = some x) (he : strip x = some e) :
    ∀ h ∈ heads, ∀ l, x ≠ .expr (S h :: l) := by
  intro h hh l hxl
  rcases hl with ⟨s, rfl⟩ | hl
  · cases hs : conv s with
    | none => simp [conv, hs] at hx
    | some y =>
      simp only [conv, hs, Option.map_some, Option.some.injEq] at hx
      rw [hxl] at hx
      simp only [S, Ex.expr.injEq, List.cons.injEq, Ex.sym.injEq] at hx
      exact sys_ne h hx.1.symm
  · obtain ⟨l', -, e'⟩ := strip_head (sys_ne h) he hxl
    exact hl h hh l' e'

theorem parsed_conv {t : PT} {e : Ex} (h : parsed t = some e) : ∃ x, conv t = some x ∧ strip x = some e := by
  unfold parsed at h
  cases hx : conv t with
  | none => rw [hx] at h; simp at h
  | some x => rw [hx] at h; exact ⟨x, rfl, h⟩

theorem stripL_two {x y a b : Ex} (hx : strip x = some a) (hy : strip y = some b) : stripL [x, y] = some [a, b] := by simp [stripL, hx, hy]

theorem sys_inj {a b : String} (h : "System`" ++ a = "System`" ++ b) : a = b := by
  have := congrArg String.toList h
  simp only [String.toList_append] at this
  exact String.toList_inj.1 (List.append_cancel_left this)

theorem isComparison_sys (op : String) : isComparison ("System`" ++ op) = true ↔ op ∈ comparisonOps := by
  have key : ∀ b : String, ("System`" ++ op = "System`" ++ b) ↔ op = b := fun b => ⟨sys_inj, fun h => h ▸ rfl⟩
  have h1 : ("System`Equal" : String) = "System`" ++ "Equal" := by decide
  have h2 : ("System`Unequal" : String) = "System`" ++ "Unequal" := by decide
  have h3 : ("System`Less" : String) = "System`" ++ "Less" := by decide
  have h4 : ("System`LessEqual" : String) = "System`" ++ "LessEqual" := by decide
  have h5 : ("System`Greater" : String) = "System`" ++ "Greater" := by decide
  have h6 : ("System`GreaterEqual" : String) = "System`" ++ "GreaterEqual" := by decide
  unfold isComparison
  rw [h1, h2, h3, h4, h5, h6]
  simp only [key, comparisonOps, Bool.or_eq_true, decide_eq_true_eq, List.mem_cons, List.not_mem_nil, or_false]
  tauto

theorem conv_assoc {h : String} {a b : PT} {x y : Ex} (hx : conv a = some x) (hy : conv b = some y) :
    conv (.assoc h a b) = some (fullyAssoc ("System`" ++ h) x y) := by simp [conv, hx, hy]

/-- The rest of a chain, with the left part already flat. -/
theorem flat_rest (op : String) : ∀ (r : List (PT × Ex)) (t : PT) (xs es : List Ex), conv t = some (.expr (S op :: xs)) → stripL xs = some es →
    (∀ p ∈ r, parsed p.1 = some p.2) → parsed (chainTree t (r.map (fun p => (op, p.1)))) = some (.expr (S op :: es ++ r.map (·.2)))
  | [], t, xs, es, hc, hs, _ => by
    rw [chainTree, List.map_nil, List.foldl_nil, parsed, hc, Option.bind_some, strip_S, hs]
    simp
  | p :: r, t, xs, es, hc, hs, hr => by
    obtain ⟨y, hy, sy⟩ := parsed_conv (hr p List.mem_cons_self)
    have step : conv (.assoc op t p.1) = some (.expr (S op :: (xs ++ [y]))) := by
      rw [conv_assoc hc hy]
      exact congrArg some (fullyAssoc_same _ _ _)
    have hs' : stripL (xs ++ [y]) = some (es ++ [p.2]) := by rw [stripL_append, hs]; simp [stripL, sy]
    have := flat_rest op r (.assoc op t p.1) (xs ++ [y]) (es ++ [p.2]) step hs' (fun q hq => hr q (List.mem_cons_of_mem _ hq))
    simpa [chainTree] using this

/-- **Associative operators are flat.** `t0 op t1 op t2 ...` is parsed to one application of `op` to all the operands, in order; operands that are applications of `op`
themselves stay as they are if they are in parentheses or not at the left end. -/
theorem C47_flat {op : String} (hop : op ∉ comparisonOps) {t0 : PT} {e0 : Ex} (h0 : parsed t0 = some e0) (hl : LeftEnd [op] t0 e0)
    {r : List (PT × Ex)} (hne : r ≠ []) (hr : ∀ p ∈ r, parsed p.1 = some p.2) :
    parsed (chainTree t0 (r.map (fun p => (op, p.1)))) = some (.expr (S op :: e0 :: r.map (·.2))) := by
  obtain ⟨x0, hx0, sx0⟩ := parsed_conv h0
  match r, hne, hr with
  | p :: r, _, hr =>
    obtain ⟨y, hy, sy⟩ := parsed_conv (hr p List.mem_cons_self)
    have fr : Fresh ("System`" ++ op) x0 := by
      intro h args he
      refine ⟨?_, ?_⟩
      · rintro rfl
        exact leftEnd_conv hl hx0 sx0 op List.mem_cons_self args he
      · intro hc
        exact absurd ((isComparison_sys op).1 hc) hop
    have step : conv (.assoc op t0 p.1) = some (.expr (S op :: [x0, y])) := by rw [conv_assoc hx0 hy, fullyAssoc_fresh fr]; rfl
    have := flat_rest op r (.assoc op t0 p.1) [x0, y] [e0, p.2] step (stripL_two sx0 sy) (fun q hq => hr q (List.mem_cons_of_mem _ hq))
    simpa [chainTree] using this

/-- The hypotheses are met: `(a + b) + c + (d + e)`. -/
example :
    LeftEnd ["Plus"] (.paren (.assoc "Plus" (.tok (.ident "a")) (.tok (.ident "b")))) (.expr [S "Plus", .sym "a", .sym "b"]) ∧
      parsed (.assoc "Plus" (.assoc "Plus" (.paren (.assoc "Plus" (.tok (.ident "a")) (.tok (.ident "b")))) (.tok (.ident "c")))
        (.paren (.assoc "Plus" (.tok (.ident "d")) (.tok (.ident "e"))))) =
        some (.expr [S "Plus", .expr [S "Plus", .sym "a", .sym "b"], .sym "c", .expr [S "Plus", .sym "d", .sym "e"]]) :=
  ⟨Or.inl ⟨_, rfl⟩, by decide +kernel⟩

/-! ### Comparisons -/

/-- The heads that a comparison merges with. -/
def comparisonHeads : List String := "Inequality" :: comparisonOps

theorem interleave_cons (op a : Ex) : ∀ (l : List Ex), interleave op (a :: l) = ineqArgs a (l.map (fun b => (op, b)))
  | [] => rfl
  | b :: r => by
    simp only [interleave, ineqArgs, List.map_cons, List.flatMap_cons]
    rw [interleave_cons op b r]
    rfl

theorem stripL_cons_ok {x : Ex} {xs : List Ex} {e : Ex} {es : List Ex} (hx : strip x = some e) (hxs : stripL xs = some es) : stripL (x :: xs) = some (e :: es) := by
  simp [stripL, hx, hxs]

theorem strip_Sname (n : String) : strip (S n) = some (S n) := rfl

/-- The rest of a mixed chain. -/
theorem mixed_rest : ∀ (r : List (String × PT × Ex)) (t : PT) (xs es : List Ex), conv t = some (.expr (S "Inequality" :: xs)) → stripL xs = some es →
    (∀ p ∈ r, p.1 ∈ comparisonOps ∧ parsed p.2.1 = some p.2.2) →
    parsed (chainTree t (r.map (fun p => (p.1, p.2.1)))) = some (.expr (S "Inequality" :: es ++ r.flatMap (fun p => [S p.1, p.2.2])))
  | [], t, xs, es, hc, hs, _ => by
    rw [chainTree, List.map_nil, List.foldl_nil, parsed, hc, Option.bind_some, strip_S, hs]
    simp
  | p :: r, t, xs, es, hc, hs, hr => by
    obtain ⟨hop, hp⟩ := hr p List.mem_cons_self
    obtain ⟨y, hy, sy⟩ := parsed_conv hp
    have hcmp := (isComparison_sys p.1).2 hop
    have hni : ("System`" ++ p.1) ≠ "System`Inequality" := by
      intro h
      rw [h] at hcmp
      exact absurd hcmp (by decide)
    have step : conv (.assoc p.1 t p.2.1) = some (.expr (S "Inequality" :: (xs ++ [S p.1, y]))) := by
      rw [conv_assoc hc hy]
      have e : (S "Inequality" : Ex) = .sym "System`Inequality" := by decide
      rw [e]
      simp only [fullyAssoc, hcmp, Bool.true_and]
      rw [if_pos (by simp [hni])]
      simp [S]
    have hs' : stripL (xs ++ [S p.1, y]) = some (es ++ [S p.1, p.2.2]) := by
      rw [stripL_append, hs, stripL_two (strip_Sname p.1) sy]
      rfl
    have := mixed_rest r (.assoc p.1 t p.2.1) (xs ++ [S p.1, y]) (es ++ [S p.1, p.2.2]) step hs' (fun q hq => hr q (List.mem_cons_of_mem _ hq))
    simpa [chainTree] using this

theorem stripL_ineqArgs {op : String} {x e : Ex} (hx : strip x = some e) : ∀ {xs es : List Ex}, stripL xs = some es →
    stripL (ineqArgs x (xs.map (fun b => (S op, b)))) = some (ineqArgs e (es.map (fun b => (S op, b))))
  | [], es, h => by
    simp only [stripL, Option.some.injEq] at h
    subst h
    simp [ineqArgs, stripL, hx]
  | a :: as, es, h => by
    simp only [stripL] at h
    cases ha : strip a with
    | none => rw [ha] at h; simp at h
    | some b =>
      rw [ha, Option.bind_some] at h
      cases has : stripL as with
      | none => rw [has] at h; simp at h
      | some bs =>
        rw [has] at h
        simp only [Option.map_some, Option.some.injEq] at h
        subst h
        have ih := stripL_ineqArgs (op := op) ha has
        simp only [List.map_cons, ineqArgs, List.flatMap_cons, List.cons_append, List.nil_append] at ih ⊢
        exact stripL_cons_ok hx (stripL_cons_ok (strip_Sname op) ih)

/-- The rest of a chain of comparisons, with an application of one comparison at the left. -/
theorem same_rest (op : String) (hop : op ∈ comparisonOps) : ∀ (r : List (String × PT × Ex)) (t : PT) (x : Ex) (xs : List Ex) (e : Ex) (es : List Ex),
    conv t = some (.expr (S op :: x :: xs)) → strip x = some e → stripL xs = some es →
    (∀ p ∈ r, p.1 ∈ comparisonOps ∧ parsed p.2.1 = some p.2.2) →
    parsed (chainTree t (r.map (fun p => (p.1, p.2.1)))) =
      some (if ∀ p ∈ r, p.1 = op then .expr (S op :: e :: es ++ r.map (·.2.2))
        else .expr (S "Inequality" :: ineqArgs e (es.map (fun b => (S op, b)) ++ r.map (fun p => (S p.1, p.2.2)))))
  | [], t, x, xs, e, es, hc, hx, hs, _ => by
    rw [chainTree, List.map_nil, List.foldl_nil, parsed, hc, Option.bind_some, strip_S, stripL_cons_ok hx hs]
    simp
  | p :: r, t, x, xs, e, es, hc, hx, hs, hr => by
    obtain ⟨hpo, hp⟩ := hr p List.mem_cons_self
    obtain ⟨y, hy, sy⟩ := parsed_conv hp
    have hcmp := (isComparison_sys p.1).2 hpo
    have hcmp' := (isComparison_sys op).2 hop
    have hr' : ∀ q ∈ r, q.1 ∈ comparisonOps ∧ parsed q.2.1 = some q.2.2 := fun q hq => hr q (List.mem_cons_of_mem _ hq)
    by_cases hsame : p.1 = op
    · have step : conv (.assoc p.1 t p.2.1) = some (.expr (S op :: x :: (xs ++ [y]))) := by
        rw [conv_assoc hc hy, hsame]
        exact congrArg some (fullyAssoc_same _ _ _)
      have hs' : stripL (xs ++ [y]) = some (es ++ [p.2.2]) := by rw [stripL_append, hs]; simp [stripL, sy]
      have := same_rest op hop r (.assoc p.1 t p.2.1) x (xs ++ [y]) e (es ++ [p.2.2]) step hx hs' hr'
      have hfold : chainTree t ((p :: r).map (fun p => (p.1, p.2.1))) = chainTree (.assoc p.1 t p.2.1) (r.map (fun p => (p.1, p.2.1))) := rfl
      have hiff : (∀ q ∈ p :: r, q.1 = op) ↔ ∀ q ∈ r, q.1 = op := by simp only [List.forall_mem_cons, hsame, true_and]
      rw [hfold, this]
      by_cases hall : ∀ q ∈ r, q.1 = op
      · rw [if_pos hall, if_pos (hiff.2 hall)]
        simp
      · rw [if_neg hall, if_neg (fun h => hall (hiff.1 h))]
        simp [hsame]
    · have hne : ¬ (("System`" ++ p.1) = "System`" ++ op) := fun h => hsame (sys_inj h)
      have hni : ¬ (("System`" ++ op) = "System`Inequality") := by
        intro h
        rw [h] at hcmp'
        exact absurd hcmp' (by decide)
      have step : conv (.assoc p.1 t p.2.1) = some (.expr (S "Inequality" :: (ineqArgs x (xs.map (fun b => (S op, b))) ++ [S p.1, y]))) := by
        rw [conv_assoc hc hy]
        have e1 : (S op : Ex) = .sym ("System`" ++ op) := rfl
        simp only [e1, fullyAssoc, hcmp, hcmp', Bool.true_and, Bool.true_or]
        rw [if_pos (by simpa using hne), if_neg hni, interleave_cons]
        rfl
      have hs' : stripL (ineqArgs x (xs.map (fun b => (S op, b))) ++ [S p.1, y]) = some (ineqArgs e (es.map (fun b => (S op, b))) ++ [S p.1, p.2.2]) := by
        rw [stripL_append, stripL_ineqArgs hx hs, stripL_two (strip_Sname p.1) sy]
        rfl
      have := mixed_rest r (.assoc p.1 t p.2.1) _ _ step hs' hr'
      have hfold : chainTree t ((p :: r).map (fun p => (p.1, p.2.1))) = chainTree (.assoc p.1 t p.2.1) (r.map (fun p => (p.1, p.2.1))) := rfl
      rw [hfold, this]
      simp [hsame, ineqArgs, List.flatMap_map]

/-- **Chains of comparisons keep their operands and operators in order.** `t0 op1 t1 op2 t2 ...` is parsed to `op[e0, e1, ...]` if all operators are the same, otherwise to
`Inequality[e0, op1, e1, op2, e2, ...]`. -/
theorem C47_comparison {t0 : PT} {e0 : Ex} (h0 : parsed t0 = some e0) (hl : LeftEnd comparisonHeads t0 e0)
    (op : String) (t1 : PT) (e1 : Ex) (r : List (String × PT × Ex)) (hr : ∀ p ∈ (op, t1, e1) :: r, p.1 ∈ comparisonOps ∧ parsed p.2.1 = some p.2.2) :
    parsed (chainTree t0 (((op, t1, e1) :: r).map (fun p => (p.1, p.2.1)))) =
      some (if ∀ p ∈ r, p.1 = op then .expr (S op :: e0 :: e1 :: r.map (·.2.2))
        else .expr (S "Inequality" :: ineqArgs e0 (((op, t1, e1) :: r).map (fun p => (S p.1, p.2.2))))) := by
  obtain ⟨x0, hx0, sx0⟩ := parsed_conv h0
  obtain ⟨hop, h1⟩ := hr _ List.mem_cons_self
  simp only at hop h1
  obtain ⟨y, hy, sy⟩ := parsed_conv h1
  have lc := leftEnd_conv hl hx0 sx0
  have fr : Fresh ("System`" ++ op) x0 := by
    intro h args he
    have no : ∀ b ∈ comparisonHeads, h ≠ "System`" ++ b := by
      rintro b hb rfl
      exact lc b hb args he
    refine ⟨no op (List.mem_cons_of_mem _ hop), fun _ => ⟨?_, no "Inequality" List.mem_cons_self⟩⟩
    cases hc : isComparison h with
    | false => rfl
    | true =>
      exfalso
      unfold isComparison at hc
      simp only [Bool.or_eq_true, decide_eq_true_eq] at hc
      rcases hc with ((((h' | h') | h') | h') | h') | h'
      · exact no "Equal" (by decide) (h'.trans (by decide))
      · exact no "Unequal" (by decide) (h'.trans (by decide))
      · exact no "Less" (by decide) (h'.trans (by decide))
      · exact no "LessEqual" (by decide) (h'.trans (by decide))
      · exact no "Greater" (by decide) (h'.trans (by decide))
      · exact no "GreaterEqual" (by decide) (h'.trans (by decide))
  have step : conv (.assoc op t0 t1) = some (.expr (S op :: x0 :: [y])) := by rw [conv_assoc hx0 hy, fullyAssoc_fresh fr]; rfl
  have := same_rest op hop r (.assoc op t0 t1) x0 [y] e0 [e1] step sx0 (by simp [stripL, sy]) (fun q hq => hr q (List.mem_cons_of_mem _ hq))
  simpa [chainTree] using this

/-- The hypotheses are met by `a < b < c == d`. -/
example : LeftEnd comparisonHeads (.tok (.ident "a")) (.sym "a") ∧
    parsed (chainTree (.tok (.ident "a")) [("Less", .tok (.ident "b")), ("Less", .tok (.ident "c")), ("Equal", .tok (.ident "d"))]) =
      some (.expr [S "Inequality", .sym "a", S "Less", .sym "b", S "Less", .sym "c", S "Equal", .sym "d"]) :=
  ⟨Or.inr (fun h _ l e => by (cases e)), by decide +kernel⟩

/-- Without the condition on the left end operands are merged: `System`Equal[a, b] == c` means `a == b == c`, not the comparison of a truth value with `c`. -/
theorem C47_merged : parsed (.assoc "Equal" (.call (.tok (.ident "System`Equal")) [.tok (.ident "a"), .tok (.ident "b")]) (.tok (.ident "c"))) =
    some (.expr [S "Equal", .sym "a", .sym "b", .sym "c"]) := by decide +kernel

/-! ## Arithmetic -/

section
variable {K : Type _} [Field K] [CharZero K] (ρ : Ex → K) (iu : K)

theorem strip_fullyAssoc {op : String} (hop : op ∉ comparisonOps) {x y a b : Ex} (hx : strip x = some a) (hy : strip y = some b) :
    strip (fullyAssoc ("System`" ++ op) x y) = some (.expr [S op, a, b]) ∨
      ∃ l, a = .expr (S op :: l) ∧ strip (fullyAssoc ("System`" ++ op) x y) = some (.expr (S op :: l ++ [b])) := by
  by_cases hh : ∃ args, x = .expr (.sym ("System`" ++ op) :: args)
  · obtain ⟨args, rfl⟩ := hh
    obtain ⟨l', hl, ha⟩ := strip_head (sys_ne op) hx rfl
    refine Or.inr ⟨l', ha, ?_⟩
    rw [fullyAssoc_same, List.cons_append, strip_sym (sys_ne op), stripL_append, hl]
    simp [stripL, hy, S]
  · refine Or.inl ?_
    rw [fullyAssoc_fresh, strip_sym (sys_ne op), stripL_two hx hy]
    · rfl
    · intro h args he
      refine ⟨?_, ?_⟩
      · rintro rfl
        exact hh ⟨args, he⟩
      · intro hc
        exact absurd ((isComparison_sys op).1 hc) hop

theorem value_assoc_plus {x y a b : Ex} (hx : strip x = some a) (hy : strip y = some b) :
    ∃ e, strip (fullyAssoc "System`Plus" x y) = some e ∧ value ρ iu e = value ρ iu a + value ρ iu b := by
  have e1 : ("System`Plus" : String) = "System`" ++ "Plus" := by decide
  rw [e1]
  rcases strip_fullyAssoc (op := "Plus") (by decide) hx hy with h | ⟨l, rfl, h⟩
  · exact ⟨_, h, by rw [value_plus]; simp⟩
  · refine ⟨_, h, ?_⟩
    rw [List.cons_append, value_plus, value_plus]
    simp

theorem value_assoc_times {x y a b : Ex} (hx : strip x = some a) (hy : strip y = some b) :
    ∃ e, strip (fullyAssoc "System`Times" x y) = some e ∧ value ρ iu e = value ρ iu a * value ρ iu b := by
  have e1 : ("System`Times" : String) = "System`" ++ "Times" := by decide
  rw [e1]
  rcases strip_fullyAssoc (op := "Times") (by decide) hx hy with h | ⟨l, rfl, h⟩
  · exact ⟨_, h, by rw [value_times]; simp⟩
  · refine ⟨_, h, ?_⟩
    rw [List.cons_append, value_times, value_times]
    simp

theorem value_negConv {x a : Ex} (hx : strip x = some a) : ∃ e, strip (negConv x) = some e ∧ value ρ iu e = - value ρ iu a := by
  unfold negConv
  split
  · simp only [strip, Option.some.injEq] at hx
    subst hx
    exact ⟨_, rfl, by simp [value]⟩
  · simp only [strip, Option.some.injEq] at hx
    subst hx
    exact ⟨_, rfl, by simp [value]⟩
  · refine ⟨.expr [S "Times", a, .int (-1)], ?_, ?_⟩
    · rw [strip_S, stripL_two hx (b := .int (-1)) rfl]
      rfl
    · rw [value_times]
      simp [value]

/-- **Arithmetic means arithmetic.** A text built from `+`, binary and unary `-`, `*`, `/`, unary `+` and parentheses over arbitrary operands is parsed to an expression whose
value is that of the arithmetic expression, where `Power[x, -1]` has the inverse of the value of `x`. -/
theorem C47_arithmetic (hinv : ∀ y, ρ (.expr [S "Power", y, .int (-1)]) = (value ρ iu y)⁻¹) {t : PT} {v : K} (h : ArithTree ρ iu t v) :
    ∃ e, parsed t = some e ∧ value ρ iu e = v := by
  suffices hs : ∃ x e, conv t = some x ∧ strip x = some e ∧ value ρ iu e = v by
    obtain ⟨x, e, h1, h2, h3⟩ := hs
    exact ⟨e, by rw [parsed, h1]; exact h2, h3⟩
  induction h with
  | leaf t e h =>
    obtain ⟨x, hx, sx⟩ := parsed_conv h
    exact ⟨x, e, hx, sx, rfl⟩
  | add _ _ iha ihb =>
    obtain ⟨x, a, cx, sx, rfl⟩ := iha
    obtain ⟨y, b, cy, sy, rfl⟩ := ihb
    obtain ⟨e, he, ve⟩ := value_assoc_plus ρ iu sx sy
    exact ⟨_, e, conv_assoc cx cy, he, ve⟩
  | mul _ _ iha ihb =>
    obtain ⟨x, a, cx, sx, rfl⟩ := iha
    obtain ⟨y, b, cy, sy, rfl⟩ := ihb
    obtain ⟨e, he, ve⟩ := value_assoc_times ρ iu sx sy
    exact ⟨_, e, conv_assoc cx cy, he, ve⟩
  | sub _ _ iha ihb =>
    obtain ⟨x, a, cx, sx, rfl⟩ := iha
    obtain ⟨y, b, cy, sy, rfl⟩ := ihb
    have sy' : strip (.expr [S "Times", y, .int (-1)]) = some (.expr [S "Times", b, .int (-1)]) := by
      rw [strip_S, stripL_two sy (b := .int (-1)) rfl]
      rfl
    obtain ⟨e, he, ve⟩ := value_assoc_plus ρ iu sx sy'
    refine ⟨fullyAssoc "System`Plus" x (.expr [S "Times", y, .int (-1)]), e, by simp [conv, cx, cy], he, ?_⟩
    rw [ve, value_times]
    simp [value, sub_eq_add_neg]
  | div _ _ iha ihb =>
    obtain ⟨x, a, cx, sx, rfl⟩ := iha
    obtain ⟨y, b, cy, sy, rfl⟩ := ihb
    have sy' : strip (.expr [S "Power", y, .int (-1)]) = some (.expr [S "Power", b, .int (-1)]) := by
      rw [strip_S, stripL_two sy (b := .int (-1)) rfl]
      rfl
    refine ⟨.expr [S "Times", x, .expr [S "Power", y, .int (-1)]], .expr [S "Times", a, .expr [S "Power", b, .int (-1)]], by simp [conv, cx, cy], ?_, ?_⟩
    · rw [strip_S, stripL_two sx sy']
      rfl
    · have hp : value ρ iu (.expr [S "Power", b, .int (-1)]) = (value ρ iu b)⁻¹ := by
        rw [← hinv]
        simp [value, S]
      rw [value_times]
      simp [hp, div_eq_mul_inv]
  | neg _ iha =>
    obtain ⟨x, a, cx, sx, rfl⟩ := iha
    obtain ⟨e, he, ve⟩ := value_negConv ρ iu sx
    exact ⟨negConv x, e, by simp [conv, cx], he, ve⟩
  | pos _ iha =>
    obtain ⟨x, a, cx, sx, rfl⟩ := iha
    refine ⟨.expr [S "Plus", x], .expr [S "Plus", a], by simp [conv, cx], ?_, ?_⟩
    · rw [strip_S]
      simp [stripL, sx]
    · rw [value_plus]
      simp
  | paren _ iha =>
    obtain ⟨x, a, cx, sx, rfl⟩ := iha
    exact ⟨.expr [.sym parensName, x], a, by simp [conv, cx], by rw [← sx]; exact strip_paren x, rfl⟩

mutual
/-- Values with inverses: a valuation as the theorem asks for. -/
def valInv : Ex → K
  | .int n => (n : K)
  | .rat n d => (n : K) / (d : K)
  | .cplx a b => valInv a + iu * valInv b
  | .expr [] => 0
  | .expr (h :: args) =>
    if h = S "Plus" then sumInv args
    else if h = S "Times" then prodInv args
    else if h = S "Power" ∧ args.tail = [.int (-1)] then (headInv args)⁻¹
    else 0
  | .flt v => (v : K)
  | .sym _ => 7
  | .str _ => 0
/-- The first value. -/
def headInv : List Ex → K
  | [] => 0
  | a :: _ => valInv a
/-- Sum. -/
def sumInv : List Ex → K
  | [] => 0
  | a :: as => valInv a + sumInv as
/-- Product. -/
def prodInv : List Ex → K
  | [] => 1
  | a :: as => valInv a * prodInv as
end

mutual
theorem value_valInv : ∀ e : Ex, value (valInv (K := K) iu) iu e = valInv iu e
  | .int n => by simp [value, valInv]
  | .rat n d => by simp [value, valInv]
  | .cplx a b => by simp [value, valInv, value_valInv a, value_valInv b]
  | .flt v => by simp [value, valInv]
  | .sym s => by simp [value]
  | .str s => by simp [value]
  | .expr [] => by simp [value]
  | .expr (h :: args) => by
    rw [value]
    split
    · next hp => rw [sum_valInv args, valInv, if_pos hp]
    · split
      · next hp ht => rw [prod_valInv args, valInv, if_neg hp, if_pos ht]
      · rfl
theorem sum_valInv : ∀ l : List Ex, sumValue (valInv (K := K) iu) iu l = sumInv iu l
  | [] => by simp [sumValue, sumInv]
  | a :: as => by rw [sumValue, sumInv, value_valInv a, sum_valInv as]
theorem prod_valInv : ∀ l : List Ex, prodValue (valInv (K := K) iu) iu l = prodInv iu l
  | [] => by simp [prodValue, prodInv]
  | a :: as => by rw [prodValue, prodInv, value_valInv a, prod_valInv as]
end

end

/-- There are such valuations, and the text of `a - (b - 3)/(-c)`, without the inner parentheses, is an arithmetic expression. -/
example : (∀ y, valInv (K := Rat) 0 (.expr [S "Power", y, .int (-1)]) = (value (valInv (K := Rat) 0) 0 y)⁻¹) ∧
    ∃ v, ArithTree (valInv (K := Rat) 0) 0 (.sub (.tok (.ident "a")) (.div (.paren (.sub (.tok (.ident "b")) (.tok (.int 3)))) (.neg (.tok (.ident "c"))))) v := by
  refine ⟨fun y => ?_, _, .sub (.leaf _ (.sym "a") rfl) (.div (.paren (.sub (.leaf _ (.sym "b") rfl) (.leaf _ (.int 3) rfl))) (.neg (.leaf _ (.sym "c") rfl)))⟩
  rw [value_valInv]
  simp [valInv, S, headInv]

/-! ## Names -/

theorem shortNamesL_append : ∀ (a b : List Ex), shortNamesL (a ++ b) = shortNamesL a ++ shortNamesL b
  | [], b => rfl
  | p :: ps, b => by simp [shortNamesL, shortNamesL_append ps b]

theorem shortNames_long {s : String} (h : '`' ∈ s.toList) : shortNames (.sym s) = [] := by simp [shortNames, h]

theorem sys_long (h : String) : '`' ∈ ("System`" ++ h).toList := by
  rw [String.toList_append]
  exact List.mem_append_left _ (by decide)

theorem shortNames_S (h : String) : shortNames (S h) = [] := shortNames_long (sys_long h)

theorem shortNames_interleave {op : Ex} (h : shortNames op = []) : ∀ l : List Ex, shortNamesL (interleave op l) = shortNamesL l
  | [] => rfl
  | [a] => rfl
  | a :: b :: r => by
    simp only [interleave, shortNamesL, h, List.nil_append]
    rw [shortNames_interleave h (b :: r)]
    simp [shortNamesL]

theorem comparison_long {h : String} (hc : isComparison h = true) : '`' ∈ h.toList := by
  unfold isComparison at hc
  simp only [Bool.or_eq_true, decide_eq_true_eq] at hc
  rcases hc with ((((rfl | rfl) | rfl) | rfl) | rfl) | rfl <;> decide

theorem shortNames_fullyAssoc {op : String} (hop : '`' ∈ op.toList) (x y : Ex) : shortNames (fullyAssoc op x y) = shortNames x ++ shortNames y := by
  have ho := shortNames_long hop
  unfold fullyAssoc
  split
  · next h args =>
    split
    · next hc =>
      simp only [Bool.and_eq_true, Bool.or_eq_true, decide_eq_true_eq] at hc
      have hl : '`' ∈ h.toList := by
        rcases hc.1.2 with hc | hc
        · exact comparison_long hc
        · rw [hc]; decide
      have hh := shortNames_long hl
      split
      · simp [shortNames, shortNamesL, shortNamesL_append, hop]
      · simp only [shortNames, shortNamesL, List.cons_append, shortNamesL_append, shortNames_interleave hh, hop, hl]
        simp [S, shortNames]
    · split
      · simp [shortNames, shortNamesL, shortNamesL_append]
      · simp [shortNames, shortNamesL, hop]
  · simp only [shortNames, shortNamesL, hop]
    simp

theorem shortNames_app (h : String) (l : List Ex) : shortNames (.expr (S h :: l)) = shortNamesL l := by
  simp only [shortNames, shortNamesL, shortNames_S, List.nil_append]

theorem shortNames_neg (x : Ex) : shortNames (negConv x) = shortNames x := by
  unfold negConv
  split
  · simp [shortNames]
  · simp [shortNames]
  · rw [shortNames_app]
    simp [shortNamesL, shortNames]

mutual
theorem conv_names : ∀ (t : PT) {x : Ex}, properTree NoParensName t → conv t = some x → shortNames x = writtenNames t
  | .tok t, x, _, hx => by
    simp only [conv, Option.some.injEq] at hx
    subst hx
    simp [writtenNames]
  | .bin hd a b, x, h, hx => by
    simp only [properTree] at h
    obtain ⟨y, hy, -⟩ := conv_wf a h.1
    obtain ⟨z, hz, -⟩ := conv_wf b h.2
    simp only [conv, hy, hz, Option.bind_some, Option.map_some, Option.some.injEq] at hx
    subst hx
    simp [shortNames_app, shortNamesL, writtenNames, conv_names a h.1 hy, conv_names b h.2 hz]
  | .assoc hd a b, x, h, hx => by
    simp only [properTree] at h
    obtain ⟨y, hy, -⟩ := conv_wf a h.1
    obtain ⟨z, hz, -⟩ := conv_wf b h.2
    simp only [conv, hy, hz, Option.bind_some, Option.map_some, Option.some.injEq] at hx
    subst hx
    simp [shortNames_fullyAssoc (sys_long hd), writtenNames, conv_names a h.1 hy, conv_names b h.2 hz]
  | .un hd a, x, h, hx => by
    simp only [properTree] at h
    obtain ⟨y, hy, -⟩ := conv_wf a h
    simp only [conv, hy, Option.map_some, Option.some.injEq] at hx
    subst hx
    simp [shortNames_app, shortNamesL, writtenNames, conv_names a h hy]
  | .semi a, x, h, hx => by
    simp only [properTree] at h
    obtain ⟨y, hy, -⟩ := conv_wf a h
    simp only [conv, hy, Option.map_some, Option.some.injEq] at hx
    subst hx
    rw [shortNames_fullyAssoc (by decide), shortNames_S]
    simp [writtenNames, conv_names a h hy]
  | .colon a b, x, h, hx => by
    simp only [properTree] at h
    obtain ⟨y, hy, -⟩ := conv_wf a h.1
    obtain ⟨z, hz, -⟩ := conv_wf b h.2
    simp only [conv, hy, hz, Option.bind_some, Option.map_some, Option.some.injEq] at hx
    subst hx
    simp [colonConv, shortNames_app, shortNamesL, writtenNames, conv_names a h.1 hy, conv_names b h.2 hz]
  | .msg t tag, x, h, hx => by
    simp only [properTree] at h
    obtain ⟨ht, s, rfl⟩ := h
    simp only [conv, tagName, Option.map_some, Option.some.injEq] at hx
    subst hx
    simp [shortNames_S, shortNamesL, shortNames, writtenNames]
  | .call f l, x, h, hx => by
    simp only [properTree] at h
    obtain ⟨y, hy, -⟩ := conv_wf f h.1
    obtain ⟨ys, hys, -⟩ := convL_wf l h.2
    simp only [conv, hy, hys, Option.bind_some, Option.map_some, Option.some.injEq] at hx
    subst hx
    simp [shortNames, shortNamesL, writtenNames, conv_names f h.1 hy, convL_names l h.2 hys]
  | .list l, x, h, hx => by
    simp only [properTree] at h
    obtain ⟨ys, hys, -⟩ := convL_wf l h
    simp only [conv, hys, Option.map_some, Option.some.injEq] at hx
    subst hx
    simp [shortNames_app, writtenNames, convL_names l h hys]
  | .paren a, x, h, hx => by
    simp only [properTree] at h
    obtain ⟨y, hy, -⟩ := conv_wf a h
    simp only [conv, hy, Option.map_some, Option.some.injEq] at hx
    subst hx
    rw [shortNames, shortNamesL, shortNames_long (by decide)]
    simp [shortNamesL, writtenNames, conv_names a h hy]
  | .part a l, x, h, hx => by
    simp only [properTree] at h
    obtain ⟨y, hy, -⟩ := conv_wf a h.1
    obtain ⟨ys, hys, -⟩ := convL_wf l h.2
    simp only [conv, hy, hys, Option.bind_some, Option.map_some, Option.some.injEq] at hx
    subst hx
    simp [shortNames_app, shortNamesL, writtenNames, conv_names a h.1 hy, convL_names l h.2 hys]
  | .neg a, x, h, hx => by
    simp only [properTree] at h
    obtain ⟨y, hy, -⟩ := conv_wf a h
    simp only [conv, hy, Option.map_some, Option.some.injEq] at hx
    subst hx
    rw [shortNames_neg]
    simp [writtenNames, conv_names a h hy]
  | .div a b, x, h, hx => by
    simp only [properTree] at h
    obtain ⟨y, hy, -⟩ := conv_wf a h.1
    obtain ⟨z, hz, -⟩ := conv_wf b h.2
    simp only [conv, hy, hz, Option.bind_some, Option.map_some, Option.some.injEq] at hx
    subst hx
    simp [shortNames_S, shortNamesL, shortNames, writtenNames, conv_names a h.1 hy, conv_names b h.2 hz]
  | .sub a b, x, h, hx => by
    simp only [properTree] at h
    obtain ⟨y, hy, -⟩ := conv_wf a h.1
    obtain ⟨z, hz, -⟩ := conv_wf b h.2
    simp only [conv, hy, hz, Option.bind_some, Option.map_some, Option.some.injEq] at hx
    subst hx
    rw [shortNames_fullyAssoc (by decide), shortNames_app]
    simp [shortNamesL, shortNames, writtenNames, conv_names a h.1 hy, conv_names b h.2 hz]
  | .post a f, x, h, hx => by
    simp only [properTree] at h
    obtain ⟨y, hy, -⟩ := conv_wf a h.1
    obtain ⟨z, hz, -⟩ := conv_wf f h.2
    simp only [conv, hy, hz, Option.bind_some, Option.map_some, Option.some.injEq] at hx
    subst hx
    simp [shortNames, shortNamesL, writtenNames, conv_names a h.1 hy, conv_names f h.2 hz]
  | .pre f a, x, h, hx => by
    simp only [properTree] at h
    obtain ⟨y, hy, -⟩ := conv_wf f h.1
    obtain ⟨z, hz, -⟩ := conv_wf a h.2
    simp only [conv, hy, hz, Option.bind_some, Option.map_some, Option.some.injEq] at hx
    subst hx
    simp [shortNames, shortNamesL, writtenNames, conv_names f h.1 hy, conv_names a h.2 hz]
  | .apply1 f a, x, h, hx => by
    simp only [properTree] at h
    obtain ⟨y, hy, -⟩ := conv_wf f h.1
    obtain ⟨z, hz, -⟩ := conv_wf a h.2
    simp only [conv, hy, hz, Option.bind_some, Option.map_some, Option.some.injEq] at hx
    subst hx
    simp [shortNames_app, shortNames, shortNamesL, shortNames_S, writtenNames, conv_names f h.1 hy, conv_names a h.2 hz]
  | .tagSet f (.bin hd a b), x, h, hx => by
    simp only [properTree] at h
    obtain ⟨y, hy, -⟩ := conv_wf a h.2.2.1
    obtain ⟨z, hz, -⟩ := conv_wf b h.2.2.2
    obtain ⟨g, hg, -⟩ := conv_wf f h.1
    simp only [conv, hy, hz, hg, Option.bind_some, Option.map_some, tagSetConv, Option.some.injEq] at hx
    subst hx
    simp [shortNames_app, shortNamesL, writtenNames, conv_names f h.1 hg, conv_names a h.2.2.1 hy, conv_names b h.2.2.2 hz]
  | .deriv f, x, h, hx => by
    simp only [properTree] at h
    obtain ⟨y, hy, -⟩ := conv_wf f h
    simp only [conv, hy, Option.map_some, Option.some.injEq] at hx
    subst hx
    simp [shortNames, shortNamesL, shortNames_S, writtenNames, conv_names f h hy]
  | .sqrt a, x, h, hx => by
    simp only [properTree] at h
    obtain ⟨y, hy, -⟩ := conv_wf a h
    simp only [conv, hy, Option.map_some, Option.some.injEq] at hx
    subst hx
    simp [shortNames_app, shortNamesL, writtenNames, conv_names a h hy]
  | .info tag, x, _, hx => by
    simp only [conv, Option.some.injEq] at hx
    subst hx
    simp [shortNames_app, shortNamesL, writtenNames]
  | .infoShort tag, x, _, hx => by
    simp only [conv, Option.some.injEq] at hx
    subst hx
    simp [shortNames_app, shortNamesL, shortNames_S, writtenNames]
  | .out n, x, _, hx => by
    simp only [conv, Option.some.injEq] at hx
    subst hx
    simp [shortNames_app, shortNamesL, shortNames_S, writtenNames, shortNames]
  | .tagSet _ (.tok _), _, h, _ | .tagSet _ (.assoc _ _ _), _, h, _ | .tagSet _ (.un _ _), _, h, _ | .tagSet _ (.semi _), _, h, _
  | .tagSet _ (.colon _ _), _, h, _ | .tagSet _ (.msg _ _), _, h, _ | .tagSet _ (.call _ _), _, h, _ | .tagSet _ (.list _), _, h, _
  | .tagSet _ (.paren _), _, h, _ | .tagSet _ (.part _ _), _, h, _ | .tagSet _ (.neg _), _, h, _ | .tagSet _ (.div _ _), _, h, _
  | .tagSet _ (.sub _ _), _, h, _ | .tagSet _ (.post _ _), _, h, _ | .tagSet _ (.pre _ _), _, h, _ | .tagSet _ (.apply1 _ _), _, h, _
  | .tagSet _ (.tagSet _ _), _, h, _ | .tagSet _ (.deriv _), _, h, _ | .tagSet _ (.sqrt _), _, h, _ | .tagSet _ (.info _), _, h, _
  | .tagSet _ (.infoShort _), _, h, _ | .tagSet _ (.out _), _, h, _ => by exact absurd h (by simp [properTree])
theorem convL_names : ∀ (ts : List PT) {xs : List Ex}, properTreeL NoParensName ts → convL ts = some xs → shortNamesL xs = writtenNamesL ts
  | [], xs, _, hx => by
    simp only [convL, Option.some.injEq] at hx
    subst hx
    simp [shortNamesL, writtenNamesL]
  | t :: ts, xs, h, hx => by
    simp only [properTreeL] at h
    obtain ⟨y, hy, -⟩ := conv_wf t h.1
    obtain ⟨ys, hys, -⟩ := convL_wf ts h.2
    simp only [convL, hy, hys, Option.bind_some, Option.map_some, Option.some.injEq] at hx
    subst hx
    simp [shortNamesL, writtenNamesL, conv_names t h.1 hy, convL_names ts h.2 hys]
end

theorem stripL_names {ps : List Ex} (h : ∀ p ∈ ps, ∀ e, strip p = some e → shortNames e = shortNames p) :
    ∀ {es : List Ex}, stripL ps = some es → shortNamesL es = shortNamesL ps := by
  induction ps with
  | nil => intro es hs; simp only [stripL, Option.some.injEq] at hs; subst hs; rfl
  | cons a as ih =>
    intro es hs
    simp only [stripL] at hs
    cases ha : strip a with
    | none => rw [ha] at hs; simp at hs
    | some b =>
      rw [ha, Option.bind_some] at hs
      cases has : stripL as with
      | none => rw [has] at hs; simp at hs
      | some bs =>
        rw [has] at hs
        simp only [Option.map_some, Option.some.injEq] at hs
        subst hs
        simp [shortNamesL, h a List.mem_cons_self b ha, ih (fun p hp => h p (List.mem_cons_of_mem _ hp)) has]

theorem strip_names {x : Ex} (w : WfP x) : ∀ e, strip x = some e → shortNames e = shortNames x := by
  induction w with
  | sym s h => intro e he; simp only [strip, Option.some.injEq] at he; subst he; rfl
  | str s => intro e he; simp only [strip, Option.some.injEq] at he; subst he; rfl
  | int n => intro e he; simp only [strip, Option.some.injEq] at he; subst he; rfl
  | rat n d => intro e he; simp only [strip, Option.some.injEq] at he; subst he; rfl
  | flt v => intro e he; simp only [strip, Option.some.injEq] at he; subst he; rfl
  | cplx a b => intro e he; simp only [strip, Option.some.injEq] at he; subst he; rfl
  | paren x _ ih =>
    intro e he
    rw [strip_paren] at he
    rw [ih e he, shortNames, shortNamesL, shortNames_long (by decide)]
    simp [shortNamesL]
  | expr ps hn hw ih =>
    intro e he
    match ps, hn, hw, ih with
    | p :: ps, _, hw, ih =>
      have hp : p ≠ .sym "Internal`Parens" := by
        rintro rfl
        have := hw _ List.mem_cons_self
        cases this with
        | sym _ h => exact h rfl
      have hl : stripL (p :: ps) = (match e with | .expr qs => some qs | _ => none) := by
        rw [strip_cons hp] at he
        simp only [stripL]
        cases hsp : strip p with
        | none => rw [hsp] at he; simp at he
        | some x =>
          rw [hsp, Option.bind_some] at he
          cases hsl : stripL ps with
          | none => rw [hsl] at he; simp at he
          | some xs =>
            rw [hsl] at he
            simp only [Option.map_some, Option.some.injEq] at he
            subst he
            rfl
      cases e with
      | expr qs =>
        simp only [shortNames]
        exact stripL_names ih hl
      | _ =>
        exfalso
        obtain ⟨es, hes, -⟩ := stripL_wf (fun q hq => strip_wf (hw q hq))
        rw [hes] at hl
        simp at hl

/-- **The names of the text are the names of the result**: in the same order, each as often as it is written, and no others (those that the parser adds are
fully qualified). -/
theorem C47_names {t : PT} (h : properTree NoParensName t) {e : Ex} (he : parsed t = some e) : shortNames e = writtenNames t := by
  obtain ⟨x, hx, wx⟩ := conv_wf t h
  have hs : strip x = some e := by rw [parsed, hx] at he; exact he
  rw [strip_names wx e hs, conv_names t h hx]

/-- Not empty: the names of `a < (b + a)//f`. -/
example : writtenNames (.post (.assoc "Less" (.tok (.ident "a")) (.paren (.assoc "Plus" (.tok (.ident "b")) (.tok (.ident "a"))))) (.tok (.ident "f"))) = ["f", "a", "b", "a"] := by
  decide +kernel

/-- `f /: (a = b)` ends the interpreter: the parentheses hide the assignment. -/
theorem C47_tagset_crash : parsed (.tagSet (.tok (.ident "f")) (.paren (.bin "Set" (.tok (.ident "a")) (.tok (.ident "b"))))) = none := by decide +kernel

end Expreduce
