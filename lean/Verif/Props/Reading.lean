import Verif.Props.Parser

/-! Property C47: every node of a parse tree. -/

namespace Expreduce
open Ex

theorem tokenMeaning_eq (t : Token) : tokenMeaning t = tokenConv t := by
  cases t with
  | ident s =>
    simp only [tokenMeaning, tokenConv, redefined]
    by_cases h1 : s = "π"
    · simp [h1]
    · by_cases h2 : s = "ⅈ"
      · simp [h2]
      · by_cases h3 : s = "ⅉ" <;> simp [h1, h2, h3]
  | _ => rfl

theorem strip_token {t : Token} (h : NoParensName t) : strip (tokenConv t) = some (tokenConv t) := by
  have aux : ∀ e : Ex, noEmpty e → allSyms (· ≠ "Internal`Parens") e → strip e = some e := by
    intro e
    induction e using Ex.ind with
    | hexpr ps ih =>
      intro hn hs
      match ps with
      | [] => exact absurd hn (by simp [noEmpty])
      | p :: ps =>
        have hs' : allSymsL (· ≠ "Internal`Parens") (p :: ps) := hs
        have each : ∀ q ∈ p :: ps, strip q = some q := fun q hq => ih q hq (by
          rcases List.mem_cons.1 hq with rfl | hq
          · exact hn.1
          · exact noEmptyL_mem hn.2 q hq) (allSymsL_mem hs' q hq)
        have all : ∀ l : List Ex, (∀ q ∈ l, strip q = some q) → stripL l = some l := by
          intro l
          induction l with
          | nil => intro _; rfl
          | cons a as iha => intro h; simp [stripL, h a List.mem_cons_self, iha (fun q hq => h q (List.mem_cons_of_mem _ hq))]
        have hp : p ≠ .sym "Internal`Parens" := by
          rintro rfl
          exact hs'.1 rfl
        rw [strip_cons hp, each p List.mem_cons_self, all ps (fun q hq => each q (List.mem_cons_of_mem _ hq))]
        rfl
    | _ => intros; rfl
  refine aux _ ?_ h
  cases t with
  | pat s => exact noEmpty_patternOf _ _ _
  | slot n => simp [tokenConv, noEmpty, noEmptyL, S]
  | _ => simp [tokenConv, noEmpty]

/-- The head of the expression is visible before the placeholders are removed. -/
def PlainHead (x : Ex) : Prop := ∀ h ps, x = .expr (h :: ps) → h ≠ .sym "Internal`Parens" ∧ ∀ qs, h ≠ .expr (.sym "Internal`Parens" :: qs)

theorem plainHead_sym {s : String} (hs : s ≠ "Internal`Parens") (ps : List Ex) : PlainHead (.expr (.sym s :: ps)) := by
  intro h qs e
  simp only [Ex.expr.injEq, List.cons.injEq] at e
  obtain ⟨rfl, -⟩ := e
  exact ⟨by simpa using hs, by simp⟩

theorem plainHead_S (n : String) (ps : List Ex) : PlainHead (.expr (S n :: ps)) := plainHead_sym (sys_ne n) ps

theorem plain_fullyAssoc {op : String} (hop : op ≠ "Internal`Parens") (x y : Ex) : PlainHead (fullyAssoc op x y) := by
  unfold fullyAssoc
  split
  · next h args =>
    split
    · split
      · next h' => rw [h']; exact plainHead_sym (by decide) _
      · exact plainHead_S _ _
    · split
      · next h' => rw [h']; exact plainHead_sym hop _
      · exact plainHead_sym hop _
  · exact plainHead_sym hop _

theorem plain_token {t : Token} (h : NoParensName t) : PlainHead (tokenConv t) := by
  intro hd ps e
  have h' : allSyms (· ≠ "Internal`Parens") (.expr (hd :: ps)) := by rw [← e]; exact h
  have hh : allSyms (· ≠ "Internal`Parens") hd := h'.1
  constructor
  · rintro rfl
    exact hh rfl
  · rintro qs rfl
    exact hh.1 rfl

/-- A tree that is not in parentheses is not converted to a placeholder. -/
theorem not_placeholder {t : PT} (h : properTree NoParensName t) (hp : inParens t = false) {x : Ex} (hx : conv t = some x) :
    x ≠ .sym "Internal`Parens" ∧ ∀ qs, x ≠ .expr (.sym "Internal`Parens" :: qs) := by
  have symhead : ∀ {s : String} {ps : List Ex}, s ≠ "Internal`Parens" → (Ex.expr (.sym s :: ps) ≠ .sym "Internal`Parens" ∧ ∀ qs, Ex.expr (.sym s :: ps) ≠ .expr (.sym "Internal`Parens" :: qs)) := by
    intro s ps hs
    refine ⟨by simp, ?_⟩
    intro qs e
    simp only [Ex.expr.injEq, List.cons.injEq, Ex.sym.injEq] at e
    exact hs e.1
  have shead : ∀ {n : String} {ps : List Ex}, (Ex.expr (S n :: ps) ≠ .sym "Internal`Parens" ∧ ∀ qs, Ex.expr (S n :: ps) ≠ .expr (.sym "Internal`Parens" :: qs)) :=
    symhead (sys_ne _)
  have wf : ∀ {a : PT} {g : Ex} {ps : List Ex}, properTree NoParensName a → conv a = some g →
      (Ex.expr (g :: ps) ≠ .sym "Internal`Parens" ∧ ∀ qs, Ex.expr (g :: ps) ≠ .expr (.sym "Internal`Parens" :: qs)) := by
    intro a g ps ha hg
    refine ⟨by simp, ?_⟩
    intro qs e
    simp only [Ex.expr.injEq, List.cons.injEq] at e
    obtain ⟨y, hy, wy⟩ := conv_wf a ha
    rw [hg] at hy
    simp only [Option.some.injEq] at hy
    subst hy
    rw [e.1] at wy
    cases wy with
    | sym _ h => exact h rfl
  have assoc : ∀ {op : String} {a b : Ex}, op ≠ "Internal`Parens" →
      (fullyAssoc op a b ≠ .sym "Internal`Parens" ∧ ∀ qs, fullyAssoc op a b ≠ .expr (.sym "Internal`Parens" :: qs)) := by
    intro op a b hop
    have hpl := plain_fullyAssoc hop a b
    constructor
    · intro e
      unfold fullyAssoc at e
      split at e
      · split at e
        · split at e <;> simp at e
        · split at e <;> simp at e
      · simp at e
    · intro qs e
      exact (hpl _ _ e).1 rfl
  cases t with
  | tok t =>
    simp only [conv, Option.some.injEq] at hx
    subst hx
    refine ⟨?_, fun qs e => (plain_token h _ _ e).1 rfl⟩
    intro e
    have h' : allSyms (· ≠ "Internal`Parens") (tokenConv t) := h
    rw [e] at h'
    exact h' rfl
  | paren a => simp [inParens] at hp
  | bin hd a b =>
    simp only [properTree] at h
    obtain ⟨y, hy, -⟩ := conv_wf a h.1
    obtain ⟨z, hz, -⟩ := conv_wf b h.2
    simp only [conv, hy, hz, Option.bind_some, Option.map_some, Option.some.injEq] at hx
    subst hx
    exact shead
  | assoc hd a b =>
    simp only [properTree] at h
    obtain ⟨y, hy, -⟩ := conv_wf a h.1
    obtain ⟨z, hz, -⟩ := conv_wf b h.2
    simp only [conv, hy, hz, Option.bind_some, Option.map_some, Option.some.injEq] at hx
    subst hx
    exact assoc (sys_ne hd)
  | un hd a =>
    simp only [properTree] at h
    obtain ⟨y, hy, -⟩ := conv_wf a h
    simp only [conv, hy, Option.map_some, Option.some.injEq] at hx
    subst hx
    exact shead
  | semi a =>
    simp only [properTree] at h
    obtain ⟨y, hy, -⟩ := conv_wf a h
    simp only [conv, hy, Option.map_some, Option.some.injEq] at hx
    subst hx
    exact assoc (by decide)
  | colon a b =>
    simp only [properTree] at h
    obtain ⟨y, hy, -⟩ := conv_wf a h.1
    obtain ⟨z, hz, -⟩ := conv_wf b h.2
    simp only [conv, hy, hz, Option.bind_some, Option.map_some, Option.some.injEq] at hx
    subst hx
    exact shead
  | msg t tag =>
    simp only [properTree] at h
    obtain ⟨ht, s, rfl⟩ := h
    simp only [conv, tagName, Option.map_some, Option.some.injEq] at hx
    subst hx
    exact shead
  | call f l =>
    simp only [properTree] at h
    obtain ⟨y, hy, -⟩ := conv_wf f h.1
    obtain ⟨ys, hys, -⟩ := convL_wf l h.2
    simp only [conv, hy, hys, Option.bind_some, Option.map_some, Option.some.injEq] at hx
    subst hx
    exact wf h.1 hy
  | list l =>
    simp only [properTree] at h
    obtain ⟨ys, hys, -⟩ := convL_wf l h
    simp only [conv, hys, Option.map_some, Option.some.injEq] at hx
    subst hx
    exact shead
  | part a l =>
    simp only [properTree] at h
    obtain ⟨y, hy, -⟩ := conv_wf a h.1
    obtain ⟨ys, hys, -⟩ := convL_wf l h.2
    simp only [conv, hy, hys, Option.bind_some, Option.map_some, Option.some.injEq] at hx
    subst hx
    exact shead
  | neg a =>
    simp only [properTree] at h
    obtain ⟨y, hy, -⟩ := conv_wf a h
    simp only [conv, hy, Option.map_some, Option.some.injEq] at hx
    subst hx
    unfold negConv
    split
    · simp
    · simp
    · exact shead
  | div a b =>
    simp only [properTree] at h
    obtain ⟨y, hy, -⟩ := conv_wf a h.1
    obtain ⟨z, hz, -⟩ := conv_wf b h.2
    simp only [conv, hy, hz, Option.bind_some, Option.map_some, Option.some.injEq] at hx
    subst hx
    exact shead
  | sub a b =>
    simp only [properTree] at h
    obtain ⟨y, hy, -⟩ := conv_wf a h.1
    obtain ⟨z, hz, -⟩ := conv_wf b h.2
    simp only [conv, hy, hz, Option.bind_some, Option.map_some, Option.some.injEq] at hx
    subst hx
    exact assoc (by decide)
  | post a f =>
    simp only [properTree] at h
    obtain ⟨y, hy, -⟩ := conv_wf a h.1
    obtain ⟨z, hz, -⟩ := conv_wf f h.2
    simp only [conv, hy, hz, Option.bind_some, Option.map_some, Option.some.injEq] at hx
    subst hx
    exact wf h.2 hz
  | pre f a =>
    simp only [properTree] at h
    obtain ⟨y, hy, -⟩ := conv_wf f h.1
    obtain ⟨z, hz, -⟩ := conv_wf a h.2
    simp only [conv, hy, hz, Option.bind_some, Option.map_some, Option.some.injEq] at hx
    subst hx
    exact wf h.1 hy
  | apply1 f a =>
    simp only [properTree] at h
    obtain ⟨y, hy, -⟩ := conv_wf f h.1
    obtain ⟨z, hz, -⟩ := conv_wf a h.2
    simp only [conv, hy, hz, Option.bind_some, Option.map_some, Option.some.injEq] at hx
    subst hx
    exact shead
  | tagSet f set =>
    cases set with
    | bin hd a b =>
      simp only [properTree] at h
      obtain ⟨y, hy, -⟩ := conv_wf a h.2.2.1
      obtain ⟨z, hz, -⟩ := conv_wf b h.2.2.2
      obtain ⟨g, hg, -⟩ := conv_wf f h.1
      simp only [conv, hy, hz, hg, Option.bind_some, Option.map_some, tagSetConv, Option.some.injEq] at hx
      subst hx
      exact shead
    | _ => exact absurd h (by simp [properTree])
  | deriv f =>
    simp only [properTree] at h
    obtain ⟨y, hy, -⟩ := conv_wf f h
    simp only [conv, hy, Option.map_some, Option.some.injEq] at hx
    subst hx
    exact ⟨by simp, by simp⟩
  | sqrt a =>
    simp only [properTree] at h
    obtain ⟨y, hy, -⟩ := conv_wf a h
    simp only [conv, hy, Option.map_some, Option.some.injEq] at hx
    subst hx
    exact shead
  | info tag =>
    simp only [conv, Option.some.injEq] at hx
    subst hx
    exact shead
  | infoShort tag =>
    simp only [conv, Option.some.injEq] at hx
    subst hx
    exact shead
  | out n =>
    simp only [conv, Option.some.injEq] at hx
    subst hx
    exact shead

theorem plain_of_unprotected {t : PT} (h : properTree NoParensName t) (hu : unprotected t = true) {x : Ex} (hx : conv t = some x) : PlainHead x := by
  have hp : inParens t = false := by
    cases t with
    | paren a => simp [unprotected] at hu
    | _ => rfl
  have np := not_placeholder h hp hx
  intro hd ps e
  refine ⟨fun e' => np.2 ps (by rw [e, e']), ?_⟩
  -- the head itself can only come from the function of a call
  have fn : ∀ {f : PT} {g : Ex} {qs : List Ex}, properTree NoParensName f → inParens f = false → conv f = some g → x = .expr (g :: qs) → ∀ rs, hd ≠ .expr (.sym "Internal`Parens" :: rs) := by
    intro f g qs hf hpf hg ex rs e'
    rw [ex] at e
    simp only [Ex.expr.injEq, List.cons.injEq] at e
    exact (not_placeholder hf hpf hg).2 rs (e.1.trans e')
  have sy : ∀ {s : String} {qs : List Ex}, x = .expr (.sym s :: qs) → ∀ rs, hd ≠ .expr (.sym "Internal`Parens" :: rs) := by
    intro s qs ex rs e'
    rw [ex] at e
    simp only [Ex.expr.injEq, List.cons.injEq] at e
    rw [e'] at e
    simp at e
  have inP : ∀ {f : PT}, (∀ s, f ≠ .paren s) → inParens f = false := by
    intro f hf
    cases f with
    | paren a => exact absurd rfl (hf a)
    | _ => rfl
  cases t with
  | tok t =>
    simp only [conv, Option.some.injEq] at hx
    subst hx
    exact (plain_token h hd ps e).2
  | paren a => simp [inParens] at hp
  | call f l =>
    simp only [properTree] at h
    obtain ⟨y, hy, -⟩ := conv_wf f h.1
    obtain ⟨ys, hys, -⟩ := convL_wf l h.2
    simp only [conv, hy, hys, Option.bind_some, Option.map_some, Option.some.injEq] at hx
    exact fn h.1 (inP (by rintro s rfl; simp [unprotected] at hu)) hy hx.symm
  | post a f =>
    simp only [properTree] at h
    obtain ⟨y, hy, -⟩ := conv_wf a h.1
    obtain ⟨z, hz, -⟩ := conv_wf f h.2
    simp only [conv, hy, hz, Option.bind_some, Option.map_some, Option.some.injEq] at hx
    exact fn h.2 (inP (by rintro s rfl; simp [unprotected] at hu)) hz hx.symm
  | pre f a =>
    simp only [properTree] at h
    obtain ⟨y, hy, -⟩ := conv_wf f h.1
    obtain ⟨z, hz, -⟩ := conv_wf a h.2
    simp only [conv, hy, hz, Option.bind_some, Option.map_some, Option.some.injEq] at hx
    exact fn h.1 (inP (by rintro s rfl; simp [unprotected] at hu)) hy hx.symm
  | bin hb a b =>
    simp only [properTree] at h
    obtain ⟨y, hy, -⟩ := conv_wf a h.1
    obtain ⟨z, hz, -⟩ := conv_wf b h.2
    simp only [conv, hy, hz, Option.bind_some, Option.map_some, Option.some.injEq] at hx
    exact sy hx.symm
  | assoc hb a b =>
    simp only [properTree] at h
    obtain ⟨y, hy, -⟩ := conv_wf a h.1
    obtain ⟨z, hz, -⟩ := conv_wf b h.2
    simp only [conv, hy, hz, Option.bind_some, Option.map_some, Option.some.injEq] at hx
    subst hx
    exact (plain_fullyAssoc (sys_ne hb) y z hd ps e).2
  | un hb a =>
    simp only [properTree] at h
    obtain ⟨y, hy, -⟩ := conv_wf a h
    simp only [conv, hy, Option.map_some, Option.some.injEq] at hx
    exact sy hx.symm
  | semi a =>
    simp only [properTree] at h
    obtain ⟨y, hy, -⟩ := conv_wf a h
    simp only [conv, hy, Option.map_some, Option.some.injEq] at hx
    subst hx
    exact (plain_fullyAssoc (by decide) y _ hd ps e).2
  | colon a b =>
    simp only [properTree] at h
    obtain ⟨y, hy, -⟩ := conv_wf a h.1
    obtain ⟨z, hz, -⟩ := conv_wf b h.2
    simp only [conv, hy, hz, Option.bind_some, Option.map_some, Option.some.injEq] at hx
    exact sy hx.symm
  | msg t tag =>
    simp only [properTree] at h
    obtain ⟨ht, s, rfl⟩ := h
    simp only [conv, tagName, Option.map_some, Option.some.injEq] at hx
    exact sy hx.symm
  | list l =>
    simp only [properTree] at h
    obtain ⟨ys, hys, -⟩ := convL_wf l h
    simp only [conv, hys, Option.map_some, Option.some.injEq] at hx
    exact sy hx.symm
  | part a l =>
    simp only [properTree] at h
    obtain ⟨y, hy, -⟩ := conv_wf a h.1
    obtain ⟨ys, hys, -⟩ := convL_wf l h.2
    simp only [conv, hy, hys, Option.bind_some, Option.map_some, Option.some.injEq] at hx
    exact sy hx.symm
  | neg a =>
    simp only [properTree] at h
    obtain ⟨y, hy, -⟩ := conv_wf a h
    simp only [conv, hy, Option.map_some, Option.some.injEq] at hx
    unfold negConv at hx
    split at hx
    · rw [e] at hx; simp at hx
    · rw [e] at hx; simp at hx
    · exact sy hx.symm
  | div a b =>
    simp only [properTree] at h
    obtain ⟨y, hy, -⟩ := conv_wf a h.1
    obtain ⟨z, hz, -⟩ := conv_wf b h.2
    simp only [conv, hy, hz, Option.bind_some, Option.map_some, Option.some.injEq] at hx
    exact sy hx.symm
  | sub a b =>
    simp only [properTree] at h
    obtain ⟨y, hy, -⟩ := conv_wf a h.1
    obtain ⟨z, hz, -⟩ := conv_wf b h.2
    simp only [conv, hy, hz, Option.bind_some, Option.map_some, Option.some.injEq] at hx
    subst hx
    exact (plain_fullyAssoc (by decide) y _ hd ps e).2
  | apply1 f a =>
    simp only [properTree] at h
    obtain ⟨y, hy, -⟩ := conv_wf f h.1
    obtain ⟨z, hz, -⟩ := conv_wf a h.2
    simp only [conv, hy, hz, Option.bind_some, Option.map_some, Option.some.injEq] at hx
    exact sy hx.symm
  | tagSet f set =>
    cases set with
    | bin hb a b =>
      simp only [properTree] at h
      obtain ⟨y, hy, -⟩ := conv_wf a h.2.2.1
      obtain ⟨z, hz, -⟩ := conv_wf b h.2.2.2
      obtain ⟨g, hg, -⟩ := conv_wf f h.1
      simp only [conv, hy, hz, hg, Option.bind_some, Option.map_some, tagSetConv, Option.some.injEq] at hx
      exact sy hx.symm
    | _ => exact absurd h (by simp [properTree])
  | deriv f =>
    simp only [properTree] at h
    obtain ⟨y, hy, -⟩ := conv_wf f h
    simp only [conv, hy, Option.map_some, Option.some.injEq] at hx
    intro rs e'
    rw [e, e'] at hx
    simp [S] at hx
  | sqrt a =>
    simp only [properTree] at h
    obtain ⟨y, hy, -⟩ := conv_wf a h
    simp only [conv, hy, Option.map_some, Option.some.injEq] at hx
    exact sy hx.symm
  | info tag =>
    simp only [conv, Option.some.injEq] at hx
    exact sy hx.symm
  | infoShort tag =>
    simp only [conv, Option.some.injEq] at hx
    exact sy hx.symm
  | out n =>
    simp only [conv, Option.some.injEq] at hx
    exact sy hx.symm

theorem strip_plain {x : Ex} (hp : PlainHead x) {g : String} {l' : List Ex} (hs : strip x = some (.expr (.sym g :: l'))) : ∃ l, x = .expr (.sym g :: l) := by
  match x, hp, hs with
  | .expr (h :: ps), hp, hs =>
    obtain ⟨h1, h2⟩ := hp h ps rfl
    rw [strip_cons h1] at hs
    cases hh : strip h with
    | none => rw [hh] at hs; simp at hs
    | some k =>
      rw [hh, Option.bind_some] at hs
      cases hl : stripL ps with
      | none => rw [hl] at hs; simp at hs
      | some qs =>
        rw [hl] at hs
        simp only [Option.map_some, Option.some.injEq, Ex.expr.injEq, List.cons.injEq] at hs
        obtain ⟨rfl, -⟩ := hs
        match h, h2, hh with
        | .sym s, _, hh =>
          simp only [strip, Option.some.injEq, Ex.sym.injEq] at hh
          subst hh
          exact ⟨ps, rfl⟩
        | .str _, _, hh => simp [strip] at hh
        | .int _, _, hh => simp [strip] at hh
        | .rat _ _, _, hh => simp [strip] at hh
        | .flt _, _, hh => simp [strip] at hh
        | .cplx _ _, _, hh => simp [strip] at hh
        | .expr [], _, hh => simp [strip, stripParts] at hh
        | .expr (q :: rs), h2, hh =>
          have hq : q ≠ .sym "Internal`Parens" := by
            rintro rfl
            exact h2 rs rfl
          rw [strip_cons hq] at hh
          cases h3 : strip q with
          | none => rw [h3] at hh; simp at hh
          | some k =>
            rw [h3, Option.bind_some] at hh
            cases h4 : stripL rs with
            | none => rw [h4] at hh; simp at hh
            | some ks => rw [h4] at hh; simp at hh
  | .expr [], _, hs => simp [strip, stripParts] at hs
  | .sym _, _, hs => simp [strip] at hs
  | .str _, _, hs => simp [strip] at hs
  | .int _, _, hs => simp [strip] at hs
  | .rat _ _, _, hs => simp [strip] at hs
  | .flt _, _, hs => simp [strip] at hs
  | .cplx _ _, _, hs => simp [strip] at hs

theorem interleave_eq (op : Ex) : ∀ l : List Ex, interleave op l = l.intersperse op
  | [] => rfl
  | [a] => rfl
  | a :: b :: r => by rw [interleave, List.intersperse_cons₂, interleave_eq op (b :: r)]

theorem stripL_interleave (g : String) : ∀ {l l' : List Ex}, stripL l = some l' → stripL (interleave (.sym g) l) = some (interleave (.sym g) l')
  | [], l', h => by simp only [stripL, Option.some.injEq] at h; subst h; rfl
  | [a], l', h => by
    have h0 := h
    simp only [stripL, Option.map_some] at h
    cases ha : strip a with
    | none => rw [ha] at h; simp at h
    | some b => rw [ha] at h; simp only [Option.bind_some, Option.some.injEq] at h; subst h; exact h0
  | a :: b :: r, l', h => by
    rw [stripL] at h
    cases ha : strip a with
    | none => rw [ha] at h; simp at h
    | some a' =>
      rw [ha, Option.bind_some] at h
      cases hr : stripL (b :: r) with
      | none => rw [hr] at h; simp at h
      | some r' =>
        rw [hr] at h
        simp only [Option.map_some, Option.some.injEq] at h
        subst h
        have ih := stripL_interleave g hr
        obtain ⟨b', r'', rfl⟩ : ∃ b' r'', r' = b' :: r'' := by
          rw [stripL] at hr
          cases hb : strip b with
          | none => rw [hb] at hr; simp at hr
          | some b' =>
            rw [hb, Option.bind_some] at hr
            cases hrr : stripL r with
            | none => rw [hrr] at hr; simp at hr
            | some r'' =>
              rw [hrr] at hr
              simp only [Option.map_some, Option.some.injEq] at hr
              exact ⟨b', r'', hr.symm⟩
        simp only [interleave]
        exact stripL_cons_ok ha (stripL_cons_ok rfl ih)

theorem isComparison_mem (g : String) : isComparison g = true ↔ g ∈ comparisonOps.map ("System`" ++ ·) := by
  have h1 : ("System`" ++ "Equal" : String) = "System`Equal" := by decide
  have h2 : ("System`" ++ "Unequal" : String) = "System`Unequal" := by decide
  have h3 : ("System`" ++ "Less" : String) = "System`Less" := by decide
  have h4 : ("System`" ++ "LessEqual" : String) = "System`LessEqual" := by decide
  have h5 : ("System`" ++ "Greater" : String) = "System`Greater" := by decide
  have h6 : ("System`" ++ "GreaterEqual" : String) = "System`GreaterEqual" := by decide
  simp only [comparisonOps, List.map_cons, List.map_nil, h1, h2, h3, h4, h5, h6, isComparison, Bool.or_eq_true, decide_eq_true_eq, List.mem_cons, List.not_mem_nil, or_false]
  tauto

theorem strip_joined {op : String} {x y rx ry : Ex} (hp : PlainHead x) (hx : strip x = some rx) (hy : strip y = some ry) :
    strip (fullyAssoc ("System`" ++ op) x y) = some (joined op rx ry) := by
  have plain : strip (.expr [.sym ("System`" ++ op), x, y]) = some (.expr [S op, rx, ry]) := by
    rw [strip_sym (sys_ne op), stripL_two hx hy]
    rfl
  by_cases hh : ∃ g l, x = .expr (.sym g :: l)
  · obtain ⟨g, l, rfl⟩ := hh
    have hg : g ≠ "Internal`Parens" := by
      have := (hp _ _ rfl).1
      simpa using this
    obtain ⟨l', hl, rfl⟩ := strip_head hg hx rfl
    unfold fullyAssoc joined
    simp only
    have tl : stripL [Ex.sym ("System`" ++ op), y] = some [S op, ry] := stripL_two rfl hy
    by_cases e1 : g = "System`" ++ op
    · have : (isComparison ("System`" ++ op) && (isComparison g || decide (g = "System`Inequality")) && decide ("System`" ++ op ≠ g)) = false := by simp [e1]
      rw [this]
      simp only [e1, if_true, Bool.false_eq_true, if_false]
      rw [List.cons_append, strip_sym (sys_ne op), stripL_append, hl, Option.bind_some]
      simp [stripL, hy]
    · have e2 : ¬ ("System`" ++ op = g) := fun e => e1 e.symm
      by_cases c1 : op ∈ comparisonOps
      · have c1' := (isComparison_sys op).2 c1
        by_cases c2 : g = "System`Inequality"
        · rw [if_pos (by simp [c1', c2]; rw [c2] at e2; exact e2), if_pos c2, if_neg e1, if_pos ⟨c1, c2⟩, List.cons_append, strip_sym hg, stripL_append, hl, Option.bind_some, tl]
          simp
        · by_cases c3 : isComparison g = true
          · rw [if_pos (by simp [c1', c3, e2]), if_neg c2, if_neg e1, if_neg (fun h => c2 h.2), if_pos ⟨c1, (isComparison_mem g).1 c3⟩, List.cons_append, strip_S, stripL_append,
              stripL_interleave g hl, Option.bind_some, tl, interleave_eq]
            simp
          · have c3' : isComparison g = false := by simpa using c3
            rw [if_neg (by simp [c3', c2]), if_neg e1, if_neg e1, if_neg (fun h => c2 h.2), if_neg (fun h => c3 ((isComparison_mem g).2 h.2))]
            exact plain
      · have c1' : isComparison ("System`" ++ op) = false := by
          cases h : isComparison ("System`" ++ op) with
          | false => rfl
          | true => exact absurd ((isComparison_sys op).1 h) c1
        rw [if_neg (by simp [c1']), if_neg e1, if_neg e1, if_neg (fun h => c1 h.1), if_neg (fun h => c1 h.1)]
        exact plain
  · have f1 : fullyAssoc ("System`" ++ op) x y = .expr [.sym ("System`" ++ op), x, y] := by
      unfold fullyAssoc
      split
      · next h args => exact absurd ⟨h, args, rfl⟩ hh
      · rfl
    have f2 : joined op rx ry = .expr [S op, rx, ry] := by
      unfold joined
      split
      · next g l => exact absurd (let ⟨l0, h0⟩ := strip_plain hp hx; ⟨g, l0, h0⟩) hh
      · rfl
    rw [f1, f2]
    exact plain

theorem strip_protected {op : String} {a : PT} {x y rx ry : Ex} (hu : unprotected a = false) (hc : conv a = some x) (hx : strip x = some rx) (hy : strip y = some ry) :
    strip (fullyAssoc ("System`" ++ op) x y) = some (.expr [S op, rx, ry]) := by
  have plain : strip (.expr [.sym ("System`" ++ op), x, y]) = some (.expr [S op, rx, ry]) := by
    rw [strip_sym (sys_ne op), stripL_two hx hy]
    rfl
  have key : (∃ z, x = .expr [.sym "Internal`Parens", z]) ∨ ∃ qs ps, x = .expr (.expr qs :: ps) := by
    have par : ∀ {s : PT} {g : Ex}, conv (.paren s) = some g → ∃ z, g = .expr [.sym "Internal`Parens", z] := by
      intro s g hg
      cases hs : conv s with
      | none => simp [conv, hs] at hg
      | some z =>
        simp only [conv, hs, Option.map_some, Option.some.injEq] at hg
        exact ⟨z, hg.symm⟩
    unfold unprotected at hu
    split at hu
    · exact Or.inl (par hc)
    · next s l =>
      simp only [conv] at hc
      cases hs : conv s with
      | none => simp [hs] at hc
      | some z =>
        simp only [hs, Option.map_some, Option.bind_some] at hc
        cases hl : convL l with
        | none => simp [hl] at hc
        | some zs =>
          simp only [hl, Option.map_some, Option.some.injEq] at hc
          exact Or.inr ⟨_, _, hc.symm⟩
    · next b s =>
      simp only [conv] at hc
      cases hs : conv s with
      | none => simp [hs] at hc
      | some z =>
        simp only [hs, Option.map_some, Option.bind_some] at hc
        cases hl : conv b with
        | none => simp [hl] at hc
        | some zs =>
          simp only [hl, Option.map_some, Option.some.injEq] at hc
          exact Or.inr ⟨_, _, hc.symm⟩
    · next s b =>
      simp only [conv] at hc
      cases hs : conv s with
      | none => simp [hs] at hc
      | some z =>
        simp only [hs, Option.map_some, Option.bind_some] at hc
        cases hl : conv b with
        | none => simp [hl] at hc
        | some zs =>
          simp only [hl, Option.map_some, Option.some.injEq] at hc
          exact Or.inr ⟨_, _, hc.symm⟩
    · simp at hu
  have f1 : fullyAssoc ("System`" ++ op) x y = .expr [.sym ("System`" ++ op), x, y] := by
    rcases key with ⟨z, rfl⟩ | ⟨qs, ps, rfl⟩
    · have h1 : isComparison "Internal`Parens" = false := by decide
      have h2 : ¬ ("Internal`Parens" = "System`" ++ op) := fun e => sys_ne op e.symm
      simp [fullyAssoc, h1, h2]
    · rfl
  rw [f1]
  exact plain

theorem strip_one (n : String) {x a : Ex} (hx : strip x = some a) : strip (.expr [S n, x]) = some (.expr [S n, a]) := by
  rw [strip_S]
  simp [stripL, hx]

theorem strip_two (n : String) {x y a b : Ex} (hx : strip x = some a) (hy : strip y = some b) : strip (.expr [S n, x, y]) = some (.expr [S n, a, b]) := by
  rw [strip_S, stripL_two hx hy]
  rfl

/-- A function and its arguments. -/
theorem strip_call {g rg : Ex} {xs rs : List Ex} (hn : g ≠ .sym "Internal`Parens") (hg : strip g = some rg) (hx : stripL xs = some rs) :
    strip (.expr (g :: xs)) = some (.expr (rg :: rs)) := by
  rw [strip_cons hn, hg, hx]
  rfl

theorem proper_not_sym {t : PT} (h : properTree NoParensName t) {x : Ex} (hx : conv t = some x) : x ≠ .sym "Internal`Parens" := by
  obtain ⟨y, hy, wy⟩ := conv_wf t h
  rw [hx] at hy
  simp only [Option.some.injEq] at hy
  subst hy
  rintro rfl
  cases wy with
  | sym _ h => exact h rfl

theorem strip_assoc {op : String} {a : PT} {x y rx ry : Ex} (h : properTree NoParensName a) (hc : conv a = some x) (hx : strip x = some rx) (hy : strip y = some ry) :
    strip (fullyAssoc ("System`" ++ op) x y) = some (if unprotected a then joined op rx ry else .expr [S op, rx, ry]) := by
  cases hu : unprotected a with
  | true => simpa using strip_joined (plain_of_unprotected h hu hc) hx hy
  | false => simpa using strip_protected hu hc hx hy

mutual
theorem conv_reading : ∀ t : PT, properTree NoParensName t → ∃ x, conv t = some x ∧ strip x = some (reading t)
  | .tok t, h => ⟨tokenConv t, rfl, by rw [reading, tokenMeaning_eq]; exact strip_token h⟩
  | .bin hd a b, h => by
    simp only [properTree] at h
    obtain ⟨y, hy, sy⟩ := conv_reading a h.1
    obtain ⟨z, hz, sz⟩ := conv_reading b h.2
    exact ⟨.expr [S hd, y, z], by simp [conv, hy, hz], by rw [reading]; exact strip_two hd sy sz⟩
  | .assoc hd a b, h => by
    simp only [properTree] at h
    obtain ⟨y, hy, sy⟩ := conv_reading a h.1
    obtain ⟨z, hz, sz⟩ := conv_reading b h.2
    exact ⟨fullyAssoc ("System`" ++ hd) y z, conv_assoc hy hz, by rw [reading]; exact strip_assoc h.1 hy sy sz⟩
  | .un hd a, h => by
    simp only [properTree] at h
    obtain ⟨y, hy, sy⟩ := conv_reading a h
    exact ⟨.expr [S hd, y], by simp [conv, hy], by rw [reading]; exact strip_one hd sy⟩
  | .semi a, h => by
    simp only [properTree] at h
    obtain ⟨y, hy, sy⟩ := conv_reading a h
    have e : ("System`CompoundExpression" : String) = "System`" ++ "CompoundExpression" := by decide
    refine ⟨fullyAssoc "System`CompoundExpression" y (S "Null"), by simp [conv, hy], ?_⟩
    rw [reading, e]
    exact strip_assoc h hy sy rfl
  | .colon a b, h => by
    simp only [properTree] at h
    obtain ⟨y, hy, sy⟩ := conv_reading a h.1
    obtain ⟨z, hz, sz⟩ := conv_reading b h.2
    refine ⟨colonConv y z, by simp [conv, hy, hz], ?_⟩
    rw [reading, colonConv]
    have hh : hasHead "System`Pattern" y = (unprotected a && hasHead "System`Pattern" (reading a)) := by
      cases hu : unprotected a with
      | true =>
        rw [Bool.true_and]
        cases hr : hasHead "System`Pattern" (reading a) with
        | true =>
          unfold hasHead at hr
          split at hr
          · next s l e =>
            rw [e] at sy
            obtain ⟨l0, rfl⟩ := strip_plain (plain_of_unprotected h.1 hu hy) sy
            exact hr
          · simp at hr
        | false =>
          cases hq : hasHead "System`Pattern" y with
          | false => rfl
          | true =>
            unfold hasHead at hq
            split at hq
            · next s l =>
              have hs : s = "System`Pattern" := by simpa using hq
              subst hs
              obtain ⟨l', -, e⟩ := strip_head (by decide) sy rfl
              rw [e] at hr
              simp [hasHead] at hr
            · simp at hq
      | false =>
        rw [Bool.false_and]
        have p1 : strip (fullyAssoc ("System`" ++ "Pattern") y z) = some (.expr [S "Pattern", reading a, reading b]) := strip_protected hu hy sy sz
        cases hq : hasHead "System`Pattern" y with
        | false => rfl
        | true =>
          unfold hasHead at hq
          split at hq
          · next s l =>
            have hs : s = "System`Pattern" := by simpa using hq
            subst hs
            obtain ⟨l', hl, e⟩ := strip_head (by decide) sy rfl
            have e1 : ("System`" ++ "Pattern" : String) = "System`Pattern" := by decide
            rw [e1, fullyAssoc_same, List.cons_append, strip_sym (by decide), stripL_append, hl, e] at p1
            simp only [stripL, sz, Option.bind_some, Option.map_some, Option.some.injEq, Ex.expr.injEq, List.cons.injEq] at p1
            have p2 := p1.2
            have len := congrArg List.length p2
            simp only [List.length_append, List.length_cons, List.length_nil] at len
            match l', len, p2 with
            | [q], _, p2 =>
              simp only [List.cons_append, List.nil_append, List.cons.injEq] at p2
              have := congrArg sizeOf p2.1
              simp at this
              omega
          · simp at hq
    rw [hh]
    split
    · exact strip_two _ sy sz
    · exact strip_two _ sy sz
  | .msg t tag, h => by
    simp only [properTree] at h
    obtain ⟨ht, s, rfl⟩ := h
    refine ⟨.expr [S "MessageName", tokenConv t, .str (redefined s)], rfl, ?_⟩
    rw [reading, tokenMeaning_eq]
    have e : tagMeaning (.ident s) = .str (redefined s) := by
      simp only [tagMeaning, redefined]
      by_cases h1 : s = "π"
      · simp [h1]
      · by_cases h2 : s = "ⅈ"
        · simp [h2]
        · by_cases h3 : s = "ⅉ" <;> simp [h1, h2, h3]
    rw [e]
    exact strip_two _ (strip_token ht) rfl
  | .call f l, h => by
    simp only [properTree] at h
    obtain ⟨y, hy, sy⟩ := conv_reading f h.1
    obtain ⟨ys, hys, sys⟩ := convL_readings l h.2
    exact ⟨.expr (y :: ys), by simp [conv, hy, hys], by rw [reading]; exact strip_call (proper_not_sym h.1 hy) sy sys⟩
  | .list l, h => by
    simp only [properTree] at h
    obtain ⟨ys, hys, sys⟩ := convL_readings l h
    exact ⟨.expr (S "List" :: ys), by simp [conv, hys], by rw [reading, strip_S, sys]; rfl⟩
  | .paren a, h => by
    simp only [properTree] at h
    obtain ⟨y, hy, sy⟩ := conv_reading a h
    exact ⟨.expr [.sym parensName, y], by simp [conv, hy], by rw [reading, ← sy]; exact strip_paren y⟩
  | .part a l, h => by
    simp only [properTree] at h
    obtain ⟨y, hy, sy⟩ := conv_reading a h.1
    obtain ⟨ys, hys, sys⟩ := convL_readings l h.2
    exact ⟨.expr (S "Part" :: y :: ys), by simp [conv, hy, hys], by rw [reading, strip_S, stripL_cons_ok sy sys]; rfl⟩
  | .neg a, h => by
    simp only [properTree] at h
    obtain ⟨y, hy, sy⟩ := conv_reading a h
    refine ⟨negConv y, by simp [conv, hy], ?_⟩
    rw [reading]
    cases hp : inParens a with
    | true =>
      have : ∃ s, a = .paren s := by
        cases a with
        | paren s => exact ⟨s, rfl⟩
        | _ => simp [inParens] at hp
      obtain ⟨s, rfl⟩ := this
      have hy2 := hy
      simp only [conv] at hy2
      cases hs : conv s with
      | none => rw [hs] at hy2; simp at hy2
      | some z =>
        rw [hs] at hy2
        simp only [Option.map_some, Option.some.injEq] at hy2
        subst hy2
        simpa [negConv] using strip_two "Times" sy (b := .int (-1)) (y := .int (-1)) rfl
    | false =>
      have np := not_placeholder h hp hy
      simp only [Bool.false_eq_true, if_false]
      have nonum : ∀ e : Ex, (∀ n, e ≠ .int n) → (∀ v, e ≠ .flt v) → negConv e = .expr [S "Times", e, .int (-1)] ∧ negated e = .expr [S "Times", e, .int (-1)] := by
        intro e h1 h2
        cases e with
        | int n => exact absurd rfl (h1 n)
        | flt v => exact absurd rfl (h2 v)
        | _ => exact ⟨rfl, rfl⟩
      cases y with
      | int n => simp only [strip, Option.some.injEq] at sy; rw [← sy]; rfl
      | flt v => simp only [strip, Option.some.injEq] at sy; rw [← sy]; rfl
      | sym s => simp only [strip, Option.some.injEq] at sy; rw [← sy]; exact strip_two "Times" rfl rfl
      | str s => simp only [strip, Option.some.injEq] at sy; rw [← sy]; exact strip_two "Times" rfl rfl
      | rat n d => simp only [strip, Option.some.injEq] at sy; rw [← sy]; exact strip_two "Times" rfl rfl
      | cplx c d => simp only [strip, Option.some.injEq] at sy; rw [← sy]; exact strip_two "Times" rfl rfl
      | expr ps =>
        have hr : ∃ qs, reading a = .expr qs := by
          match ps, np, sy with
          | [], _, sy => simp only [strip, stripParts, Option.some.injEq] at sy; exact ⟨[], sy.symm⟩
          | q :: rs, np, sy =>
            have hq : q ≠ .sym "Internal`Parens" := by
              rintro rfl
              exact np.2 rs rfl
            rw [strip_cons hq] at sy
            cases h3 : strip q with
            | none => rw [h3] at sy; simp at sy
            | some k =>
              rw [h3, Option.bind_some] at sy
              cases h4 : stripL rs with
              | none => rw [h4] at sy; simp at sy
              | some ks => rw [h4] at sy; simp only [Option.map_some, Option.some.injEq] at sy; exact ⟨_, sy.symm⟩
        obtain ⟨qs, hr⟩ := hr
        rw [hr] at sy ⊢
        rw [(nonum (.expr ps) (by simp) (by simp)).1, (nonum (.expr qs) (by simp) (by simp)).2]
        exact strip_two "Times" sy rfl
  | .div a b, h => by
    simp only [properTree] at h
    obtain ⟨y, hy, sy⟩ := conv_reading a h.1
    obtain ⟨z, hz, sz⟩ := conv_reading b h.2
    exact ⟨.expr [S "Times", y, .expr [S "Power", z, .int (-1)]], by simp [conv, hy, hz], by rw [reading]; exact strip_two _ sy (strip_two _ sz rfl)⟩
  | .sub a b, h => by
    simp only [properTree] at h
    obtain ⟨y, hy, sy⟩ := conv_reading a h.1
    obtain ⟨z, hz, sz⟩ := conv_reading b h.2
    have e : ("System`Plus" : String) = "System`" ++ "Plus" := by decide
    refine ⟨fullyAssoc "System`Plus" y (.expr [S "Times", z, .int (-1)]), by simp [conv, hy, hz], ?_⟩
    rw [reading, e]
    exact strip_assoc h.1 hy sy (strip_two _ sz rfl)
  | .post a f, h => by
    simp only [properTree] at h
    obtain ⟨y, hy, sy⟩ := conv_reading a h.1
    obtain ⟨z, hz, sz⟩ := conv_reading f h.2
    exact ⟨.expr [z, y], by simp [conv, hy, hz], by rw [reading]; exact strip_call (proper_not_sym h.2 hz) sz (by simp [stripL, sy])⟩
  | .pre f a, h => by
    simp only [properTree] at h
    obtain ⟨y, hy, sy⟩ := conv_reading f h.1
    obtain ⟨z, hz, sz⟩ := conv_reading a h.2
    exact ⟨.expr [y, z], by simp [conv, hy, hz], by rw [reading]; exact strip_call (proper_not_sym h.1 hy) sy (by simp [stripL, sz])⟩
  | .apply1 f a, h => by
    simp only [properTree] at h
    obtain ⟨y, hy, sy⟩ := conv_reading f h.1
    obtain ⟨z, hz, sz⟩ := conv_reading a h.2
    refine ⟨.expr [S "Apply", y, z, .expr [S "List", .int 1]], by simp [conv, hy, hz], ?_⟩
    rw [reading, strip_S]
    have : strip (.expr [S "List", .int 1]) = some (.expr [S "List", .int 1]) := strip_one _ rfl
    simp [stripL, sy, sz, this]
  | .tagSet f (.bin hd a b), h => by
    simp only [properTree] at h
    obtain ⟨y, hy, sy⟩ := conv_reading a h.2.2.1
    obtain ⟨z, hz, sz⟩ := conv_reading b h.2.2.2
    obtain ⟨g, hg, sg⟩ := conv_reading f h.1
    refine ⟨.expr [S (if hd = "SetDelayed" then "TagSetDelayed" else "TagSet"), g, y, z], ?_, ?_⟩
    · have hh : hasHead "System`SetDelayed" (.expr [S hd]) = decide (hd = "SetDelayed") := by
        rcases h.2.1 with rfl | rfl <;> decide
      simp only [conv, hy, hz, hg, Option.bind_some, Option.map_some, tagSetConv, hh]
      simp
    · rw [reading, strip_S]
      simp [stripL, sy, sz, sg]
  | .deriv f, h => by
    simp only [properTree] at h
    obtain ⟨y, hy, sy⟩ := conv_reading f h
    refine ⟨.expr [.expr [S "Derivative", .int 1], y], by simp [conv, hy], ?_⟩
    rw [reading]
    exact strip_call (by simp) (strip_one _ rfl) (by simp [stripL, sy])
  | .sqrt a, h => by
    simp only [properTree] at h
    obtain ⟨y, hy, sy⟩ := conv_reading a h
    exact ⟨.expr [S "Sqrt", y], by simp [conv, hy], by rw [reading]; exact strip_one _ sy⟩
  | .info tag, h => by
    simp only [properTree] at h
    exact ⟨.expr [S "Information", tokenConv tag], rfl, by rw [reading, tokenMeaning_eq]; exact strip_one _ (strip_token h)⟩
  | .infoShort tag, h => by
    simp only [properTree] at h
    refine ⟨.expr [S "Information", tokenConv tag, .expr [S "Rule", S "LongForm", S "False"]], rfl, ?_⟩
    rw [reading, tokenMeaning_eq]
    exact strip_two _ (strip_token h) (strip_two _ rfl rfl)
  | .out n, _ => ⟨.expr [S "Out", .expr [S "Plus", S "$Line", .int (-n)]], rfl, by rw [reading]; exact strip_one _ (strip_two _ rfl rfl)⟩
  | .tagSet _ (.tok _), h | .tagSet _ (.assoc _ _ _), h | .tagSet _ (.un _ _), h | .tagSet _ (.semi _), h | .tagSet _ (.colon _ _), h
  | .tagSet _ (.msg _ _), h | .tagSet _ (.call _ _), h | .tagSet _ (.list _), h | .tagSet _ (.paren _), h | .tagSet _ (.part _ _), h
  | .tagSet _ (.neg _), h | .tagSet _ (.div _ _), h | .tagSet _ (.sub _ _), h | .tagSet _ (.post _ _), h | .tagSet _ (.pre _ _), h
  | .tagSet _ (.apply1 _ _), h | .tagSet _ (.tagSet _ _), h | .tagSet _ (.deriv _), h | .tagSet _ (.sqrt _), h | .tagSet _ (.info _), h
  | .tagSet _ (.infoShort _), h | .tagSet _ (.out _), h => by exact absurd h (by simp [properTree])
theorem convL_readings : ∀ ts : List PT, properTreeL NoParensName ts → ∃ xs, convL ts = some xs ∧ stripL xs = some (readings ts)
  | [], _ => ⟨[], rfl, rfl⟩
  | t :: ts, h => by
    simp only [properTreeL] at h
    obtain ⟨x, hx, sx⟩ := conv_reading t h.1
    obtain ⟨xs, hxs, sxs⟩ := convL_readings ts h.2
    exact ⟨x :: xs, by simp [convL, hx, hxs], by rw [readings]; exact stripL_cons_ok sx sxs⟩
end

/-- **The parser reads every text as specified**: for all parse trees the result is the one that the specification gives without any placeholder for parentheses. -/
theorem C47_reading {t : PT} (h : properTree NoParensName t) : parsed t = some (reading t) := by
  obtain ⟨x, hx, sx⟩ := conv_reading t h
  rw [parsed, hx]
  exact sx

/-- The hypotheses are met by `f /: g[x_] := -(x - 1)` and by `(Plus)[a] + b`. -/
example : properTree NoParensName (.tagSet (.tok (.ident "f")) (.bin "SetDelayed" (.call (.tok (.ident "g")) [.tok (.pat "x_")]) (.neg (.paren (.sub (.tok (.ident "x")) (.tok (.int 1))))))) ∧
    parsed (.tagSet (.tok (.ident "f")) (.bin "SetDelayed" (.call (.tok (.ident "g")) [.tok (.pat "x_")]) (.neg (.paren (.sub (.tok (.ident "x")) (.tok (.int 1))))))) =
      some (.expr [S "TagSetDelayed", .sym "f", .expr [.sym "g", .expr [S "Pattern", .sym "x", .expr [S "Blank"]]],
        .expr [S "Times", .expr [S "Plus", .sym "x", .expr [S "Times", .int 1, .int (-1)]], .int (-1)]]) := by
  have hp : parsePattern "x_" = .expr [S "Pattern", .sym "x", .expr [S "Blank"]] := by decide +kernel
  constructor
  · simp only [properTree, properTreeL, NoParensName, tokenConv, redefined, hp, allSyms, allSymsL, S]
    decide
  · decide +kernel

end Expreduce
