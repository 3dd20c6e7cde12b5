import Verif.Spec.Parser
import Verif.Props.Match

/-! Property C48: contexts of symbols. -/

namespace Expreduce
open Ex

theorem isDef_markSeen (st : DState) (x y : String) : isDef (markSeen st x) y = (isDef st y || decide (y = x)) := by
  unfold markSeen isDef
  cases h : st.defs x with
  | none =>
    simp only [Table.set]
    by_cases hy : y = x <;> simp [hy]
  | some d =>
    simp only
    by_cases hy : y = x
    · subst hy; simp [h]
    · simp [hy]

theorem markSeen_of_isDef {st : DState} {x : String} (h : isDef st x = true) : markSeen st x = st := by
  unfold markSeen
  unfold isDef at h
  cases hx : st.defs x with
  | none => rw [hx] at h; simp at h
  | some d => rfl

theorem meantBy_eq (context : String) (path : List String) (st : DState) (n : String) :
    meantBy context path st n = match path.find? (fun p => isDef st (p ++ n)) with | some p => p ++ n | none => context ++ n := rfl

/-- A name together with a context can be taken apart. -/
theorem context_split {c d m n : String} (hc : ContextName c) (hd : ContextName d) (hm : ShortName m) (hn : ShortName n) (h : c ++ m = d ++ n) : c = d ∧ m = n := by
  obtain ⟨l, hl⟩ := hc
  obtain ⟨l', hl'⟩ := hd
  have h1 := congrArg String.toList h
  rw [String.toList_append, String.toList_append, hl, hl'] at h1
  simp only [List.append_assoc, List.cons_append, List.nil_append] at h1
  have key : ∀ (x y x' y' : List Char), '`' ∉ y → '`' ∉ y' → x ++ '`' :: y = x' ++ '`' :: y' → x = x' ∧ y = y' := by
    intro x y x' y' hy hy' e
    have e' := congrArg List.reverse e
    simp only [List.reverse_append, List.reverse_cons, List.append_assoc, List.cons_append, List.nil_append] at e'
    have t : ∀ (u v : List Char), '`' ∉ u → (u.reverse ++ '`' :: v).takeWhile (· != '`') = u.reverse := by
      intro u v hu
      rw [List.takeWhile_append_of_pos, List.takeWhile_cons]
      · simp
      · intro z hz
        have : z ∈ u := List.mem_reverse.1 hz
        simp only [bne_iff_ne, ne_eq]
        rintro rfl
        exact hu this
    have hy2 : y = y' := by
      have := t y x.reverse hy
      rw [e', t y' x'.reverse hy'] at this
      exact List.reverse_injective this.symm
    subst hy2
    exact ⟨List.append_cancel_right e, rfl⟩
  obtain ⟨h2, h3⟩ := key _ _ _ _ hm hn h1
  exact ⟨String.toList_inj.1 (by rw [hl, hl', h2]), String.toList_inj.1 h3⟩

theorem not_short (c n : String) (hc : ContextName c) : ¬ ShortName (c ++ n) := by
  obtain ⟨l, hl⟩ := hc
  unfold ShortName
  rw [String.toList_append, hl]
  simp

/-- C48: the name of a symbol is resolved as described: a name with a context stays, a short name becomes the one it stands for. The name resolved to is known afterwards,
and nothing else changes for other names. -/
theorem C48_name (context : String) (path : List String) (st : DState) (n : String) :
    (resolveName context path st n).2 = (if '`' ∈ n.toList then n else meantBy context path st n) ∧
    ∀ x, isDef (resolveName context path st n).1 x = (isDef st x || decide (x = (resolveName context path st n).2)) := by
  unfold resolveName
  by_cases h : '`' ∈ n.toList
  · simp only [h, if_true, true_and]
    exact isDef_markSeen st n
  · simp only [h, if_false, meantBy_eq]
    cases hf : path.find? (fun p => isDef st (p ++ n)) with
    | none => exact ⟨rfl, isDef_markSeen st _⟩
    | some p =>
      refine ⟨rfl, ?_⟩
      intro x
      have hp : isDef st (p ++ n) = true := by simpa using List.find?_some hf
      by_cases hx : x = p ++ n
      · subst hx; simp [hp]
      · simp [hx]

theorem resolve_mono (context : String) (path : List String) : ∀ e st x, isDef st x = true → isDef (resolve context path st e).1 x = true := by
  intro e
  induction e using Ex.ind with
  | hsym s =>
    intro st x h
    have := (C48_name context path st s).2 x
    simp only [resolve]
    rw [this, h]; rfl
  | hexpr ps ih =>
    intro st x h
    simp only [resolve]
    induction ps generalizing st with
    | nil => simpa [resolveL] using h
    | cons p ps ihl =>
      simp only [resolveL]
      exact ihl (fun q hq => ih q (List.mem_cons_of_mem _ hq)) _ (ih p List.mem_cons_self st x h)
  | _ => intros; simpa [resolve]

theorem resolveL_mono (context : String) (path : List String) (ps : List Ex) (st : DState) (x : String) (h : isDef st x = true) :
    isDef (resolveL context path st ps).1 x = true := by
  have := resolve_mono context path (.expr ps) st x h
  simpa [resolve] using this

theorem allSyms_mono {P Q : String → Prop} (h : ∀ s, P s → Q s) : ∀ e, allSyms P e → allSyms Q e := by
  intro e
  induction e using Ex.ind with
  | hsym s => exact h s
  | hexpr ps ih =>
    intro hp
    simp only [allSyms] at hp ⊢
    induction ps with
    | nil => trivial
    | cons p ps ihl =>
      simp only [allSymsL] at hp ⊢
      exact ⟨ih p List.mem_cons_self hp.1, ihl (fun q hq => ih q (List.mem_cons_of_mem _ hq)) hp.2⟩
  | _ => intro _; simp [allSyms]

/-- The symbols of the result are known, and carry a context. -/
theorem resolve_done (context : String) (path : List String) (hc : ContextName context) (hp : ∀ p ∈ path, ContextName p) : ∀ e st,
    allSyms (fun s => isDef (resolve context path st e).1 s = true ∧ ¬ ShortName s) (resolve context path st e).2 := by
  intro e
  induction e using Ex.ind with
  | hsym s =>
    intro st
    simp only [resolve, allSyms]
    constructor
    · have := (C48_name context path st s).2 (resolveName context path st s).2
      rw [this]; simp
    · rw [(C48_name context path st s).1]
      split
      · next h => exact fun hs => hs h
      · rw [meantBy_eq]
        cases hf : path.find? (fun p => isDef st (p ++ s)) with
        | none => exact not_short _ _ hc
        | some p => exact not_short _ _ (hp p (List.mem_of_find?_eq_some hf))
  | hexpr ps ih =>
    intro st
    simp only [resolve, allSyms]
    have : ∀ st0, (∀ x, isDef (resolveL context path st ps).1 x = true → isDef st0 x = true) →
        allSymsL (fun s => isDef st0 s = true ∧ ¬ ShortName s) (resolveL context path st ps).2 := by
      intro st0 h0
      induction ps generalizing st with
      | nil => simp [resolveL, allSymsL]
      | cons p ps ihl =>
        simp only [resolveL, allSymsL] at h0 ⊢
        refine ⟨allSyms_mono ?_ _ (ih p List.mem_cons_self st), ihl (fun q hq => ih q (List.mem_cons_of_mem _ hq)) _ h0⟩
        rintro s ⟨h1, h2⟩
        exact ⟨h0 s (resolveL_mono _ _ _ _ _ h1), h2⟩
    exact this _ (fun x h => h)
  | _ => intro st; simp [resolve, allSyms]

theorem resolve_fixed (context : String) (path : List String) (st : DState) : ∀ e, allSyms (fun s => isDef st s = true ∧ ¬ ShortName s) e →
    resolve context path st e = (st, e) := by
  intro e
  induction e using Ex.ind with
  | hsym s =>
    intro h
    simp only [allSyms] at h
    have hs : '`' ∈ s.toList := by
      have := h.2
      unfold ShortName at this
      simpa using this
    simp only [resolve, resolveName, hs, if_true, markSeen_of_isDef h.1]
  | hexpr ps ih =>
    intro h
    simp only [allSyms] at h
    have : resolveL context path st ps = (st, ps) := by
      induction ps with
      | nil => rfl
      | cons p ps ihl =>
        simp only [allSymsL] at h
        have h1 := ih p List.mem_cons_self h.1
        have h2 := ihl (fun q hq => ih q (List.mem_cons_of_mem _ hq)) h.2
        simp only [resolveL, h1, h2]
    simp only [resolve, this]
  | _ => intro _; rfl

/-- C48: after resolving, every symbol of the expression carries a context and is known, and resolving again changes neither the expression nor the state. -/
theorem C48_idempotent (context : String) (path : List String) (hc : ContextName context) (hp : ∀ p ∈ path, ContextName p) (st : DState) (e : Ex) :
    allSyms (fun s => isDef (resolve context path st e).1 s = true ∧ ¬ ShortName s) (resolve context path st e).2 ∧
    resolve context path (resolve context path st e).1 (resolve context path st e).2 = resolve context path st e := by
  have h := resolve_done context path hc hp e st
  exact ⟨h, resolve_fixed context path _ _ h⟩

/-- The state `st` knows what `st0` knows, some names that stood for themselves in the current context, and names outside the path. -/
def Grown (context : String) (path : List String) (st0 st : DState) : Prop :=
  (∀ x, isDef st0 x = true → isDef st x = true) ∧
  ∀ x, isDef st x = true → isDef st0 x = true ∨ (∃ n, ShortName n ∧ x = context ++ n ∧ path.find? (fun p => isDef st0 (p ++ n)) = none) ∨
    ∀ p ∈ path, ∀ n, x ≠ p ++ n

theorem find?_same {α : Type} {f g : α → Bool} : ∀ {l : List α}, (∀ a ∈ l, f a = g a) → l.find? f = l.find? g
  | [], _ => rfl
  | a :: l, h => by
    rw [List.find?_cons, List.find?_cons, h a List.mem_cons_self, find?_same (fun b hb => h b (List.mem_cons_of_mem _ hb))]

theorem grown_meantBy {context : String} {path : List String} (hc : ContextName context) (hp : ∀ p ∈ path, ContextName p) {st0 st : DState}
    (hg : Grown context path st0 st) {n : String} (hn : ShortName n) : meantBy context path st n = meantBy context path st0 n := by
  rw [meantBy_eq, meantBy_eq]
  have old : ∀ p ∈ path, isDef st (p ++ n) = true → isDef st0 (p ++ n) = true ∨ (p = context ∧ path.find? (fun p => isDef st0 (p ++ n)) = none) := by
    intro p hpm h
    rcases hg.2 _ h with h | ⟨m, hm, he, hf⟩ | h
    rotate_left 2
    · exact absurd rfl (h p hpm n)
    · exact Or.inl h
    · obtain ⟨e1, e2⟩ := context_split (hp p hpm) hc hn hm he
      subst e2
      exact Or.inr ⟨e1, hf⟩
  cases hf : path.find? (fun p => isDef st0 (p ++ n)) with
  | none =>
    cases hf' : path.find? (fun p => isDef st (p ++ n)) with
    | none => rfl
    | some q =>
      have h1 : isDef st (q ++ n) = true := by simpa using List.find?_some hf'
      have hq := List.mem_of_find?_eq_some hf'
      rcases old q hq h1 with h2 | ⟨h2, -⟩
      · have := List.find?_eq_none.1 hf q hq
        exact absurd h2 this
      · simp only [h2]
  | some p =>
    have e : path.find? (fun p => isDef st (p ++ n)) = path.find? (fun p => isDef st0 (p ++ n)) := by
      apply find?_same
      intro q hq
      by_cases h : isDef st0 (q ++ n) = true
      · rw [h, hg.1 _ h]
      · have : isDef st (q ++ n) ≠ true := by
          intro h'
          rcases old q hq h' with h2 | ⟨-, h2⟩
          · exact h h2
          · rw [hf] at h2; simp at h2
        simp only [Bool.not_eq_true] at h this
        rw [h, this]
    rw [e, hf]

theorem grown_step {context : String} {path : List String} (hc : ContextName context) (hp : ∀ p ∈ path, ContextName p) {st0 st : DState}
    (hg : Grown context path st0 st) {n : String} (hn : ShortName n) : Grown context path st0 (resolveName context path st n).1 := by
  have hname := C48_name context path st n
  have hns : '`' ∉ n.toList := hn
  rw [if_neg hns] at hname
  refine ⟨fun x hx => by rw [hname.2 x, hg.1 x hx]; rfl, ?_⟩
  intro x hx
  rw [hname.2 x, Bool.or_eq_true, decide_eq_true_eq, hname.1, grown_meantBy hc hp hg hn] at hx
  rcases hx with hx | hx
  · exact hg.2 x hx
  · rw [meantBy_eq] at hx
    cases hf : path.find? (fun p => isDef st0 (p ++ n)) with
    | none => rw [hf] at hx; exact Or.inr (Or.inl ⟨n, hn, hx, hf⟩)
    | some p =>
      rw [hf] at hx
      refine Or.inl ?_
      rw [hx]
      simpa using List.find?_some hf

theorem resolve_uniform {context : String} {path : List String} (hc : ContextName context) (hp : ∀ p ∈ path, ContextName p) (st0 : DState) : ∀ e st,
    allSyms ShortName e → Grown context path st0 st → (resolve context path st e).2 = subst (fun n => some (.sym (meantBy context path st0 n))) e ∧
      Grown context path st0 (resolve context path st e).1 := by
  intro e
  induction e using Ex.ind with
  | hsym s =>
    intro st hs hg
    simp only [allSyms] at hs
    have hns : '`' ∉ s.toList := hs
    simp only [resolve, subst]
    refine ⟨?_, grown_step hc hp hg hs⟩
    rw [(C48_name context path st s).1, if_neg hns, grown_meantBy hc hp hg hs]
  | hexpr ps ih =>
    intro st hs hg
    simp only [allSyms] at hs
    simp only [resolve, subst, Ex.expr.injEq]
    induction ps generalizing st with
    | nil => exact ⟨rfl, hg⟩
    | cons p ps ihl =>
      simp only [allSymsL] at hs
      simp only [resolveL, substL]
      have h1 := ih p List.mem_cons_self st hs.1 hg
      have h2 := ihl (fun q hq => ih q (List.mem_cons_of_mem _ hq)) _ hs.2 h1.2
      exact ⟨by rw [h1.1, h2.1], h2.2⟩
  | _ => intro st _ hg; exact ⟨rfl, hg⟩

/-- C48: in an expression without explicit contexts every occurrence of a name is resolved alike, to what the name stands for in the state before; nothing but the symbols
changes. Resolving the same expression again afterwards gives the same result. -/
theorem C48_uniform (context : String) (path : List String) (hc : ContextName context) (hp : ∀ p ∈ path, ContextName p) (st : DState) (e : Ex)
    (he : allSyms ShortName e) :
    (resolve context path st e).2 = subst (fun n => some (.sym (meantBy context path st n))) e ∧
    (resolve context path (resolve context path st e).1 e).2 = (resolve context path st e).2 := by
  have g0 : Grown context path st st := ⟨fun _ h => h, fun _ h => Or.inl h⟩
  have h1 := resolve_uniform hc hp st e st he g0
  exact ⟨h1.1, by rw [h1.1, (resolve_uniform hc hp st e _ he h1.2).1]⟩

/-- C48: what resolving does in general (also with explicit contexts): only names change, names with a context stay, and a short name gets a context of the path or the
current one. -/
theorem C48_shape (context : String) (path : List String) : ∀ (e : Ex) (st : DState),
    sameUpTo (fun n m => if '`' ∈ n.toList then m = n else ∃ c ∈ context :: path, m = c ++ n) e (resolve context path st e).2 := by
  intro e
  induction e using Ex.ind with
  | hsym s =>
    intro st
    simp only [resolve, sameUpTo]
    have := (C48_name context path st s).1
    split
    · next h => rw [this, if_pos h]
    · next h =>
      rw [this, if_neg h, meantBy_eq]
      cases hf : path.find? (fun p => isDef st (p ++ s)) with
      | none => exact ⟨context, by simp, rfl⟩
      | some p => exact ⟨p, by simp [List.mem_of_find?_eq_some hf], rfl⟩
  | hexpr ps ih =>
    intro st
    simp only [resolve, sameUpTo]
    induction ps generalizing st with
    | nil => simp [resolveL, sameUpToL]
    | cons p ps ihl =>
      simp only [resolveL, sameUpToL]
      exact ⟨ih p List.mem_cons_self st, ihl (fun q hq => ih q (List.mem_cons_of_mem _ hq)) _⟩
  | _ => intro st; simp [resolve, sameUpTo]

/-- The state where only `x` is known. -/
def onlyKnows (x : String) : DState := { defs := fun n => if n = x then some {} else none }

/-- C48 is not uniform when an explicit context occurs: in ``{z, P`z, z}`` with ``P` `` on the path the first `z` is resolved to ``Global`z`` and the last to ``P`z``. -/
theorem C48_not_uniform : (resolve "Global`" ["P`", "Global`"] (onlyKnows "System`List") (.expr [.sym "System`List", .sym "z", .sym "P`z", .sym "z"])).2 =
    .expr [.sym "System`List", .sym "Global`z", .sym "P`z", .sym "P`z"] := by decide +kernel

example : ContextName "Global`" ∧ allSyms ShortName (.expr [.sym "f", .sym "x", .int 3]) :=
  ⟨⟨"Global".toList, by decide⟩, by simp only [allSyms, allSymsL]; decide⟩

end Expreduce
