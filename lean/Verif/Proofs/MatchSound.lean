import Verif.Proofs.Match
import Verif.Proofs.AssnMem

/-! Soundness of the matcher. -/

namespace Expreduce
open Ex

/-! ### The enumeration of assignments -/

/-- `assignments` is what the iterator of `allocations.go` shows. -/
theorem assignments_collect (l : Nat) (forms : List ParsedForm) (fm : List (List Bool)) (ordl : Bool) (out)
    (hfm : fm.length = forms.length) (h : assignments l forms fm ordl = some out) :
    ∃ n, ∀ m ≥ n, (newAssnIter l forms fm ordl).collect m = some out := by
  unfold assignments at h
  split at h
  · simp at h
  · rename_i hneg
    have hs : ∀ f ∈ forms, 0 ≤ f.startI := by
      intro f hf
      by_contra hc
      exact hneg (List.any_eq_true.2 ⟨f, hf, by simpa using hc⟩)
    cases ordl with
    | true =>
      simp only [if_true] at h
      split at h
      · simp at h
      · rename_i hne
        simp only [Option.some.injEq] at h
        subst h
        have hall : ∀ a ∈ completions forms l, (a.map Int.toNat).sum = l ∧ a.length ≤ fm.length := by
          intro a ha
          by_cases hf : forms = []
          · subst hf
            have hl : l = 0 := by simpa using hne
            subst hl
            simp [completions] at ha
            subst ha; simp
          · obtain ⟨h1, h2⟩ := (mem_completions forms l a hf hs).1 ha
            obtain ⟨_, h3, h4⟩ := alloc_toNat hs h1
            exact ⟨by omega, by omega⟩
        have hruns := aRuns_orderless l fm (completions forms l) (newAssnIter l forms fm true) (newAllocIter l forms)
          ⟨by simp [newAssnIter], by simp [newAssnIter], rfl, rfl, rfl, rfl, rfl, rfl⟩ (allocRuns_new l forms) hall
        obtain ⟨n, hn⟩ := hruns.collect
        exact ⟨n, fun m hm => AssnIter.collect_mono hm hn⟩
    | false =>
      simp only [Bool.false_eq_true, if_false, Option.some.injEq] at h
      subst h
      obtain ⟨n, hn⟩ := (aRuns_ordered l (completions forms l) (newAssnIter l forms fm false) rfl rfl rfl (allocRuns_new l forms)).collect
      exact ⟨n, fun m hm => AssnIter.collect_mono hm hn⟩

theorem forall₂_get {α β : Type} {R : α → β → Prop} {xs : List α} {ys : List β} (h : List.Forall₂ R xs ys) :
    ∀ {j : Nat} {x y}, xs[j]? = some x → ys[j]? = some y → R x y := by
  induction h with
  | nil => intro j x y h; simp at h
  | cons h _ ih =>
    intro j x y hx hy
    cases j with
    | zero => simp at hx hy; subst hx; subst hy; exact h
    | succ j => simp at hx hy; exact ih hx hy

theorem assignments_mem {l : Nat} {forms : List ParsedForm} {fm : List (List Bool)} {ordl : Bool} {out} (hne : forms ≠ [])
    (h : assignments l forms fm ordl = some out) (A : List (List Nat)) :
    A ∈ out ↔ List.Forall₂ (fun (f : ParsedForm) (b : List Nat) => f.startI ≤ (b.length : Int) ∧ (b.length : Int) ≤ f.endI) forms A ∧
      Layout ordl l A ∧ (ordl = true → ∀ (j : Nat) b, A[j]? = some b → ∀ x ∈ b, (fm[j]?.getD [])[x]?.getD false = true) := by
  unfold assignments at h
  split at h
  · simp at h
  · rename_i hneg
    have hs : ∀ f ∈ forms, 0 ≤ f.startI := by
      intro f hf
      by_contra hc
      exact hneg (List.any_eq_true.2 ⟨f, hf, by simpa using hc⟩)
    cases ordl with
    | true =>
      simp only [if_true] at h
      rw [if_neg (by simp [hne])] at h
      simp only [Option.some.injEq] at h
      subst h
      rw [mem_assnOrderless forms fm l hne hs]
      unfold IsAssignment Layout
      simp only [if_true]
      constructor
      · rintro ⟨h1, h2, h3⟩
        refine ⟨h1, ⟨h2, ?_⟩, fun _ j b hb => (h3 j b hb).2⟩
        intro b hb
        obtain ⟨j, hj⟩ := List.mem_iff_getElem?.1 hb
        exact (h3 j b hj).1
      · rintro ⟨h1, ⟨h2, h3⟩, h4⟩
        exact ⟨h1, h2, fun j b hb => ⟨h3 b (List.mem_of_getElem? hb), h4 trivial j b hb⟩⟩
    | false =>
      simp only [Bool.false_eq_true, if_false, Option.some.injEq] at h
      subst h
      rw [mem_ordered forms l hne hs]
      simp [Layout, and_comm]

/-! ### Collecting -/

theorem mapO_forall₂ {α β : Type} {f : α → Option β} : ∀ {xs : List α} {ys : List β}, mapO f xs = some ys →
    List.Forall₂ (fun x y => f x = some y) xs ys
  | [], ys, h => by simp [mapO] at h; subst h; exact .nil
  | x :: xs, ys, h => by
    rw [mapO] at h
    split at h
    · rename_i y ys' h1 h2
      simp only [Option.some.injEq] at h
      subst h
      exact .cons h1 (mapO_forall₂ h2)
    · simp at h

theorem bindO_mem {α β : Type} {f : α → Option (List β)} {xs : List α} {ys : List β} (h : bindO f xs = some ys) :
    ∀ y ∈ ys, ∃ x ∈ xs, ∃ zs, f x = some zs ∧ y ∈ zs := by
  unfold bindO at h
  rw [Option.map_eq_some_iff] at h
  obtain ⟨zss, h1, rfl⟩ := h
  intro y hy
  have h2 := mapO_forall₂ h1
  clear h1
  induction h2 with
  | nil => simp at hy
  | @cons x zs xs zss h3 _ ih =>
    simp only [List.flatten_cons, List.mem_append] at hy
    rcases hy with hy | hy
    · exact ⟨x, by simp, zs, h3, hy⟩
    · obtain ⟨x', hx', r⟩ := ih hy
      exact ⟨x', by simp [hx'], r⟩

/-! ### Soundness -/

/-- A result is a match: a nil result under every binding, the others under their own. -/
def ResOk (env : MEnv) (pm : PM) (r : Option PM) (b a : Ex) : Prop :=
  match r with
  | none => ∀ ρ, Matches env ρ b a
  | some q => Kept pm q.get ∧ Matches env q.get b a

theorem ResOk.eff {env : MEnv} [env.Exact] {pm r b a} {pm' : PM} (h : ResOk env pm r b a) (hb : EPat b) (hk : Kept pm pm'.get) (ha : noReal a = true) :
    Kept pm (pm'.updateO r).get ∧ Matches env (pm'.updateO r).get b a := by
  cases r with
  | none => exact ⟨hk, h _⟩
  | some q => exact ⟨h.1.trans (kept_update_right pm' q), h.2.kept (kept_update_right pm' q) hb ha⟩

/-- Soundness of the recursive call. -/
def SoundRec (env : MEnv) (rec : MatchRec) : Prop := ∀ a b pm rs pm', noReal a = true → EPat b → rec a b pm = some (rs, pm') →
  Kept pm pm'.get ∧ ∀ r ∈ rs, ResOk env pm r b a

theorem amiElems_sound {env : MEnv} [env.Exact] {rec} (hrec : SoundRec env rec) {form : Ex} (hf : EPat form) : ∀ (xs : List Ex) (pm : PM) (out : List PM),
    (∀ x ∈ xs, noReal x = true) → amiElems rec form xs pm = some out →
    ∀ q ∈ out, Kept pm q.get ∧ ∀ x ∈ xs, Matches env q.get form x
  | [], pm, out, _, h, q, hq => by
    simp only [amiElems, Option.some.injEq] at h
    subst h
    simp at hq; subst hq
    exact ⟨Kept.refl _, by simp⟩
  | x :: xs, pm, out, hx, h, q, hq => by
    rw [amiElems] at h
    split at h
    · simp at h
    · rename_i rs pm' hr
      obtain ⟨r, hrm, zs, h1, h2⟩ := bindO_mem h q hq
      obtain ⟨k1, k2⟩ := hrec x form pm rs pm' (hx x (by simp)) hf hr
      obtain ⟨k3, k4⟩ := (k2 r hrm).eff hf k1 (hx x (by simp))
      obtain ⟨k5, k6⟩ := amiElems_sound hrec hf xs _ zs (fun y hy => hx y (by simp [hy])) h1 q h2
      refine ⟨k3.trans k5, ?_⟩
      intro y hy
      rcases List.mem_cons.1 hy with rfl | hy
      · exact k4.kept k5 hf (hx _ (by simp))
      · exact k6 y hy

theorem defineSequence_sound {env sh f seq} {q q' : PM} (hv : notFlt (attemptDefine env sh f seq) = true)
    (h : defineSequence env sh f seq q = some q') : Kept q q'.get ∧ ∀ x, f.patSym = some x →
      ∃ v, q'.get x = some v ∧ hash v = hash (attemptDefine env sh f seq) := by
  unfold defineSequence at h
  split at h
  · rename_i hp
    simp only [Option.some.injEq] at h; subst h
    exact ⟨Kept.refl _, by simp [hp]⟩
  · rename_i x hp
    split at h
    · rename_i hg
      simp only [Option.some.injEq] at h; subst h
      refine ⟨?_, ?_⟩
      · intro y v hy
        refine ⟨v, ?_, rfl⟩
        rw [PM.get_set, if_neg]
        · exact hy
        · rintro rfl; rw [hg] at hy; simp at hy
      · intro y hy
        rw [hp] at hy; simp only [Option.some.injEq] at hy; subst hy
        exact ⟨_, by rw [PM.get_set, if_pos rfl], rfl⟩
    · rename_i v hg
      split at h
      · rename_i hsame
        simp only [Option.some.injEq] at h; subst h
        rw [isSameQ_notFlt hv] at hsame
        refine ⟨?_, ?_⟩
        · intro y w hy
          rw [PM.get_set]
          by_cases hyx : y = x
          · subst hyx
            rw [hg] at hy; simp only [Option.some.injEq] at hy; subst hy
            exact ⟨_, by rw [if_pos rfl], hsame⟩
          · exact ⟨w, by rw [if_neg hyx]; exact hy, rfl⟩
        · intro y hy
          rw [hp] at hy; simp only [Option.some.injEq] at hy; subst hy
          exact ⟨_, by rw [PM.get_set, if_pos rfl], rfl⟩
      · simp at h

theorem amiRun_sound {env : MEnv} [env.Exact] {rec sh} (hrec : SoundRec env rec) : ∀ (forms : List ParsedForm) (segs : List (List Ex)) (pm : PM) (out : List PM),
    (∀ f ∈ forms, EPat f.form) → (∀ seg ∈ segs, ∀ x ∈ seg, noReal x = true) →
    (∀ f ∈ forms, ∀ seg ∈ segs, notFlt (attemptDefine env sh f seg) = true) →
    amiRun env rec sh forms segs pm = some out →
    ∀ q ∈ out, Kept pm q.get ∧ ∀ (j : Nat) f seg, forms[j]? = some f → segs[j]? = some seg →
      (∀ x ∈ seg, Matches env q.get f.form x) ∧
      ∀ x, f.patSym = some x → ∃ v, q.get x = some v ∧ hash v = hash (attemptDefine env sh f seg)
  | [], segs, pm, out, _, _, _, h, q, hq => by
    simp only [amiRun, Option.some.injEq] at h
    subst h
    simp at hq; subst hq
    exact ⟨Kept.refl _, by simp⟩
  | f :: fs, [], pm, out, _, _, _, h, q, hq => by
    simp only [amiRun, Option.some.injEq] at h
    subst h
    simp at hq; subst hq
    exact ⟨Kept.refl _, by simp⟩
  | f :: fs, seg :: segs, pm, out, hf, hx, hv, h, q, hq => by
    rw [amiRun] at h
    split at h
    · simp at h
    · rename_i pms hp
      obtain ⟨p1, hp1, zs, h1, h2⟩ := bindO_mem h q hq
      obtain ⟨k1, k2⟩ := amiElems_sound hrec (hf f (by simp)) seg pm pms (hx seg (by simp)) hp p1 hp1
      split at h1
      · simp only [Option.some.injEq] at h1; subst h1; simp at h2
      · rename_i q' hd
        obtain ⟨k3, k4⟩ := defineSequence_sound (hv f (by simp) seg (by simp)) hd
        obtain ⟨k5, k6⟩ := amiRun_sound hrec fs segs q' zs (fun g hg => hf g (by simp [hg])) (fun g hg => hx g (by simp [hg]))
          (fun g hg s hs => hv g (by simp [hg]) s (by simp [hs])) h1 q h2
        refine ⟨(k1.trans k3).trans k5, ?_⟩
        intro j g s hj hs
        cases j with
        | zero =>
          simp at hj hs; subst hj; subst hs
          refine ⟨fun x hxs => (k2 x hxs).kept (k3.trans k5) (hf _ (by simp)) (hx _ (by simp) x hxs), ?_⟩
          intro x hxp
          obtain ⟨v, hv1, hv2⟩ := k4 x hxp
          obtain ⟨w, hw1, hw2⟩ := k5 x v hv1
          exact ⟨w, hw1, by rw [← hw2, hv2]⟩
        | succ j =>
          simp at hj hs
          exact k6 j g s hj hs

theorem parse_all (env : MEnv) {flat sh d} {lhs : List Ex} (h : ∀ p ∈ lhs, APat p) :
    ∃ forms, mapO (parseForm flat sh d) lhs = some forms ∧ List.Forall₂ (FormAgrees env d flat sh) lhs forms := by
  induction lhs with
  | nil => exact ⟨[], rfl, .nil⟩
  | cons p lhs ih =>
    obtain ⟨f, hf, ha⟩ := (h p (by simp)).parse env (flat := flat) (sh := sh) (d := d)
    obtain ⟨fs, hfs, has⟩ := ih (fun q hq => h q (by simp [hq]))
    exact ⟨f :: fs, by rw [mapO, hf, hfs], .cons ha has⟩

theorem forall₂_mem_right {α β : Type} {R : α → β → Prop} {xs : List α} {ys : List β} (h : List.Forall₂ R xs ys) {y} (hy : y ∈ ys) :
    ∃ x ∈ xs, R x y := by
  induction h with
  | nil => simp at hy
  | @cons a b l1 l2 h _ ih =>
    rcases List.mem_cons.1 hy with rfl | hy
    · exact ⟨_, by simp, h⟩
    · obtain ⟨x, hx, r⟩ := ih hy
      exact ⟨x, by simp [hx], r⟩

theorem forall₂_get_left {α β : Type} {R : α → β → Prop} {xs : List α} {ys : List β} (h : List.Forall₂ R xs ys) {j : Nat} {x : α}
    (hx : xs[j]? = some x) : ∃ y, ys[j]? = some y ∧ R x y := by
  have hl := h.length_eq
  have hj : j < xs.length := by
    rw [List.getElem?_eq_some_iff] at hx; exact hx.1
  have : ys[j]? = some ys[j] := List.getElem?_eq_getElem (by omega)
  exact ⟨_, this, forall₂_get h hx this⟩

/-- The result of `seqMatch` in declarative terms. -/
def SeqSpec (env : MEnv) (ρ : String → Option Ex) (flat ordl : Bool) (sh : String) (lhs comps : List Ex) (A : List (List Nat)) : Prop :=
  A.length = lhs.length ∧ Layout ordl comps.length A ∧
  (∀ (j : Nat) p is, lhs[j]? = some p → A[j]? = some is → (shape (env.dflt sh) flat sh p).lo ≤ is.length ∧ (is.length : Int) ≤ (shape (env.dflt sh) flat sh p).hi) ∧
  (∀ (j : Nat) p is (i : Nat) c, lhs[j]? = some p → A[j]? = some is → i ∈ is → comps[i]? = some c → Matches env ρ (shape (env.dflt sh) flat sh p).elem c) ∧
  (∀ (j : Nat) p is x, lhs[j]? = some p → A[j]? = some is → (shape (env.dflt sh) flat sh p).name = some x →
    ∃ v, ρ x = some v ∧ isSameQ v ((shape (env.dflt sh) flat sh p).value (env.oneIdentity sh) (is.filterMap (comps[·]?))) = true)

theorem seqMatch_sound {env : MEnv} [env.Exact] {rec} (hrec : SoundRec env rec) {comps lhs : List Ex} {ordl flat sh} {pm : PM} {out}
    (hc : ∀ x ∈ comps, noReal x = true) (hl : ∀ p ∈ lhs, APat p) (hne : lhs ≠ [])
    (h : seqMatch env rec comps lhs ordl flat sh pm = some out) :
    ∀ q ∈ out, Kept pm q.get ∧ ∃ A, SeqSpec env q.get flat ordl sh lhs comps A := by
  intro q hq
  unfold seqMatch at h
  obtain ⟨forms, hforms, hag⟩ := parse_all env (flat := flat) (sh := sh) (d := env.dflt sh) hl
  rw [hforms] at h
  simp only at h
  split at h
  · simp at h
  · simp only [Option.some.injEq] at h; subst h; simp at hq
  · rename_i fm hfm
    split at h
    · simp at h
    · rename_i as has
      obtain ⟨A, hA, zs, h1, h2⟩ := bindO_mem h q hq
      have hfne : forms ≠ [] := by
        rintro rfl
        have := hag.length_eq
        simp at this
        exact hne this
      obtain ⟨m1, m2, _⟩ := (assignments_mem hfne has A).1 hA
      have hpick : ∀ is, ∀ x ∈ pick comps is, noReal x = true := by
        intro is x hx
        exact hc x (mem_filterMap_get x hx)
      have hform : ∀ f ∈ forms, EPat f.form := by
        intro f hf
        obtain ⟨p, hp, ha⟩ := forall₂_mem_right hag hf
        rw [ha.elem]; exact ((hl p hp).shape_cases).1
      obtain ⟨k1, k2⟩ := amiRun_sound hrec forms (A.map (pick comps)) pm zs hform
        (by
          intro seg hseg
          rw [List.mem_map] at hseg
          obtain ⟨is, _, rfl⟩ := hseg
          exact hpick is)
        (by
          intro f hf seg hseg
          rw [List.mem_map] at hseg
          obtain ⟨is, _, rfl⟩ := hseg
          obtain ⟨p, hp, ha⟩ := forall₂_mem_right hag hf
          rw [ha.value]
          exact notFlt_value _ _ _ (hl p hp).absent_ok (hpick is)) h1 q h2
      refine ⟨k1, A, ?_, m2, ?_, ?_, ?_⟩
      · rw [← m1.length_eq, hag.length_eq]
      · intro j p is hp his
        obtain ⟨f, hf, ha⟩ := forall₂_get_left hag hp
        have := forall₂_get m1 hf his
        rw [ha.lo, ha.hi] at this
        exact this
      · intro j p is i c hp his hi hci
        obtain ⟨f, hf, ha⟩ := forall₂_get_left hag hp
        have := (k2 j f (pick comps is) hf (by simp [his])).1 c
          (by unfold pick; rw [List.mem_filterMap]; exact ⟨i, hi, hci⟩)
        rw [ha.elem] at this
        exact this
      · intro j p is x hp his hx
        obtain ⟨f, hf, ha⟩ := forall₂_get_left hag hp
        obtain ⟨v, hv, e⟩ := (k2 j f (pick comps is) hf (by simp [his])).2 x (by rw [ha.name]; exact hx)
        refine ⟨v, hv, ?_⟩
        rw [ha.value] at e
        have hf' : notFlt ((shape (env.dflt sh) flat sh p).value (env.oneIdentity sh) (is.filterMap (comps[·]?))) = true :=
          notFlt_value _ _ _ (hl p (List.mem_of_getElem? hp)).absent_ok (hpick is)
        rw [isSameQ_notFlt hf']
        exact e

theorem headExOf_eq (a : Ex) : headExOf a = headOf a := by
  cases a with
  | expr ps => cases ps <;> rfl
  | _ => rfl

theorem headOk_iff (args : List Ex) (a : Ex) : headOk (headExOf a) args = true ↔ BlankAdmits args a := by
  rw [headExOf_eq]
  cases args <;> simp [headOk, BlankAdmits]

theorem headOmitted_parts {env : MEnv} {ps : List Ex} {a a' : Ex} (h : partsOf a = partsOf a') : headOmitted env ps a = headOmitted env ps a' := by
  unfold headOmitted; rw [h]

theorem opened_parts {a a' : Ex} (h : partsOf a = partsOf a') (hs : (partsOf a).isSome) : opened a = opened a' := by
  unfold opened
  rw [← h]
  obtain ⟨ps, hp⟩ := Option.isSome_iff_exists.1 hs
  rw [hp]; rfl

theorem opened_expr (as : List Ex) : opened (.expr as) = .expr as := rfl

theorem opened_none {a : Ex} (h : partsOf a = none) : opened a = a := by unfold opened; rw [h]; rfl

/-- A compound pattern without special head sees only the parts. -/
theorem Matches.of_parts {env ρ} {ps : List Ex} {a a' : Ex} (hs : ∀ s, ps.head? = some (.sym s) → s ∉ specialHeads)
    (hp : partsOf a = partsOf a') (hsome : (partsOf a).isSome) (h : Matches env ρ (.expr ps) a) : Matches env ρ (.expr ps) a' := by
  have hsp : ∀ s, s ∈ specialHeads → ∀ t, ps ≠ .sym s :: t := by
    rintro s hs' t rfl
    exact hs s rfl hs'
  cases h with
  | lit h1 _ _ => simp [isAtom] at h1
  | @blank s args _ h1 _ => exact absurd rfl (hsp s (by simp [specialHeads, h1]) args)
  | named h1 => exact absurd rfl (hsp "System`Pattern" (by simp [specialHeads]) _)
  | same A h1 h2 h3 h4 h5 h6 h7 => exact .same A h1 (hp ▸ h2) h3 h4 h5 h6 h7
  | diff A h1 h2 h3 h0 h3' h4 h5 h6 h7 => exact .diff A h1 (hp ▸ h2) h3 (headOmitted_parts hp ▸ h0) h3' h4 h5 h6 h7
  | clash h1 h2 _ _ => rw [h2] at hsome; simp at hsome
  | assumed h1 h2 h3 => exact .assumed h1 (headOmitted_parts hp ▸ h2) (opened_parts hp hsome ▸ h3)
  | verb A h1 h2 h3 h4 h5 h6 h7 => exact .verb A h1 (hp ▸ h2) h3 h4 h5 h6 h7
  | verbClash h0 h1 h2 => exact .verbClash (hp ▸ h0) h1 h2
  | alt => exact absurd rfl (hsp "System`Alternatives" (by simp [specialHeads]) _)
  | test => exact absurd rfl (hsp "System`PatternTest" (by simp [specialHeads]) _)
  | hold => exact absurd rfl (hsp "System`HoldPattern" (by simp [specialHeads]) _)

/-- The patterns that end in a comparison of parts: `f[...]` with ordinary head, or with a pattern as head. -/
structure PartsPat (ps : List Ex) : Prop where
  ne : ps ≠ []
  head : ∀ s, ps.head? = some (.sym s) → s ∉ specialHeads
  tail : ∀ s t, ps = .sym s :: t → t ≠ []
  args : ∀ p ∈ ps, APat p

theorem PartsPat.app {s : String} {ps : List Ex} (h1 : s ∉ specialHeads) (h2 : ps ≠ []) (h3 : ∀ p ∈ ps, APat p) : PartsPat (.sym s :: ps) where
  ne := by simp
  head := by intro t ht; simp at ht; subst ht; exact h1
  tail := by intro t l e; simp at e; rw [← e.2]; exact h2
  args := by
    intro p hp
    rcases List.mem_cons.1 hp with rfl | hp
    · exact .body (.elem (.atom rfl))
    · exact h3 p hp

theorem PartsPat.appE {h : Ex} {ps : List Ex} (h1 : ∀ s, h ≠ .sym s) (h2 : EPat h) (h3 : ∀ p ∈ ps, APat p) : PartsPat (h :: ps) where
  ne := by simp
  head := by intro t ht; simp at ht; exact absurd ht (h1 t)
  tail := by intro t l e; simp at e; exact absurd e.1 (h1 t)
  args := by
    intro p hp
    rcases List.mem_cons.1 hp with rfl | hp
    · exact .body (.elem h2)
    · exact h3 p hp

theorem PartsPat.verb {s : String} {ps : List Ex} (h3 : ∀ p ∈ ps, APat p) : PartsPat (.expr [S "Verbatim", .sym s] :: ps) :=
  PartsPat.appE (by simp) (verbHead_epat s) h3

theorem verbatimOp_sym {s : String} {ps : List Ex} (a : Ex) : verbatimOp a (.expr (.sym s :: ps)) = none := by
  unfold verbatimOp
  split
  · rename_i e; simp at e
  · rfl

theorem verbatimOp_head {h : Ex} {ps : List Ex} (a : Ex) (hh : hasHead "System`Verbatim" h = false) : verbatimOp a (.expr (h :: ps)) = none := by
  unfold verbatimOp
  split
  · rename_i e
    simp only [Ex.expr.injEq, List.cons.injEq] at e
    rw [if_neg]
    rintro rfl
    rw [e.1] at hh
    simp [hasHead] at hh
  · rfl

theorem verbatimOp_applies {a b : Ex} {s : String} {ps : List Ex} (h : verbatimOp a (.expr (.expr [S "Verbatim", .sym s] :: ps)) = some b) :
    ∃ g as, a = .expr (g :: as) ∧ isSameQ g (.sym s) = true ∧ b = .expr (.sym s :: ps) := by
  unfold verbatimOp at h
  split at h
  · rename_i ah at' s' hargs args e
    simp only [Ex.expr.injEq, List.cons.injEq] at e
    obtain ⟨⟨e1, e2⟩, rfl⟩ := e
    subst e2
    have e1' : s' = "System`Verbatim" := by
      have := e1; simp only [S, Ex.sym.injEq] at this; exact this.symm
    subst e1'
    simp only [if_true] at h
    split at h
    · rename_i hs
      simp only [Option.some.injEq] at h
      exact ⟨_, _, rfl, hs, h.symm⟩
    · simp at h
  · simp at h

theorem PartsPat.blank {ps : List Ex} (h : PartsPat ps) : blankKind (.expr ps) = .notBlank := by
  unfold blankKind
  split
  · rename_i s args e
    simp only [Ex.expr.injEq] at e
    subst e
    have hs := h.head s rfl
    rw [if_neg (by rintro rfl; simp [specialHeads] at hs)]
    have : blankArgs (.expr (.sym s :: args)) = none := by
      unfold blankArgs
      simp only
      rw [if_neg]
      intro hb
      rw [← mem_blankHeads] at hb
      exact hs (by simp [specialHeads, hb])
    rw [this]
  · rfl

theorem PartsPat.special {ps : List Ex} (h : PartsPat ps) (env rec a pm) : matchSpecial env rec a (.expr ps) pm = .goOn pm := by
  unfold matchSpecial
  split
  · rename_i s args e
    simp only [Ex.expr.injEq] at e
    subst e
    have hs := h.head s rfl
    have hn : ∀ t, t ∈ specialHeads → s ≠ t := by rintro t ht rfl; exact hs ht
    rw [if_neg (hn _ (by simp [specialHeads])), if_neg (hn _ (by simp [specialHeads])), if_neg (hn _ (by simp [specialHeads])),
      if_neg (hn _ (by simp [specialHeads])), if_neg (hn _ (by simp [specialHeads])), if_neg (hn _ (by simp [specialHeads]))]
  · rfl

theorem isOptional_eq (q : Ex) : hasHead "System`Optional" q = isOptional q := rfl

/-- The expression whose parts are compared: `a`, or `f[a]` if the head is assumed. -/
def assumedParts (env : MEnv) (ps : List Ex) (a : Ex) : Option (List Ex) :=
  if headOmitted env ps a then some [ps.headD (.expr []), a]
  else match a with
    | .expr as => some as
    | _ => none

/-- With `Verbatim[f]` in place of `f` the parts are compared without regard to attributes. -/
theorem matchNormal_verb {env : MEnv} {rec : MatchRec} {g : Ex} {as ps : List Ex} {s : String} {pm : PM} {b : Ex} (hs : s ∉ specialHeads)
    (hps : PartsPat (.sym s :: ps))
    (h : verbatimOp (.expr (g :: as)) (.expr (.expr [S "Verbatim", .sym s] :: ps)) = some b) :
    ∃ as', (as' = g :: as ∨ (g ≠ .sym s ∧ as' = [.sym s, .expr (g :: as)])) ∧
      matchNormal env rec (.expr (g :: as)) (.expr (.expr [S "Verbatim", .sym s] :: ps)) pm = matchParts env rec as' (.sym s :: ps) true pm := by
  obtain ⟨_, _, _, _, rfl⟩ := verbatimOp_applies h
  unfold matchNormal
  rw [h]
  simp only [Option.getD_some, hps.blank, Option.isSome_some]
  unfold matchCompound
  simp only
  rw [h]
  simp only [Option.isSome_some]
  cases g with
  | sym t =>
    simp only
    split
    · rename_i hc
      simp only [Bool.and_eq_true, bne_iff_ne, ne_eq] at hc
      exact ⟨_, Or.inr ⟨by simpa using hc.2, rfl⟩, rfl⟩
    · exact ⟨_, Or.inl rfl, rfl⟩
  | _ => exact ⟨_, Or.inl rfl, rfl⟩

/-- The result of comparing parts. -/
def partsResult (env : MEnv) (rec : MatchRec) (ps : List Ex) (a : Ex) (pm : PM) : Option (List (Option PM) × PM) :=
  match assumedParts env ps a with
  | some as => matchParts env rec as ps false pm
  | none => some (if isSameQ a (.expr ps) then ([none], pm) else ([], pm))

/-- How the comparison of parts proceeds for such a pattern. -/
theorem PartsPat.compound {ps : List Ex} (_ : PartsPat ps) (env : MEnv) (rec : MatchRec) (a : Ex) (ha : ∀ n d, a ≠ .rat n d)
    (ha' : ∀ x y, a ≠ .cplx x y) (pm : PM) :
    matchCompound env rec a (.expr ps) false pm = partsResult env rec ps a pm := by
  unfold partsResult
  have hcan : ∀ s t, canAssumeHead env s t = (env.oneIdentity s && (env.dflt s).isSome && t.any isOptional) := fun s t => rfl
  have key : ∀ (a : Ex), partsOf a = none → (∀ as, a ≠ .expr as) → matchCompound env rec a (.expr ps) false pm =
      match assumedParts env ps a with
      | some as => matchParts env rec as ps false pm
      | none => some (if isSameQ a (.expr ps) then ([none], pm) else ([], pm)) := by
    intro a hp hne
    have hnone : headOmitted env ps a = false → assumedParts env ps a = none := by
      intro h0
      unfold assumedParts
      rw [h0]
      simp only [Bool.false_eq_true, if_false]
    have hsome : headOmitted env ps a = true → assumedParts env ps a = some [ps.headD (.expr []), a] := by
      intro h0
      unfold assumedParts
      rw [h0]
      simp only [if_true]
    rcases ps with _ | ⟨hd, tl⟩
    · rw [hnone rfl]; unfold matchCompound; cases a <;> first | rfl | exact absurd rfl (hne _)
    · cases hd with
      | sym t =>
        cases hc : canAssumeHead env t tl with
        | true =>
          have h0 : headOmitted env (.sym t :: tl) a = true := by
            rw [hcan] at hc
            simp only [headOmitted, hp, hc, Bool.and_true]
          rw [hsome h0]
          unfold matchCompound
          cases a <;> first | exact absurd rfl (hne _) | (simp only [hc, if_true, List.headD_cons])
        | false =>
          have h0 : headOmitted env (.sym t :: tl) a = false := by
            rw [hcan] at hc
            simp only [headOmitted, hp, hc, Bool.false_and]
          rw [hnone h0]
          unfold matchCompound
          cases a <;> first | exact absurd rfl (hne _) | (simp only [hc, Bool.false_eq_true, if_false])
      | _ => rw [hnone rfl]; unfold matchCompound; cases a <;> first | rfl | exact absurd rfl (hne _)
  cases a with
  | rat n d => exact absurd rfl (ha n d)
  | cplx x y => exact absurd rfl (ha' x y)
  | expr as =>
    have hsome : headOmitted env ps (.expr as) = true → assumedParts env ps (.expr as) = some [ps.headD (.expr []), .expr as] := by
      intro h0
      unfold assumedParts
      rw [h0]; rfl
    have hnone : headOmitted env ps (.expr as) = false → assumedParts env ps (.expr as) = some as := by
      intro h0
      unfold assumedParts
      rw [h0]; rfl
    rcases ps with _ | ⟨hd, tl⟩
    · rw [hnone rfl]; unfold matchCompound; simp only
    · cases hd with
      | sym t =>
        rcases as with _ | ⟨a0, as⟩
        · rw [hnone (by simp [headOmitted, partsOf])]; unfold matchCompound; simp only
        · cases a0 with
          | sym s =>
            unfold matchCompound
            simp only
            have e : headOmitted env (.sym t :: tl) (.expr (.sym s :: as)) = (canAssumeHead env t tl && s != t) := by
              rw [hcan]; rfl
            cases hc : (canAssumeHead env t tl && s != t) with
            | true => rw [hsome (e.trans hc)]; simp only [if_true, List.headD_cons]
            | false => rw [hnone (e.trans hc)]; simp only [Bool.false_eq_true, if_false]
          | _ => rw [hnone (by simp [headOmitted, partsOf])]; unfold matchCompound; simp only
      | _ => rw [hnone rfl]; unfold matchCompound; simp only
  | _ => exact key _ rfl (by intro as; simp)

theorem matchParts_sound {env : MEnv} [env.Exact] {rec} (hrec : SoundRec env rec) {as ps : List Ex} {pm pm' : PM} {rs} (h : PartsPat ps) (a : Ex)
    (hp : partsOf a = some as) (h0 : headOmitted env ps a = false) (ha : noReal a = true) (hm : matchParts env rec as ps false pm = some (rs, pm')) :
    Kept pm pm'.get ∧ ∀ r ∈ rs, ResOk env pm r (.expr ps) a := by
  have hn := noReal_parts ha hp
  have hdiff : (∀ s, ¬ (ps.head? = some (.sym s) ∧ as.head? = some (.sym s))) →
      (seqMatch env rec as ps false false "Sequence" pm).map (fun rs => (rs.map some, pm)) = some (rs, pm') →
      Kept pm pm'.get ∧ ∀ r ∈ rs, ResOk env pm r (.expr ps) a := by
    intro hne hm
    rw [Option.map_eq_some_iff] at hm
    obtain ⟨qs, h1, h2⟩ := hm
    simp only [Prod.mk.injEq] at h2
    obtain ⟨rfl, rfl⟩ := h2
    refine ⟨Kept.refl _, ?_⟩
    intro r hr
    rw [List.mem_map] at hr
    obtain ⟨q, hq, rfl⟩ := hr
    obtain ⟨k1, A, a1, a2, a3, a4, a5⟩ := seqMatch_sound hrec hn h.args h.ne h1 q hq
    exact ⟨k1, .diff A h.head hp hne h0 a1 a2 a3 a4 a5⟩
  unfold matchParts at hm
  split at hm
  · rename_i ah at' bh bt
    split at hm
    · rename_i s t
      split at hm
      · rename_i hst
        subst hst
        rw [Option.map_eq_some_iff] at hm
        obtain ⟨qs, h1, h2⟩ := hm
        simp only [Prod.mk.injEq] at h2
        obtain ⟨rfl, rfl⟩ := h2
        refine ⟨Kept.refl _, ?_⟩
        intro r hr
        rw [List.mem_map] at hr
        obtain ⟨q, hq, rfl⟩ := hr
        simp only [Bool.not_false, Bool.and_true] at h1
        obtain ⟨k1, A, a1, a2, a3, a4, a5⟩ := seqMatch_sound hrec (fun x hx => hn x (by simp [hx])) (fun p hp => h.args p (by simp [hp]))
          (h.tail _ _ rfl) h1 q hq
        exact ⟨k1, .same A (h.head s rfl) hp a1 a2 a3 a4 a5⟩
      · rename_i hst
        refine hdiff ?_ hm
        rintro u ⟨e1, e2⟩
        simp at e1 e2
        exact hst (by rw [e1, e2])
    · rename_i hns
      refine hdiff ?_ hm
      rintro u ⟨e1, e2⟩
      simp at e1 e2
      exact hns u u e2 e1
  · simp at hm

theorem firstOnly_some {r : Option (List (Option PM) × PM)} {rs pm'} (h : firstOnly r = some (rs, pm')) :
    ∃ rs0, r = some (rs0, pm') ∧ rs = rs0.take 1 := by
  unfold firstOnly at h
  rw [Option.map_eq_some_iff] at h
  obtain ⟨⟨x, y⟩, h1, h2⟩ := h
  simp only [Prod.mk.injEq] at h2
  exact ⟨x, by rw [h1, h2.2], h2.1.symm⟩

theorem matchNormal_parts_sound {env : MEnv} [env.Exact] {rec} (hrec : SoundRec env rec) {a : Ex} {ps : List Ex} {pm pm' : PM} {rs} (h : PartsPat ps)
    (hE : EPat (.expr ps)) (ha : noReal a = true) (hv : verbatimOp a (.expr ps) = none) (hm : matchNormal env rec a (.expr ps) pm = some (rs, pm')) :
    Kept pm pm'.get ∧ ∀ r ∈ rs, ResOk env pm r (.expr ps) a := by
  unfold matchNormal at hm
  rw [hv] at hm
  simp only [Option.getD_none, Option.isSome_none, h.blank] at hm
  have hconv : ∀ as, partsOf a = some as → noReal (.expr as) = true → firstOnly (rec (.expr as) (.expr ps) pm) = some (rs, pm') →
      Kept pm pm'.get ∧ ∀ r ∈ rs, ResOk env pm r (.expr ps) a := by
    intro as hp hn hm
    obtain ⟨rs0, h1, rfl⟩ := firstOnly_some hm
    obtain ⟨k1, k2⟩ := hrec _ _ _ _ _ hn hE h1
    refine ⟨k1, fun r hr => ?_⟩
    have k3 := k2 r (List.mem_of_mem_take hr)
    have hpp : ∀ {ρ}, Matches env ρ (.expr ps) (.expr as) → Matches env ρ (.expr ps) a := fun k4 =>
      k4.of_parts h.head (by rw [hp]; rfl) (by simp [partsOf])
    cases r with
    | none => exact fun ρ => hpp (k3 ρ)
    | some q => exact ⟨k3.1, hpp k3.2⟩
  split at hm
  · rename_i n d
    exact hconv _ rfl (by simp [noReal, noRealL, S]) hm
  · rename_i re im
    refine hconv _ rfl ?_ hm
    simp only [noReal, Bool.and_eq_true] at ha
    simp [noReal, noRealL, S, ha.1, ha.2]
  · rename_i a' b' hx hy hz
    rw [hv] at hm
    simp only [Option.isSome_none] at hm
    rw [h.compound _ _ _ (fun n d e => hy n d ps e rfl) (fun x y e => hz x y ps e rfl)] at hm
    unfold partsResult at hm
    have hop : opened a' = a' := by
      revert hy hz
      cases a' <;> intro hy hz <;> first | rfl | exact absurd rfl (hx _ _) | skip
      · exact absurd rfl (fun e => hy _ _ ps e rfl)
      · exact absurd rfl (fun e => hz _ _ ps e rfl)
    by_cases h0 : headOmitted env ps a' = true
    · obtain ⟨s, qs, rfl⟩ : ∃ s qs, ps = .sym s :: qs := by
        unfold headOmitted at h0
        split at h0
        · exact ⟨_, _, rfl⟩
        · simp at h0
      have e : assumedParts env (.sym s :: qs) a' = some [.sym s, a'] := by
        unfold assumedParts; rw [h0]; rfl
      rw [e] at hm
      simp only at hm
      have h0' : headOmitted env (.sym s :: qs) (.expr [.sym s, a']) = false := by
        simp [headOmitted, partsOf]
      have hn' : noReal (.expr [.sym s, a']) = true := by simp [noReal, noRealL, ha]
      obtain ⟨k1, k2⟩ := matchParts_sound hrec h (.expr [.sym s, a']) rfl h0' hn' hm
      refine ⟨k1, fun r hr => ?_⟩
      have k3 := k2 r hr
      have hlift : ∀ {ρ}, Matches env ρ (.expr (.sym s :: qs)) (.expr [.sym s, a']) → Matches env ρ (.expr (.sym s :: qs)) a' := by
        intro ρ k
        exact .assumed (h.head s rfl) h0 (by rw [hop]; exact k)
      cases r with
      | none => exact fun ρ => hlift (k3 ρ)
      | some q => exact ⟨k3.1, hlift k3.2⟩
    · have h0f : headOmitted env ps a' = false := by simpa using h0
      unfold assumedParts at hm
      rw [h0f] at hm
      simp only [Bool.false_eq_true, if_false] at hm
      cases a' with
      | expr as => exact matchParts_sound hrec h _ rfl h0f ha hm
      | rat n d => exact absurd rfl (fun e => hy n d ps e rfl)
      | cplx x y => exact absurd rfl (fun e => hz x y ps e rfl)
      | _ =>
        simp only [Option.some.injEq] at hm
        split at hm
        · rename_i hsame
          simp only [Prod.mk.injEq] at hm
          obtain ⟨rfl, rfl⟩ := hm
          refine ⟨Kept.refl _, ?_⟩
          intro r hr
          simp at hr; subst hr
          exact fun ρ => .clash rfl rfl h.head h0f hsame
        · simp only [Prod.mk.injEq] at hm
          obtain ⟨rfl, rfl⟩ := hm
          exact ⟨Kept.refl _, by simp⟩

theorem matchNormal_verb_sound {env : MEnv} [env.Exact] {rec} (hrec : SoundRec env rec) {g : Ex} {as ps : List Ex} {pm pm' : PM} {rs} {s : String} {b : Ex}
    (hs : s ∉ specialHeads) (hne : ps ≠ []) (hps : ∀ p ∈ ps, APat p) (ha : noReal (.expr (g :: as)) = true)
    (hv : verbatimOp (.expr (g :: as)) (.expr (.expr [S "Verbatim", .sym s] :: ps)) = some b)
    (hm : matchNormal env rec (.expr (g :: as)) (.expr (.expr [S "Verbatim", .sym s] :: ps)) pm = some (rs, pm')) :
    Kept pm pm'.get ∧ ∀ r ∈ rs, ResOk env pm r (.expr (.expr [S "Verbatim", .sym s] :: ps)) (.expr (g :: as)) := by
  have hP := PartsPat.app hs hne hps
  obtain ⟨as', has', e⟩ := matchNormal_verb (env := env) (rec := rec) (pm := pm) hs hP hv
  obtain ⟨_, _, e1, hsame, _⟩ := verbatimOp_applies hv
  simp only [Ex.expr.injEq, List.cons.injEq] at e1
  obtain ⟨rfl, rfl⟩ := e1
  rw [e] at hm
  have hn := noReal_parts ha (ps := g :: as) rfl
  have hn' : ∀ x ∈ as', noReal x = true := by
    rcases has' with rfl | ⟨_, rfl⟩
    · exact hn
    · intro x hx
      simp only [List.mem_cons, List.not_mem_nil, or_false] at hx
      rcases hx with rfl | rfl
      · rfl
      · exact ha
  have hdiff : g ≠ .sym s → (seqMatch env rec as' (.sym s :: ps) false false "Sequence" pm).map (fun rs => (rs.map some, pm)) = some (rs, pm') →
      Kept pm pm'.get ∧ ∀ r ∈ rs, ResOk env pm r (.expr (.expr [S "Verbatim", .sym s] :: ps)) (.expr (g :: as)) := by
    intro hg hm
    rw [Option.map_eq_some_iff] at hm
    obtain ⟨qs, h1, h2⟩ := hm
    simp only [Prod.mk.injEq] at h2
    obtain ⟨rfl, rfl⟩ := h2
    refine ⟨Kept.refl _, ?_⟩
    intro r hr
    rw [List.mem_map] at hr
    obtain ⟨q, hq, rfl⟩ := hr
    obtain ⟨k1, _⟩ := seqMatch_sound hrec hn' hP.args hP.ne h1 q hq
    exact ⟨k1, .verbClash rfl hsame hg⟩
  unfold matchParts at hm
  split at hm
  · rename_i ah at' bh bt eb
    simp only [List.cons.injEq] at eb
    obtain ⟨rfl, rfl⟩ := eb
    split at hm
    · rename_i t t' et
      simp only [Ex.sym.injEq] at et
      subst et
      split at hm
      · rename_i hst
        subst hst
        simp only [Bool.not_true, Bool.and_false] at hm
        rw [Option.map_eq_some_iff] at hm
        obtain ⟨qs, h1, h2⟩ := hm
        simp only [Prod.mk.injEq] at h2
        obtain ⟨rfl, rfl⟩ := h2
        refine ⟨Kept.refl _, ?_⟩
        intro r hr
        rw [List.mem_map] at hr
        obtain ⟨q, hq, rfl⟩ := hr
        obtain ⟨k1, A, a1, a2, a3, a4, a5⟩ := seqMatch_sound hrec (fun x hx => hn' x (by simp [hx])) hps hne h1 q hq
        rcases has' with e | ⟨hg, _⟩
        · simp only [List.cons.injEq] at e
          obtain ⟨rfl, rfl⟩ := e
          exact ⟨k1, .verb A hs rfl a1 a2 a3 a4 a5⟩
        · exact ⟨k1, .verbClash rfl hsame hg⟩
      · rename_i hst
        refine hdiff ?_ hm
        rintro rfl
        rcases has' with e | ⟨hg, _⟩
        · simp only [List.cons.injEq, Ex.sym.injEq] at e
          exact hst e.1
        · exact hg rfl
    · rename_i hns
      refine hdiff ?_ hm
      rintro rfl
      rcases has' with e | ⟨hg, _⟩
      · simp only [List.cons.injEq] at e
        exact hns _ _ e.1 rfl
      · exact hg rfl
  · simp at hm

theorem capture_sound {env : MEnv} {a : Ex} {x : String} {s args} {pm : PM} (hs : s ∈ blankHeads) (hb : BlankAdmits args a)
    (ha : noReal a = true) : Kept pm (capture a (.sym x) pm).2.get ∧ ∀ r ∈ (capture a (.sym x) pm).1,
      ResOk env pm r (.expr [S "Pattern", .sym x, .expr (.sym s :: args)]) a := by
  have hset : pm.get x = none → Kept pm (pm.set x a).get := by
    intro hg y v hy
    refine ⟨v, ?_, rfl⟩
    rw [PM.get_set, if_neg]
    · exact hy
    · rintro rfl; rw [hg] at hy; simp at hy
  unfold capture
  simp only
  split
  · rename_i hg
    refine ⟨hset hg, ?_⟩
    intro r hr
    simp at hr; subst hr
    refine ⟨hset hg, .named hs hb (v := a) (by simp [PM.get_set]) ?_⟩
    rw [isSameQ_notFlt (noReal_notFlt ha)]
  · rename_i v hg
    split
    · rename_i hsame
      refine ⟨Kept.refl _, ?_⟩
      intro r hr
      simp at hr; subst hr
      exact ⟨Kept.refl _, .named hs hb hg hsame⟩
    · exact ⟨Kept.refl _, by simp⟩

theorem matchAlts_sound {env rec} (hrec : SoundRec env rec) {a : Ex} (ha : noReal a = true) : ∀ (alts : List Ex) (pm pm' : PM) (rs),
    (∀ p ∈ alts, EPat p) → matchAlts rec a alts pm = some (rs, pm') →
    Kept pm pm'.get ∧ ∀ r ∈ rs, ∃ p ∈ alts, ResOk env pm r p a
  | [], pm, pm', rs, _, h => by
    simp only [matchAlts, Option.some.injEq, Prod.mk.injEq] at h
    obtain ⟨rfl, rfl⟩ := h
    exact ⟨Kept.refl _, by simp⟩
  | alt :: alts, pm, pm', rs, hE, h => by
    rw [matchAlts] at h
    split at h
    · simp at h
    · rename_i pm1 h1
      obtain ⟨k1, _⟩ := hrec _ _ _ _ _ ha (hE alt (by simp)) h1
      obtain ⟨k2, k3⟩ := matchAlts_sound hrec ha alts pm1 pm' rs (fun p hp => hE p (by simp [hp])) h
      refine ⟨k1.trans k2, fun r hr => ?_⟩
      obtain ⟨p, hp, k4⟩ := k3 r hr
      refine ⟨p, by simp [hp], ?_⟩
      cases r with
      | none => exact k4
      | some q => exact ⟨k1.trans k4.1, k4.2⟩
    · rename_i r0 tl pm1 h1
      simp only [Option.some.injEq, Prod.mk.injEq] at h
      obtain ⟨rfl, rfl⟩ := h
      obtain ⟨k1, k2⟩ := hrec _ _ _ _ _ ha (hE alt (by simp)) h1
      refine ⟨k1, fun r hr => ?_⟩
      simp at hr; subst hr
      exact ⟨alt, by simp, k2 r (by simp)⟩

/-- The comparison with an atom. -/
def atomResult (a b : Ex) (pm : PM) : Option (List (Option PM) × PM) :=
  match a with
  | .expr _ => some ([], pm)
  | _ => some (if isSameQ a b then ([none], pm) else ([], pm))

theorem matchCompound_atom {env : MEnv} {rec : MatchRec} {a b : Ex} {pm : PM} (hat : isAtom b = true) :
    matchCompound env rec a b false pm = atomResult a b pm := by
  unfold matchCompound atomResult
  cases b <;> first | rfl | simp [isAtom] at hat

/-- Soundness of the matcher. -/
theorem matchF_sound (env : MEnv) [env.Exact] : ∀ n, SoundRec env (matchF env n)
  | 0 => by intro a b pm rs pm' _ _ h; simp [matchF] at h
  | n + 1 => by
    have hrec := matchF_sound env n
    intro a b pm rs pm' ha hb h
    rw [matchF] at h
    split at h
    · simp at h
    have hbE := hb
    cases hb with
    | atom hat =>
      have h1 : matchSpecial env (matchF env n) a b pm = .goOn pm := by
        unfold matchSpecial; cases b <;> simp_all [isAtom]
      have hv : verbatimOp a b = none := by
        unfold verbatimOp; cases b <;> simp_all [isAtom]
      have hk : blankKind b = .notBlank := by
        unfold blankKind; cases b <;> simp_all [isAtom]
      rw [h1] at h
      simp only [matchNormal, hv, Option.getD_none, hk, Option.isSome_none] at h
      split at h
      · simp [isAtom] at hat
      · simp [isAtom] at hat
      · rw [hv] at h
        simp only [Option.isSome_none] at h
        rw [matchCompound_atom hat] at h
        unfold atomResult at h
        split at h
        · simp only [Option.some.injEq, Prod.mk.injEq] at h
          obtain ⟨rfl, rfl⟩ := h
          exact ⟨Kept.refl _, by simp⟩
        · rename_i hne
          simp only [Option.some.injEq] at h
          split at h
          · rename_i hsame
            simp only [Prod.mk.injEq] at h
            obtain ⟨rfl, rfl⟩ := h
            refine ⟨Kept.refl _, ?_⟩
            intro r hr
            simp at hr; subst hr
            refine fun ρ => .lit hat ?_ hsame
            revert hne; cases a <;> simp [isAtom]
          · simp only [Prod.mk.injEq] at h
            obtain ⟨rfl, rfl⟩ := h
            exact ⟨Kept.refl _, by simp⟩
    | @blank s args hs hlen =>
      have h1 : matchSpecial env (matchF env n) a (.expr (.sym s :: args)) pm = .goOn pm := by
        rcases mem_blankHeads.1 hs with rfl | rfl | rfl <;> simp [matchSpecial]
      have hk : blankKind (.expr (.sym s :: args)) = .bare args := by
        rcases mem_blankHeads.1 hs with rfl | rfl | rfl <;> simp [blankKind, blankArgs]
      have hv : verbatimOp a (.expr (.sym s :: args)) = none := by
        unfold verbatimOp; cases a <;> simp
      rw [h1] at h
      simp only [matchNormal, hv, Option.getD_none, hk, Option.some.injEq] at h
      split at h
      · rename_i hok
        simp only [Prod.mk.injEq] at h
        obtain ⟨rfl, rfl⟩ := h
        refine ⟨Kept.refl _, ?_⟩
        intro r hr
        simp at hr; subst hr
        exact ⟨Kept.refl _, .blank hs ((headOk_iff args a).1 hok)⟩
      · simp only [Prod.mk.injEq] at h
        obtain ⟨rfl, rfl⟩ := h
        exact ⟨Kept.refl _, by simp⟩
    | @named s args x hs hlen =>
      have h1 : matchSpecial env (matchF env n) a (.expr [S "Pattern", .sym x, .expr (.sym s :: args)]) pm = .goOn pm := by
        simp [matchSpecial, S]
      have hk : blankKind (.expr [S "Pattern", .sym x, .expr (.sym s :: args)]) = .named (.sym x) args := by
        rcases mem_blankHeads.1 hs with rfl | rfl | rfl <;> simp [blankKind, blankArgs, S]
      have hv : verbatimOp a (.expr [S "Pattern", .sym x, .expr (.sym s :: args)]) = none := by
        unfold verbatimOp; cases a <;> simp [S]
      rw [h1] at h
      simp only [matchNormal, hv, Option.getD_none, hk, Option.some.injEq] at h
      split at h
      · rename_i hok
        have hc := capture_sound (env := env) (pm := pm) (x := x) hs ((headOk_iff args a).1 hok) ha
        rw [h] at hc
        exact hc
      · simp only [Prod.mk.injEq] at h
        obtain ⟨rfl, rfl⟩ := h
        exact ⟨Kept.refl _, by simp⟩
    | app h1 h2 h3 =>
      have hp := PartsPat.app h1 h2 h3
      rw [hp.special] at h
      exact matchNormal_parts_sound hrec hp hbE ha (verbatimOp_sym a) h
    | appE h1 hv h2 h3 h4 =>
      have hp := PartsPat.appE h1 h2 h4
      rw [hp.special] at h
      exact matchNormal_parts_sound hrec hp hbE ha (verbatimOp_head a hv) h
    | @verb s ps h1 h2 h3 =>
      have hp := PartsPat.verb (s := s) h3
      rw [hp.special] at h
      cases hv : verbatimOp a (.expr (.expr [S "Verbatim", .sym s] :: ps)) with
      | none => exact matchNormal_parts_sound hrec hp hbE ha hv h
      | some b =>
        obtain ⟨g, as, rfl, _⟩ := verbatimOp_applies hv
        exact matchNormal_verb_sound hrec h1 h2 h3 ha hv h
    | alt hall =>
      have h1 : ∀ alts, matchSpecial env (matchF env n) a (.expr (S "Alternatives" :: alts)) pm = .done (matchAlts (matchF env n) a alts pm) := by
        intro alts; simp [matchSpecial, S]
      rw [h1] at h
      obtain ⟨k1, k2⟩ := matchAlts_sound hrec ha _ _ _ _ hall h
      refine ⟨k1, fun r hr => ?_⟩
      obtain ⟨p, hp, k3⟩ := k2 r hr
      cases r with
      | none => exact fun ρ => .alt hp (k3 ρ)
      | some q => exact ⟨k3.1, .alt hp k3.2⟩
    | @test p t hp =>
      simp only [matchSpecial, S, show ("System`" ++ "PatternTest" : String) = "System`PatternTest" from rfl, if_true,
        show ("System`PatternTest" : String) ≠ "System`Except" by decide, show ("System`PatternTest" : String) ≠ "System`Alternatives" by decide,
        if_false] at h
      split at h
      · rename_i hd
        split at hd
        · simp only [Special.done.injEq] at hd; subst hd; simp at h
        · rename_i pm1 h1
          simp only [Special.done.injEq] at hd; subst hd
          simp only [Option.some.injEq, Prod.mk.injEq] at h
          obtain ⟨rfl, rfl⟩ := h
          exact ⟨(hrec _ _ _ _ _ ha hp h1).1, by simp⟩
        · rename_i r0 tl pm1 h1
          simp only [Special.done.injEq] at hd; subst hd
          obtain ⟨k1, k2⟩ := hrec _ _ _ _ _ ha hp h1
          simp only [Option.some.injEq] at h
          split at h
          · rename_i hok
            simp only [Prod.mk.injEq] at h
            obtain ⟨rfl, rfl⟩ := h
            refine ⟨k1, fun r hr => ?_⟩
            simp at hr; subst hr
            have k3 := k2 r (by simp)
            have ht : TestHolds env t a := by
              unfold patternTestOk at hok
              unfold TestHolds
              split at hok
              · rw [if_pos ‹_›]; exact hok
              · rw [if_neg ‹_›]; exact hok
            cases r with
            | none => exact fun ρ => .test (k3 ρ) ht
            | some q => exact ⟨k3.1, .test k3.2 ht⟩
          · simp only [Prod.mk.injEq] at h
            obtain ⟨rfl, rfl⟩ := h
            exact ⟨k1, by simp⟩
      · rename_i hd
        split at hd <;> simp at hd
    | @hold p hp =>
      have h1 : matchSpecial env (matchF env n) a (.expr [S "HoldPattern", p]) pm = .done (matchF env n a p pm) := by
        simp [matchSpecial, S]
      rw [h1] at h
      obtain ⟨k1, k2⟩ := hrec _ _ _ _ _ ha hp h
      refine ⟨k1, fun r hr => ?_⟩
      have k3 := k2 r hr
      cases r with
      | none => exact fun ρ => .hold (k3 ρ)
      | some q => exact ⟨k3.1, .hold k3.2⟩

end Expreduce
