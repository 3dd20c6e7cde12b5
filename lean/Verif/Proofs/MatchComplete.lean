import Verif.Proofs.MatchInert
import Mathlib.Data.Finset.Card
import Mathlib.Data.Finset.Range
import Mathlib.Data.Finset.Image

/-! Completeness of the matcher. -/

namespace Expreduce
open Ex

/-- Completeness of the recursive call for one pair, under the bindings `ρ`. -/
def CompAt (env : MEnv) (rec : MatchRec) (ρ : String → Option Ex) (x form : Ex) : Prop :=
  ∀ pm rs pm', rec x form pm = some (rs, pm') → Kept pm ρ → Matches env ρ form x → ∃ r ∈ rs, Kept (pm'.updateO r) ρ

theorem kept_congr {p q : PM} {ρ} (h : q.get = p.get) (hp : Kept p ρ) : Kept q ρ := by
  intro x v hx
  rw [h] at hx
  exact hp x v hx

theorem bindO_mem' {α β : Type} {f : α → Option (List β)} {xs : List α} {ys : List β} (h : bindO f xs = some ys) {x : α} (hx : x ∈ xs) :
    ∃ zs, f x = some zs ∧ ∀ z ∈ zs, z ∈ ys := by
  unfold bindO at h
  rw [Option.map_eq_some_iff] at h
  obtain ⟨zss, h1, rfl⟩ := h
  have h2 := mapO_forall₂ h1
  clear h1
  induction h2 with
  | nil => simp at hx
  | @cons x' zs xs zss h3 _ ih =>
    rcases List.mem_cons.1 hx with rfl | hx
    · exact ⟨zs, h3, fun z hz => by simp [hz]⟩
    · obtain ⟨ws, h4, h5⟩ := ih hx
      refine ⟨ws, h4, fun z hz => ?_⟩
      rw [List.flatten_cons, List.mem_append]
      exact Or.inr (h5 z hz)

theorem amiElems_complete {env rec ρ} {form : Ex} : ∀ (xs : List Ex) (pm : PM) (out : List PM),
    (∀ x ∈ xs, CompAt env rec ρ x form) → (∀ x ∈ xs, Matches env ρ form x) → Kept pm ρ →
    amiElems rec form xs pm = some out → ∃ q ∈ out, Kept q ρ
  | [], pm, out, _, _, hk, h => by
    simp only [amiElems, Option.some.injEq] at h
    subst h
    exact ⟨pm, by simp, hk⟩
  | x :: xs, pm, out, hc, hm, hk, h => by
    rw [amiElems] at h
    split at h
    · simp at h
    · rename_i rs pm' hr
      obtain ⟨r, hrm, hk'⟩ := hc x (by simp) pm rs pm' hr hk (hm x (by simp))
      obtain ⟨zs, h1, h2⟩ := bindO_mem' h hrm
      obtain ⟨q, hq, hkq⟩ := amiElems_complete xs _ zs (fun y hy => hc y (by simp [hy])) (fun y hy => hm y (by simp [hy])) hk' h1
      exact ⟨q, h2 q hq, hkq⟩

theorem defineSequence_complete {env sh f seq} {q : PM} {ρ} (hv : notFlt (attemptDefine env sh f seq) = true) (hk : Kept q ρ)
    (hx : ∀ x, f.patSym = some x → ∃ v, ρ x = some v ∧ hash v = hash (attemptDefine env sh f seq)) :
    ∃ q', defineSequence env sh f seq q = some q' ∧ Kept q' ρ := by
  unfold defineSequence
  cases hp : f.patSym with
  | none => exact ⟨q, rfl, hk⟩
  | some x =>
    obtain ⟨v, hv1, hv2⟩ := hx x hp
    have hset : Kept (q.set x (attemptDefine env sh f seq)) ρ := by
      intro y w hy
      rw [PM.get_set] at hy
      split at hy
      · rename_i e; subst e
        simp only [Option.some.injEq] at hy; subst hy
        exact ⟨v, hv1, hv2.symm⟩
      · exact hk y w hy
    simp only
    cases hg : q.get x with
    | none => exact ⟨_, rfl, hset⟩
    | some w =>
      simp only
      obtain ⟨u, hu1, hu2⟩ := hk x w hg
      rw [hv1] at hu1
      simp only [Option.some.injEq] at hu1
      subst hu1
      have : isSameQ w (attemptDefine env sh f seq) = true := by
        rw [isSameQ_notFlt hv, hu2, hv2]
      rw [if_pos this]
      exact ⟨_, rfl, hset⟩

theorem amiRun_complete {env rec sh ρ} : ∀ (forms : List ParsedForm) (segs : List (List Ex)) (pm : PM) (out : List PM),
    (∀ f ∈ forms, ∀ seg ∈ segs, ∀ x ∈ seg, CompAt env rec ρ x f.form) →
    (∀ f ∈ forms, ∀ seg ∈ segs, notFlt (attemptDefine env sh f seg) = true) →
    (∀ (j : Nat) f seg, forms[j]? = some f → segs[j]? = some seg → (∀ x ∈ seg, Matches env ρ f.form x) ∧
      ∀ x, f.patSym = some x → ∃ v, ρ x = some v ∧ hash v = hash (attemptDefine env sh f seg)) →
    Kept pm ρ → amiRun env rec sh forms segs pm = some out → ∃ q ∈ out, Kept q ρ
  | [], segs, pm, out, _, _, _, hk, h => by
    simp only [amiRun, Option.some.injEq] at h
    subst h
    exact ⟨pm, by simp, hk⟩
  | f :: fs, [], pm, out, _, _, _, hk, h => by
    simp only [amiRun, Option.some.injEq] at h
    subst h
    exact ⟨pm, by simp, hk⟩
  | f :: fs, seg :: segs, pm, out, hc, hv, hm, hk, h => by
    rw [amiRun] at h
    split at h
    · simp at h
    · rename_i pms hp
      obtain ⟨m1, m2⟩ := hm 0 f seg rfl rfl
      obtain ⟨q1, hq1, hk1⟩ := amiElems_complete seg pm pms (hc f (by simp) seg (by simp)) m1 hk hp
      obtain ⟨q2, hd, hk2⟩ := defineSequence_complete (hv f (by simp) seg (by simp)) hk1 m2
      obtain ⟨zs, h1, h2⟩ := bindO_mem' h hq1
      rw [hd] at h1
      simp only at h1
      obtain ⟨q, hq, hkq⟩ := amiRun_complete fs segs q2 zs (fun g hg s hs => hc g (by simp [hg]) s (by simp [hs]))
        (fun g hg s hs => hv g (by simp [hg]) s (by simp [hs]))
        (fun j g s hg hs => hm (j + 1) g s (by simpa using hg) (by simpa using hs)) hk2 h1
      exact ⟨q, h2 q hq, hkq⟩

theorem matchRow_entry {env rec ρ} {comps : List Ex} {form : Ex} {row : List Bool} (h : matchRow rec comps form = some row)
    {i : Nat} {c : Ex} (hi : comps[i]? = some c) (hc : CompAt env rec ρ c form) (hm : Matches env ρ form c) : row[i]? = some true := by
  have h1 := mapO_forall₂ h
  obtain ⟨y, hy, e⟩ := forall₂_get_left h1 hi
  rw [Option.map_eq_some_iff] at e
  obtain ⟨⟨rs, pm'⟩, e1, e2⟩ := e
  obtain ⟨r, hr, _⟩ := hc [] rs pm' e1 (kept_nil ρ) hm
  rw [hy, ← e2]
  cases rs with
  | nil => simp at hr
  | cons => rfl

/-- A list of distinct positions that are all true is at most as long as the number of true entries. -/
theorem count_ge : ∀ (row : List Bool) (is : List Nat), is.Nodup → (∀ i ∈ is, row[i]? = some true) → is.length ≤ row.count true := by
  intro row is hn h
  have h1 : is.length = is.toFinset.card := (List.toFinset_card_of_nodup hn).symm
  have h2 : is.toFinset ⊆ (Finset.range row.length).filter (fun i => row[i]? = some true) := by
    intro i hi
    have hi' := h i (by simpa using hi)
    simp only [Finset.mem_filter, Finset.mem_range]
    refine ⟨?_, hi'⟩
    rw [List.getElem?_eq_some_iff] at hi'
    exact hi'.1
  have h3 : ∀ row : List Bool, ((Finset.range row.length).filter (fun i => row[i]? = some true)).card = row.count true := by
    intro row
    induction row with
    | nil => simp
    | cons b row ih =>
      have : (Finset.range (b :: row).length).filter (fun i => (b :: row)[i]? = some true) =
          (if b = true then {0} else ∅) ∪ ((Finset.range row.length).filter (fun i => row[i]? = some true)).map ⟨Nat.succ, Nat.succ_injective⟩ := by
        ext i
        cases i with
        | zero => cases b <;> simp
        | succ i => cases b <;> simp
      rw [this, Finset.card_union_of_disjoint, Finset.card_map, ih]
      · cases b
        · simp
        · simp; omega
      · rw [Finset.disjoint_left]
        intro i hi
        cases b <;> simp at hi
        subst hi; simp
  rw [h1, ← h3 row]
  exact Finset.card_le_card h2

theorem layout_nodup {ordl l} {A : List (List Nat)} (h : Layout ordl l A) : A.flatten.Nodup ∧ ∀ is ∈ A, is.Nodup ∧ ∀ i ∈ is, i < l := by
  have hp : A.flatten.Perm (List.range l) := by
    unfold Layout at h
    split at h
    · exact h.1
    · rw [h]
  have hn : A.flatten.Nodup := hp.nodup_iff.2 List.nodup_range
  refine ⟨hn, fun is his => ⟨?_, ?_⟩⟩
  · rw [List.nodup_flatten] at hn
    exact hn.1 is his
  · intro i hi
    have : i ∈ A.flatten := List.mem_flatten.2 ⟨is, his, hi⟩
    simpa using hp.mem_iff.1 this

theorem formTable_complete {rec : MatchRec} {comps : List Ex} : ∀ (forms : List ParsedForm) (A : List (List Nat)) (t),
    A.length = forms.length → (∀ is ∈ A, is.Nodup) →
    (∀ (j : Nat) f is, forms[j]? = some f → A[j]? = some is → f.startI ≤ is.length ∧
      ∀ row, matchRow rec comps f.form = some row → ∀ i ∈ is, row[i]? = some true) →
    formTable rec comps forms = some t → ∃ fm, t = some fm ∧ fm.length = forms.length ∧
      ∀ (j : Nat) is, A[j]? = some is → ∀ i ∈ is, (fm[j]?.getD [])[i]?.getD false = true
  | [], A, t, hl, _, _, h => by
    simp only [formTable, Option.some.injEq] at h
    subst h
    refine ⟨[], rfl, rfl, ?_⟩
    intro j is hj
    simp at hl; subst hl; simp at hj
  | f :: fs, [], t, hl, _, _, _ => by simp at hl
  | f :: fs, is :: A, t, hl, hn, hm, h => by
    rw [formTable] at h
    split at h
    · simp at h
    · rename_i row hrow
      obtain ⟨m1, m2⟩ := hm 0 f is rfl rfl
      have hge := count_ge row is (hn is (by simp)) (m2 row hrow)
      rw [if_neg (by omega)] at h
      have hrest : ∀ t', formTable rec comps fs = some t' → _ := fun t' ht' =>
        formTable_complete fs A t' (by simpa using hl) (fun x hx => hn x (by simp [hx]))
          (fun j g s hg hs => hm (j + 1) g s (by simpa using hg) (by simpa using hs)) ht'
      split at h
      · simp at h
      · rename_i ht
        obtain ⟨fm, e, _⟩ := hrest _ ht
        simp at e
      · rename_i rows ht
        obtain ⟨fm, e, e1, e2⟩ := hrest _ ht
        simp only [Option.some.injEq] at h e
        subst h; subst e
        refine ⟨row :: rows, rfl, by simp [e1], ?_⟩
        intro j s hj i hi
        cases j with
        | zero =>
          simp at hj; subst hj
          simp [m2 row hrow i hi]
        | succ j =>
          simp at hj
          simpa using e2 j s hj i hi

theorem seqMatch_complete {env : MEnv} [env.Exact] {rec ρ} {comps lhs : List Ex} {ordl flat sh} {pm : PM} {out} {A}
    (hc : ∀ x ∈ comps, noReal x = true) (hl : ∀ p ∈ lhs, APat p) (hne : lhs ≠ [])
    (hcomp : ∀ p ∈ lhs, ∀ x ∈ comps, CompAt env rec ρ x (shape (env.dflt sh) flat sh p).elem) (hk : Kept pm ρ)
    (hS : SeqSpec env ρ flat ordl sh lhs comps A)
    (h : seqMatch env rec comps lhs ordl flat sh pm = some out) : ∃ q ∈ out, Kept q ρ := by
  unfold seqMatch at h
  obtain ⟨forms, hforms, hag⟩ := parse_all env (flat := flat) (sh := sh) (d := env.dflt sh) hl
  rw [hforms] at h
  simp only at h
  obtain ⟨s1, s2, s3, s4, s5⟩ := hS
  obtain ⟨n1, n2⟩ := layout_nodup s2
  have hfl : A.length = forms.length := by rw [s1, hag.length_eq]
  have hget : ∀ {j : Nat} {f : ParsedForm}, forms[j]? = some f → ∃ p, lhs[j]? = some p ∧ p ∈ lhs ∧ FormAgrees env (env.dflt sh) flat sh p f := by
    intro j f hf
    obtain ⟨p, hp, r⟩ := forall₂_get_left hag.flip hf
    exact ⟨p, hp, List.mem_of_getElem? hp, r⟩
  have hcompF : ∀ f ∈ forms, ∀ x ∈ comps, CompAt env rec ρ x f.form := by
    intro f hf x hx
    obtain ⟨p, hp, ha⟩ := forall₂_mem_right hag hf
    rw [ha.elem]; exact hcomp p hp x hx
  have hpick : ∀ is, ∀ x ∈ pick comps is, x ∈ comps := fun is x hx => mem_filterMap_get x hx
  have htab := fun t => formTable_complete (rec := rec) (comps := comps) forms A t hfl (fun is his => (n2 is his).1) (by
    intro j f is hf his
    obtain ⟨p, hp, hpm, ha⟩ := hget hf
    refine ⟨?_, ?_⟩
    · rw [ha.lo]; exact (s3 j p is hp his).1
    · intro row hrow i hi
      have hil := (n2 is (List.mem_of_getElem? his)).2 i hi
      have hci : comps[i]? = some comps[i] := List.getElem?_eq_getElem hil
      refine matchRow_entry hrow hci (hcompF f (List.mem_of_getElem? hf) _ (List.getElem_mem hil)) ?_
      rw [ha.elem]
      exact s4 j p is i _ hp his hi hci)
  split at h
  · simp at h
  · rename_i ht
    obtain ⟨fm, e, _⟩ := htab _ ht
    simp at e
  · rename_i fm ht
    obtain ⟨fm', e, hfm, hent⟩ := htab _ ht
    simp only [Option.some.injEq] at e
    subst e
    have hfne : forms ≠ [] := by
      rintro rfl
      have := hag.length_eq
      simp at this
      exact hne this
    split at h
    · simp at h
    · rename_i as has
      have hA : A ∈ as := by
        rw [assignments_mem hfne has]
        refine ⟨?_, s2, fun _ j b hb x hx => hent j b hb x hx⟩
        rw [List.forall₂_iff_get]
        refine ⟨hfl.symm, ?_⟩
        intro j h1 h2
        have hf : forms[j]? = some forms[j] := List.getElem?_eq_getElem h1
        have hAj : A[j]? = some A[j] := List.getElem?_eq_getElem h2
        obtain ⟨p, hp, hpm, ha⟩ := hget hf
        have := s3 j p _ hp hAj
        simp only [List.get_eq_getElem]
        rw [ha.lo, ha.hi]
        exact this
      obtain ⟨zs, h1, h2⟩ := bindO_mem' h hA
      have hvals : ∀ p f, p ∈ lhs → FormAgrees env (env.dflt sh) flat sh p f → ∀ is, notFlt (attemptDefine env sh f (pick comps is)) = true := by
        intro p f hpl ha is
        rw [ha.value]
        exact notFlt_value _ _ _ (hl p hpl).absent_ok (fun x hx => hc x (hpick is x hx))
      obtain ⟨q, hq, hkq⟩ := amiRun_complete forms (A.map (pick comps)) pm zs
        (by
          intro f hf seg hseg x hx
          rw [List.mem_map] at hseg
          obtain ⟨is, _, rfl⟩ := hseg
          exact hcompF f hf x (hpick is x hx))
        (by
          intro f hf seg hseg
          rw [List.mem_map] at hseg
          obtain ⟨is, _, rfl⟩ := hseg
          obtain ⟨p, hp, ha⟩ := forall₂_mem_right hag hf
          exact hvals p f (by first | exact hp | exact hpm) ha is)
        (by
          intro j f seg hf hseg
          rw [List.getElem?_map, Option.map_eq_some_iff] at hseg
          obtain ⟨is, his, rfl⟩ := hseg
          obtain ⟨p, hp, hpm, ha⟩ := hget hf
          refine ⟨?_, ?_⟩
          · intro x hx
            unfold pick at hx
            rw [List.mem_filterMap] at hx
            obtain ⟨i, hi, hci⟩ := hx
            rw [ha.elem]
            exact s4 j p is i x hp his hi hci
          · intro x hx
            rw [ha.name] at hx
            obtain ⟨v, hv, e⟩ := s5 j p is x hp his hx
            refine ⟨v, hv, ?_⟩
            have h3 := hvals p f (by first | exact hp | exact hpm) ha is
            rw [ha.value] at h3 ⊢
            rw [← isSameQ_notFlt h3]
            exact e) hk h1
      exact ⟨q, h2 q hq, hkq⟩

/-! ### The inherited conditions -/

theorem committedL_iff (ps : List Ex) : committedL ps = true ↔ ∀ p ∈ ps, committed p = true := by
  induction ps with
  | nil => simp [committedL]
  | cons p ps ih => simp [committedL, ih]

theorem plainHeadsL_iff (ps : List Ex) : plainHeadsL ps = true ↔ ∀ p ∈ ps, plainHeads p = true := by
  induction ps with
  | nil => simp [plainHeadsL]
  | cons p ps ih => simp [plainHeadsL, ih]

theorem quotFreeL_iff (ps : List Ex) : quotFreeL ps = true ↔ ∀ p ∈ ps, quotFree p = true := by
  induction ps with
  | nil => simp [quotFreeL]
  | cons p ps ih => simp [quotFreeL, ih]

theorem committed_sub {ps : List Ex} (h : committed (.expr ps) = true) : ∀ p ∈ ps, committed p = true := by
  simp only [committed, Bool.and_eq_true] at h
  exact (committedL_iff ps).1 h.2

theorem committed_inherits : Inherits (fun p => committed p = true) where
  sub := fun ps h => committed_sub h
  blank := by
    intro s args as _ h1 h
    simp only [committed, Bool.and_eq_true]
    refine ⟨by simp [committedHere, S], ?_⟩
    rw [committedL_iff]
    intro p hp
    rcases List.mem_cons.1 hp with rfl | hp
    · rfl
    · rcases h1 with rfl | rfl
      · exact committed_sub h p (by simp [List.mem_of_mem_take hp])
      · simp at hp

theorem committed_notVerb {ps : List Ex} (h : committed (.expr ps) = true) : ∀ h t, ps = h :: t → hasHead "System`Verbatim" h = false := by
  rintro hd tl rfl
  simp only [committed, Bool.and_eq_true] at h
  have := h.1
  cases hd with
  | sym s => rfl
  | _ => simpa [committedHere] using this

theorem committed_test {q t : Ex} (h : committed (.expr [S "PatternTest", q, t]) = true) : testBodyOk q = true := by
  simp only [committed, Bool.and_eq_true] at h
  have := h.1
  simpa [committedHere, S] using this

theorem committed_alt {alts : List Ex} (h : committed (.expr (S "Alternatives" :: alts)) = true) : ∀ p ∈ alts, nameFree p = true := by
  simp only [committed, Bool.and_eq_true] at h
  have := h.1
  simpa [committedHere, S] using this

theorem derived_nameFree_body {x : String} {b e : Ex} (h : Derived (.expr [S "Pattern", .sym x, b]) e) (hb : nameFree b = true) :
    nameFree e = true := by
  cases h with
  | refl h1 => simp [headSym, S] at h1
  | blank h1 _ =>
    simp [blankHeads] at h1
  | rep h1 => simp [specialHeads] at h1
  | pat h1 => exact nameFree_inherits.derived h1 hb

theorem testBodyOk_pattern {x : String} {b : Ex} (h : testBodyOk (.expr [S "Pattern", .sym x, b]) = true) : nameFree b = true := by
  unfold testBodyOk at h
  rw [Bool.or_eq_true] at h
  rcases h with h | h
  · exact (nameFree_pattern h).elim
  · simp only [Bool.and_eq_true] at h
    simpa using h.2

theorem testBodyOk_derived {q e : Ex} (hq : testBodyOk q = true) (h : (BPat q ∧ Derived q e) ∨
    (∃ x b, q = .expr [S "Pattern", .sym x, b] ∧ BPat b ∧ (Derived q e ∨ (∃ y b', b = .expr [S "Pattern", .sym y, b']) ∧ e = b))) :
    nameFree e = true := by
  rcases h with ⟨hB, hd⟩ | ⟨x, b, rfl, hB, hd⟩
  · by_cases hp : headSym q = some "System`Pattern"
    · obtain ⟨x, b, rfl, _⟩ := hB.isPat hp
      exact derived_nameFree_body hd (testBodyOk_pattern hq)
    · have hf : nameFree q = true := by
        unfold testBodyOk at hq
        rw [Bool.or_eq_true] at hq
        rcases hq with h | h
        · exact h
        · simp only [Bool.and_eq_true] at h
          rw [hasHead_false hp] at h
          simp at h
      exact nameFree_inherits.derived hd hf
  · have hb := testBodyOk_pattern hq
    rcases hd with hd | ⟨⟨y, b', rfl⟩, rfl⟩
    · exact derived_nameFree_body hd hb
    · exact (nameFree_pattern hb).elim

theorem committed_shape {d flat sh} {p : Ex} (h : APat p) (hp : committed p = true) : committed (shape d flat sh p).elem = true := by
  refine committed_inherits.shapeElem ?_ h hp
  intro q e t hq h1
  have ht := committed_test hq
  have hf : nameFree e = true := testBodyOk_derived ht (by
    rcases h1 with ⟨b, rfl, hb, hd⟩ | h1
    · exact Or.inl ⟨hb, hd⟩
    · exact Or.inr h1)
  have he : committed e = true := by
    rcases h1 with ⟨b, rfl, hb, hd⟩ | ⟨x, b, rfl, hb, hd | ⟨_, rfl⟩⟩
    · exact committed_inherits.derived hd (committed_sub hq _ (by simp))
    · exact committed_inherits.derived hd (committed_sub hq _ (by simp))
    · exact committed_sub (committed_sub hq (.expr [S "Pattern", .sym x, e]) (by simp)) _ (by simp)
  simp only [committed, Bool.and_eq_true]
  refine ⟨by simp [committedHere, S, testBodyOk, hf], ?_⟩
  rw [committedL_iff]
  intro y hy
  simp only [List.mem_cons, List.not_mem_nil, or_false] at hy
  rcases hy with rfl | rfl | rfl
  · rfl
  · exact he
  · exact committed_sub hq _ (by simp)

theorem plainHeads_sub {ps : List Ex} (h : plainHeads (.expr ps) = true) : ∀ p ∈ ps, plainHeads p = true := by
  simp only [plainHeads, Bool.and_eq_true] at h
  exact (plainHeadsL_iff ps).1 h.2

theorem plainHead_blank (as : List Ex) : plainHead (S "Blank" :: as) = true := by
  simp only [plainHead, S]
  decide +kernel

theorem plainHead_test (as : List Ex) : plainHead (S "PatternTest" :: as) = true := by
  simp only [plainHead, S]
  decide +kernel

theorem plainHeads_inherits : Inherits (fun p => plainHeads p = true) where
  sub := fun ps h => plainHeads_sub h
  blank := by
    intro s args as _ h1 h
    simp only [plainHeads, Bool.and_eq_true]
    refine ⟨plainHead_blank as, ?_⟩
    rw [plainHeadsL_iff]
    intro p hp
    rcases List.mem_cons.1 hp with rfl | hp
    · rfl
    · rcases h1 with rfl | rfl
      · exact plainHeads_sub h p (by simp [List.mem_of_mem_take hp])
      · simp at hp

theorem plainHeads_shape {d flat sh} {p : Ex} (h : APat p) (hp : plainHeads p = true) : plainHeads (shape d flat sh p).elem = true := by
  refine plainHeads_inherits.shapeElem ?_ h hp
  intro q e t hq h1
  have he : plainHeads e = true := by
    rcases h1 with ⟨b, rfl, hb, hd⟩ | ⟨x, b, rfl, hb, hd | ⟨_, rfl⟩⟩
    · exact plainHeads_inherits.derived hd (plainHeads_sub hq _ (by simp))
    · exact plainHeads_inherits.derived hd (plainHeads_sub hq _ (by simp))
    · exact plainHeads_sub (plainHeads_sub hq (.expr [S "Pattern", .sym x, e]) (by simp)) _ (by simp)
  simp only [plainHeads, Bool.and_eq_true]
  refine ⟨plainHead_test _, ?_⟩
  rw [plainHeadsL_iff]
  intro y hy
  simp only [List.mem_cons, List.not_mem_nil, or_false] at hy
  rcases hy with rfl | rfl | rfl
  · rfl
  · exact he
  · exact plainHeads_sub hq _ (by simp)

/-- Without `Optional` in the pattern no head is assumed. -/
theorem not_headOmitted {env : MEnv} {ps : List Ex} (h : ∀ p ∈ ps, isOptional p = false) (a : Ex) : headOmitted env ps a = false := by
  unfold headOmitted
  split
  · rename_i s qs
    have : qs.any isOptional = false := by
      rw [List.any_eq_false]
      intro q hq
      simp [h q (by simp [hq])]
    rw [this]; simp
  · rfl

theorem not_headOmitted_plain {env : MEnv} {ps : List Ex} (h : plainHeads (.expr ps) = true) {a : Ex} : headOmitted env ps a = false := by
  refine not_headOmitted (fun p hp => ?_) a
  have := plainHeads_sub h p hp
  unfold isOptional
  split
  · rename_i s _
    simp only [plainHeads, plainHead, Bool.and_eq_true, bne_iff_ne] at this
    simpa using this.1.1.1
  · rfl

/-- A pattern `f[...]` with another head than `Rational` and `Complex` does not match a number. -/
theorem not_matches_number {env ρ} {ps as : List Ex} {a : Ex} {k : String} (hp : PartsPat ps) (hh : plainHeads (.expr ps) = true)
    (ha : partsOf a = some (.sym k :: as)) (hat : isAtom a = true) (hk : k = "System`Rational" ∨ k = "System`Complex")
    (h : Matches env ρ (.expr ps) a) : False := by
  have hsp : ∀ s, s ∈ specialHeads → ∀ t, ps ≠ .sym s :: t := by
    rintro s hs' t rfl
    exact hp.head s rfl hs'
  rcases ps with _ | ⟨hd, tl⟩
  · exact hp.ne rfl
  cases hd with
  | sym s =>
    have hne : isSameQ (.sym k) (.sym s) = false := by
      simp only [plainHeads, plainHead, S, Bool.and_eq_true, Bool.not_eq_true'] at hh
      rcases hk with rfl | rfl
      · exact hh.1.1.2
      · exact hh.1.2
    have hks : s ≠ k := by
      rintro rfl
      rw [isSameQ_notFlt' rfl |>.2 rfl] at hne
      simp at hne
    cases h with
    | lit h1 _ _ => simp [isAtom] at h1
    | blank h1 _ => exact hsp _ (by simp [specialHeads, h1]) _ rfl
    | named h1 => exact hsp "System`Pattern" (by simp [specialHeads]) _ rfl
    | same A h1 h2 h3 h4 h5 h6 h7 =>
      rw [ha] at h2
      simp at h2
      exact hks h2.1.symm
    | diff A h1 h2 h3 _ h3' h4 h5 h6 h7 =>
      rw [ha] at h2
      simp only [Option.some.injEq] at h2
      subst h2
      rcases A with _ | ⟨is, A⟩
      · simp at h3'
      have hlen := h5 0 (.sym s) is rfl rfl
      have e : is.length = 1 := by
        simp [shape, testShape, namedShape, bodyShape] at hlen
        omega
      obtain ⟨i, rfl⟩ := List.length_eq_one_iff.1 e
      have hl : i = 0 := by
        simp only [Layout, Bool.false_eq_true, if_false, List.flatten_cons, List.length_cons] at h4
        rw [List.range_succ_eq_map] at h4
        simp at h4
        exact h4.1
      subst hl
      have hm := h6 0 (.sym s) [0] 0 (.sym k) rfl rfl (by simp) rfl
      simp [shape, testShape, namedShape, bodyShape] at hm
      cases hm with
      | lit _ _ h9 => rw [hne] at h9; simp at h9
    | clash h1 h2 _ _ => rw [ha] at h2; simp at h2
    | assumed _ h2 _ =>
      rw [not_headOmitted_plain hh] at h2; simp at h2
    | alt => exact hsp "System`Alternatives" (by simp [specialHeads]) _ rfl
    | test => exact hsp "System`PatternTest" (by simp [specialHeads]) _ rfl
    | hold => exact hsp "System`HoldPattern" (by simp [specialHeads]) _ rfl
  | _ => simp [plainHeads, plainHead] at hh

theorem quotFree_sub {ps : List Ex} (h : quotFree (.expr ps) = true) : ∀ p ∈ ps, quotFree p = true := (quotFreeL_iff ps).1 h

theorem matchParts_complete {env : MEnv} [env.Exact] {rec ρ} {as ps : List Ex} {a : Ex} {pm pm' : PM} {rs} (h : PartsPat ps) (ha : partsOf a = some as)
    (h0 : headOmitted env ps a = false) (hn : noReal a = true) (hcomp : ∀ d flat sh, ∀ p ∈ ps, ∀ x ∈ as, CompAt env rec ρ x (shape d flat sh p).elem) (hk : Kept pm ρ)
    (hv : ∀ h t, ps = h :: t → hasHead "System`Verbatim" h = false)
    (hm : Matches env ρ (.expr ps) a) (hr : matchParts env rec as ps false pm = some (rs, pm')) : ∃ r ∈ rs, Kept (pm'.updateO r) ρ := by
  have hnr := noReal_parts hn ha
  have hsp : ∀ s, s ∈ specialHeads → ∀ t, ps ≠ .sym s :: t := by
    rintro s hs' t rfl
    exact h.head s rfl hs'
  have hfin : ∀ {o : Option (List PM)}, (∀ l, o = some l → ∃ q ∈ l, Kept q ρ) → o.map (fun rs => (rs.map some, pm)) = some (rs, pm') →
      ∃ r ∈ rs, Kept (pm'.updateO r) ρ := by
    intro o ho hr
    rw [Option.map_eq_some_iff] at hr
    obtain ⟨qs, h1, h2⟩ := hr
    simp only [Prod.mk.injEq] at h2
    obtain ⟨rfl, rfl⟩ := h2
    obtain ⟨q, hq, hkq⟩ := ho qs h1
    refine ⟨some q, by simp [hq], ?_⟩
    intro y v hy
    simp only [PM.updateO] at hy
    rw [PM.get_update] at hy
    cases hg : q.get y with
    | none => rw [hg] at hy; exact hk y v hy
    | some w => rw [hg] at hy; simp at hy; subst hy; exact hkq y w hg
  cases hm with
  | lit h1 _ _ => simp [isAtom] at h1
  | blank h1 _ => exact absurd rfl (hsp _ (by simp [specialHeads, h1]) _)
  | named h1 => exact absurd rfl (hsp "System`Pattern" (by simp [specialHeads]) _)
  | @same s qs as' _ A h1 h2 h3 h4 h5 h6 h7 =>
    rw [ha] at h2
    simp only [Option.some.injEq] at h2
    subst h2
    simp only [matchParts, if_true, Bool.not_false, Bool.and_true] at hr
    refine hfin (fun l hl => ?_) hr
    exact seqMatch_complete (fun x hx => hnr x (by simp [hx])) (fun p hp => h.args p (by simp [hp])) (h.tail _ _ rfl)
      (fun p hp x hx => hcomp _ _ _ p (by simp [hp]) x (by simp [hx])) hk ⟨h3, h4, h5, h6, h7⟩ hl
  | diff A h1 h2 h3 _ h3' h4 h5 h6 h7 =>
    rw [ha] at h2
    simp only [Option.some.injEq] at h2
    subst h2
    refine hfin (o := seqMatch env rec as ps false false "Sequence" pm) (fun l hl => ?_) ?_
    · exact seqMatch_complete hnr h.args h.ne (hcomp _ _ _) hk ⟨h3', h4, h5, h6, h7⟩ hl
    · unfold matchParts at hr
      split at hr
      · split at hr
        · split at hr
          · rename_i e
            subst e
            exact absurd ⟨rfl, rfl⟩ (h3 _)
          · exact hr
        · exact hr
      · simp at hr
  | clash h1 h2 _ _ => rw [ha] at h2; simp at h2
  | assumed _ h2 _ => rw [h0] at h2; simp at h2
  | alt => exact absurd rfl (hsp "System`Alternatives" (by simp [specialHeads]) _)
  | test => exact absurd rfl (hsp "System`PatternTest" (by simp [specialHeads]) _)
  | hold => exact absurd rfl (hsp "System`HoldPattern" (by simp [specialHeads]) _)
  | verb => exact absurd (hv _ _ rfl) (by simp [hasHead, S])
  | verbClash => exact absurd (hv _ _ rfl) (by simp [hasHead, S])

theorem capture_complete {a : Ex} {x : String} {pm : PM} {ρ} {v} (hk : Kept pm ρ) (ha : noReal a = true) (hv : ρ x = some v)
    (hs : isSameQ v a = true) : ∃ r ∈ (capture a (.sym x) pm).1, Kept ((capture a (.sym x) pm).2.updateO r) ρ := by
  rw [isSameQ_notFlt (noReal_notFlt ha)] at hs
  have hself : ∀ q : PM, Kept q ρ → Kept (q.updateO (some q)) ρ := by
    intro q hq
    refine kept_congr ?_ hq
    funext y
    simp only [PM.updateO]
    rw [PM.get_update]
    cases q.get y <;> rfl
  unfold capture
  simp only
  cases hg : pm.get x with
  | none =>
    refine ⟨_, List.mem_singleton.2 rfl, hself _ ?_⟩
    intro y w hy
    rw [PM.get_set] at hy
    split at hy
    · rename_i e; subst e
      simp only [Option.some.injEq] at hy; subst hy
      exact ⟨v, hv, hs.symm⟩
    · exact hk y w hy
  | some w =>
    obtain ⟨u, hu, e⟩ := hk x w hg
    rw [hv] at hu
    simp only [Option.some.injEq] at hu
    subst hu
    have : isSameQ w a = true := by rw [isSameQ_notFlt (noReal_notFlt ha), e, hs]
    simp only [this, if_true]
    exact ⟨_, List.mem_singleton.2 rfl, hself _ hk⟩

theorem matchAlts_complete {env rec ρ} {a : Ex} : ∀ (alts : List Ex) (pm pm' : PM) (rs),
    (∀ p ∈ alts, InertRec rec p) → (∀ p ∈ alts, CompAt env rec ρ a p) → Kept pm ρ → (∃ p ∈ alts, Matches env ρ p a) →
    matchAlts rec a alts pm = some (rs, pm') → rs ≠ []
  | [], pm, pm', rs, _, _, _, h, _ => by simp at h
  | alt :: alts, pm, pm', rs, hi, hc, hk, ⟨p, hp, hm⟩, h => by
    rw [matchAlts] at h
    split at h
    · simp at h
    · rename_i pm1 h1
      rcases List.mem_cons.1 hp with rfl | hp
      · obtain ⟨r, hr, _⟩ := hc _ (by simp) _ _ _ h1 hk hm
        simp at hr
      · exact matchAlts_complete alts pm1 pm' rs (fun p hp => hi p (by simp [hp])) (fun p hp => hc p (by simp [hp]))
          (kept_congr (hi alt (by simp) _ _ _ _ h1).1 hk) ⟨p, hp, hm⟩ h
    · simp only [Option.some.injEq, Prod.mk.injEq] at h
      obtain ⟨rfl, rfl⟩ := h
      simp

/-- Completeness of the matcher. -/
theorem matchF_complete (env : MEnv) [env.Exact] (ρ) : ∀ n a b, EPat b → committed b = true → plainHeads b = true ∨ quotFree a = true →
    noReal a = true → CompAt env (matchF env n) ρ a b
  | 0, a, b, _, _, _, _ => by intro pm rs pm' h; simp [matchF] at h
  | n + 1, a, b, hb, hc, hq, hn => by
    have hrec := matchF_complete env ρ n
    intro pm rs pm' h hk hm
    have ha : a ≠ .expr [] := by rintro rfl; rw [matchF_empty] at h; simp at h
    have hsub : ∀ {ps : List Ex}, PartsPat ps → plainHeads (.expr ps) = true ∨ quotFree a = true → committed (.expr ps) = true →
        ∀ as : List Ex, (∀ x ∈ as, noReal x = true ∧ (quotFree a = true → quotFree x = true)) → ∀ d flat sh, ∀ p ∈ ps, ∀ x ∈ as,
          CompAt env (matchF env n) ρ x (shape d flat sh p).elem := by
      rintro ps hP hq hc as has d flat sh p hp x hx
      refine hrec x _ (hP.args p hp).shape_cases.1 (committed_shape (hP.args p hp) (committed_sub hc p hp)) ?_ (has x hx).1
      rcases hq with hq | hq
      · exact Or.inl (plainHeads_shape (hP.args p hp) (plainHeads_sub hq p hp))
      · exact Or.inr ((has x hx).2 hq)
    have hparts : ∀ ps, PartsPat ps → plainHeads (.expr ps) = true ∨ quotFree a = true → committed (.expr ps) = true →
        Matches env ρ (.expr ps) a → matchF env (n + 1) a (.expr ps) pm = some (rs, pm') → ∃ r ∈ rs, Kept (pm'.updateO r) ρ := by
      intro ps hP hq hc hm h
      have hnv := committed_notVerb hc
      have hv : verbatimOp a (.expr ps) = none := by
        rcases ps with _ | ⟨hd, tl⟩
        · exact absurd rfl hP.ne
        · exact verbatimOp_head a (hnv _ _ rfl)
      rw [matchF_parts ha hP, matchNormal_parts hP hv] at h
      have hnum : ∀ k as, partsOf a = some (.sym k :: as) → isAtom a = true → k = "System`Rational" ∨ k = "System`Complex" →
          quotFree a = false → False := by
        intro k as h1 h2 h3 h4
        rcases hq with hq | hq
        · exact not_matches_number hP hq h1 h2 h3 hm
        · rw [hq] at h4; simp at h4
      split at h
      · exact (hnum "System`Rational" _ rfl rfl (Or.inl rfl) rfl).elim
      · exact (hnum "System`Complex" _ rfl rfl (Or.inr rfl) rfl).elim
      · rename_i x1 x2
        have hsp : ∀ s, s ∈ specialHeads → ∀ t, ps ≠ .sym s :: t := by
          rintro s hs' t rfl
          exact hP.head s rfl hs'
        have hop : opened a = a := by
          revert x1 x2
          cases a <;> intro x1 x2 <;> first | rfl | (exfalso; exact x1 _ _ rfl) | (exfalso; exact x2 _ _ rfl)
        unfold partsResult at h
        by_cases h0 : headOmitted env ps a = true
        · obtain ⟨s, qs, rfl⟩ : ∃ s qs, ps = .sym s :: qs := by
            unfold headOmitted at h0
            split at h0
            · exact ⟨_, _, rfl⟩
            · simp at h0
          have e : assumedParts env (.sym s :: qs) a = some [.sym s, a] := by
            unfold assumedParts; rw [h0]; rfl
          rw [e] at h
          simp only at h
          have h0' : headOmitted env (.sym s :: qs) (.expr [.sym s, a]) = false := by
            simp [headOmitted, partsOf]
          have hn' : noReal (.expr [.sym s, a]) = true := by simp [noReal, noRealL, hn]
          have hm' : Matches env ρ (.expr (.sym s :: qs)) (.expr [.sym s, a]) := by
            cases hm with
            | lit h1 _ _ => simp [isAtom] at h1
            | blank h1 _ => exact absurd rfl (hsp _ (by simp [specialHeads, h1]) _)
            | named h1 => exact absurd rfl (hsp "System`Pattern" (by simp [specialHeads]) _)
            | same A h1 h2 => simp [headOmitted, h2] at h0
            | diff A h1 h2 h3 h4 => rw [h0] at h4; simp at h4
            | clash _ _ _ h1 _ => rw [h0] at h1; simp at h1
            | assumed _ _ h1 => rw [hop] at h1; exact h1
            | alt => exact absurd rfl (hsp "System`Alternatives" (by simp [specialHeads]) _)
            | test => exact absurd rfl (hsp "System`PatternTest" (by simp [specialHeads]) _)
            | hold => exact absurd rfl (hsp "System`HoldPattern" (by simp [specialHeads]) _)
          refine matchParts_complete hP (a := .expr [.sym s, a]) rfl h0' hn' (hsub hP hq hc _ ?_) hk hnv hm' h
          intro x hx
          simp only [List.mem_cons, List.not_mem_nil, or_false] at hx
          rcases hx with rfl | rfl
          · exact ⟨rfl, fun _ => rfl⟩
          · exact ⟨hn, id⟩
        · have h0f : headOmitted env ps a = false := by simpa using h0
          unfold assumedParts at h
          rw [h0f] at h
          simp only [Bool.false_eq_true, if_false] at h
          have hclash : partsOf a = none → isSameQ a (.expr ps) = true := by
            intro hp
            cases hm with
            | lit h1 _ _ => simp [isAtom] at h1
            | blank h1 _ => exact absurd rfl (hsp _ (by simp [specialHeads, h1]) _)
            | named h1 => exact absurd rfl (hsp "System`Pattern" (by simp [specialHeads]) _)
            | same A h1 h2 => rw [hp] at h2; simp at h2
            | diff A h1 h2 => rw [hp] at h2; simp at h2
            | clash _ _ _ _ h1 => exact h1
            | assumed _ h1 _ => rw [h0f] at h1; simp at h1
            | alt => exact absurd rfl (hsp "System`Alternatives" (by simp [specialHeads]) _)
            | test => exact absurd rfl (hsp "System`PatternTest" (by simp [specialHeads]) _)
            | hold => exact absurd rfl (hsp "System`HoldPattern" (by simp [specialHeads]) _)
            | verb => exact absurd (hnv _ _ rfl) (by simp [hasHead, S])
            | verbClash => exact absurd (hnv _ _ rfl) (by simp [hasHead, S])
          cases a with
          | expr as =>
            exact matchParts_complete hP rfl h0f hn (hsub hP hq hc _ (fun x hx => ⟨noReal_parts hn rfl x hx, fun hq => quotFree_sub hq x hx⟩)) hk hnv hm h
          | rat _ _ => exact absurd rfl (x1 _ _)
          | cplx _ _ => exact absurd rfl (x2 _ _)
          | _ =>
            rw [hclash rfl] at h
            simp only [if_true, Option.some.injEq, Prod.mk.injEq] at h
            obtain ⟨rfl, rfl⟩ := h
            exact ⟨none, by simp, hk⟩
    cases hb with
    | atom hat =>
      rw [matchF_atom ha hat] at h
      cases hm with
      | lit h1 h2 h3 =>
        unfold atomResult at h
        split at h
        · simp [isAtom] at h2
        · rw [h3] at h
          simp only [if_true, Option.some.injEq, Prod.mk.injEq] at h
          obtain ⟨rfl, rfl⟩ := h
          exact ⟨none, by simp, hk⟩
      | _ => simp [isAtom] at hat
    | @blank s args hs hlen =>
      rw [matchF_blank ha hs] at h
      have hok : BlankAdmits args a := by
        cases hm with
        | lit h1 => simp [isAtom] at h1
        | blank _ h1 => exact h1
        | named => simp [blankHeads] at hs
        | same A h1 => exact absurd (by simp [specialHeads, hs]) h1
        | diff A h1 => exact absurd (by simp [specialHeads, hs]) (h1 s rfl)
        | clash _ _ h1 => exact absurd (by simp [specialHeads, hs]) (h1 s rfl)
        | assumed h1 => exact absurd (by simp [specialHeads, hs]) h1
        | alt => simp [blankHeads] at hs
        | test => simp [blankHeads] at hs
        | hold => simp [blankHeads] at hs
      rw [(headOk_iff args a).2 hok] at h
      simp only [if_true, Option.some.injEq, Prod.mk.injEq] at h
      obtain ⟨rfl, rfl⟩ := h
      refine ⟨some pm, by simp, kept_congr ?_ hk⟩
      funext y
      simp only [PM.updateO]
      rw [PM.get_update]
      cases pm.get y <;> rfl
    | @named s args x hs hlen =>
      rw [matchF_named ha hs] at h
      have hok : BlankAdmits args a ∧ ∃ v, ρ x = some v ∧ isSameQ v a = true := by
        cases hm with
        | lit h1 => simp [isAtom] at h1
        | blank h1 => simp [blankHeads] at h1
        | named _ h1 h2 h3 => exact ⟨h1, _, h2, h3⟩
        | same A h1 => exact absurd (by simp [specialHeads]) h1
        | diff A h1 => exact absurd (by simp [specialHeads]) (h1 "System`Pattern" rfl)
        | clash _ _ h1 => exact absurd (by simp [specialHeads]) (h1 "System`Pattern" rfl)
        | assumed h1 => exact absurd (by simp [specialHeads]) h1
      obtain ⟨hok, v, hv1, hv2⟩ := hok
      rw [(headOk_iff args a).2 hok] at h
      simp only [if_true, Option.some.injEq] at h
      have := capture_complete (x := x) hk hn hv1 hv2
      rw [h] at this
      exact this
    | app h1 h2 h3 => exact hparts _ (PartsPat.app h1 h2 h3) hq hc hm h
    | appE h1 hv h2 h3 h4 => exact hparts _ (PartsPat.appE h1 h2 h4) hq hc hm h
    | @verb s ps _ _ _ => simp [committed, committedHere, hasHead, S] at hc
    | @alt alts hall =>
      rw [matchF_alt ha] at h
      have hnf := committed_alt hc
      have hi : ∀ p ∈ alts, InertRec (matchF env n) p := fun p hp => matchF_inert env n p (hall p hp) (hnf p hp)
      have hex : ∃ p ∈ alts, Matches env ρ p a := by
        cases hm with
        | lit h1 => simp [isAtom] at h1
        | blank h1 => simp [blankHeads] at h1
        | same A h1 => exact absurd (by simp [specialHeads]) h1
        | diff A h1 => exact absurd (by simp [specialHeads]) (h1 "System`Alternatives" rfl)
        | clash _ _ h1 => exact absurd (by simp [specialHeads]) (h1 "System`Alternatives" rfl)
        | assumed h1 => exact absurd (by simp [specialHeads]) h1
        | alt h1 h2 => exact ⟨_, h1, h2⟩
      have hq' : ∀ p ∈ alts, plainHeads p = true ∨ quotFree a = true := fun p hp =>
        hq.imp (fun h => plainHeads_sub h p (by simp [hp])) id
      have hne := matchAlts_complete alts pm pm' rs hi
        (fun p hp => hrec a p (hall p hp) (committed_sub hc p (by simp [hp])) (hq' p hp) hn) hk hex h
      obtain ⟨r, tl, rfl⟩ := List.exists_cons_of_ne_nil hne
      refine ⟨r, by simp, kept_congr ?_ hk⟩
      exact (matchAlts_inert alts pm pm' _ hi h).eff (by simp)
    | @test p t hp =>
      rw [matchF_test ha] at h
      have hex : Matches env ρ p a ∧ TestHolds env t a := by
        cases hm with
        | lit h1 => simp [isAtom] at h1
        | blank h1 => simp [blankHeads] at h1
        | same A h1 => exact absurd (by simp [specialHeads]) h1
        | diff A h1 => exact absurd (by simp [specialHeads]) (h1 "System`PatternTest" rfl)
        | clash _ _ h1 => exact absurd (by simp [specialHeads]) (h1 "System`PatternTest" rfl)
        | assumed h1 => exact absurd (by simp [specialHeads]) h1
        | test h1 h2 => exact ⟨h1, h2⟩
      have ht : patternTestOk env a t = true := by
        have := hex.2
        unfold TestHolds at this
        unfold patternTestOk
        split
        · rw [if_pos ‹_›] at this; exact this
        · rw [if_neg ‹_›] at this; exact this
      have hcp := hrec a p hp (committed_sub hc p (by simp)) (hq.imp (fun h => plainHeads_sub h p (by simp)) id) hn
      have hbody := committed_test hc
      unfold testResult at h
      split at h
      · simp at h
      · rename_i pm1 h1
        obtain ⟨r, hr, _⟩ := hcp _ _ _ h1 hk hex.1
        simp at hr
      · rename_i r0 tl pm1 h1
        rw [ht] at h
        simp only [if_true, Option.some.injEq, Prod.mk.injEq] at h
        obtain ⟨rfl, rfl⟩ := h
        refine ⟨r0, by simp, ?_⟩
        by_cases hf : nameFree p = true
        · exact kept_congr ((matchF_inert env n p hp hf _ _ _ _ h1).eff (by simp)) hk
        · -- a name at the top: exactly one result
          have hhead : headSym p = some "System`Pattern" := by
            unfold testBodyOk at hbody
            rw [Bool.or_eq_true] at hbody
            rcases hbody with h | h
            · exact absurd h hf
            · simp only [Bool.and_eq_true] at h
              by_contra hc
              rw [hasHead_false hc] at h
              simp at h
          obtain ⟨r, hr, hkr⟩ := hcp _ _ _ h1 hk hex.1
          have hone : tl = [] := by
            cases n with
            | zero => simp [matchF] at h1
            | succ n =>
              cases hp with
              | atom h => cases p <;> simp_all [isAtom, headSym]
              | blank hs h2 => rcases mem_blankHeads.1 hs with rfl | rfl | rfl <;> simp [headSym] at hhead
              | @named s args x hs h2 =>
                rw [matchF_named ha hs] at h1
                simp only [Option.some.injEq] at h1
                split at h1
                · unfold capture at h1
                  simp only at h1
                  split at h1
                  · simp only [Prod.mk.injEq, List.cons.injEq] at h1; exact h1.1.2.symm
                  · split at h1
                    · simp only [Prod.mk.injEq, List.cons.injEq] at h1; exact h1.1.2.symm
                    · simp at h1
                · simp at h1
              | @app s ps hs _ _ =>
                simp only [headSym, Option.some.injEq] at hhead
                subst hhead
                simp [specialHeads] at hs
              | verb _ _ _ => simp [headSym] at hhead
              | @appE h ps hs _ h2 _ _ =>
                cases h <;> simp [headSym] at hhead
                exact absurd rfl (hs _)
              | alt => simp [headSym, S] at hhead
              | test => simp [headSym, S] at hhead
              | hold => simp [headSym, S] at hhead
          subst hone
          simp at hr; subst hr
          exact hkr
    | @hold p hp =>
      rw [matchF_hold ha] at h
      have hex : Matches env ρ p a := by
        cases hm with
        | lit h1 => simp [isAtom] at h1
        | blank h1 => simp [blankHeads] at h1
        | same A h1 => exact absurd (by simp [specialHeads]) h1
        | diff A h1 => exact absurd (by simp [specialHeads]) (h1 "System`HoldPattern" rfl)
        | clash _ _ h1 => exact absurd (by simp [specialHeads]) (h1 "System`HoldPattern" rfl)
        | assumed h1 => exact absurd (by simp [specialHeads]) h1
        | hold h1 => exact h1
      exact hrec a p hp (committed_sub hc p (by simp)) (hq.imp (fun h => plainHeads_sub h p (by simp)) id) hn _ _ _ h hk hex

end Expreduce
