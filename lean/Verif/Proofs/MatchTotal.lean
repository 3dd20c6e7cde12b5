import Verif.Proofs.MatchSound

/-! The matcher returns normally on the covered patterns. -/

namespace Expreduce
open Ex

theorem mapO_total {α β : Type} {f : α → Option β} {xs : List α} (h : ∀ x ∈ xs, ∃ y, f x = some y) : ∃ ys, mapO f xs = some ys := by
  induction xs with
  | nil => exact ⟨[], rfl⟩
  | cons x xs ih =>
    obtain ⟨y, hy⟩ := h x (by simp)
    obtain ⟨ys, hys⟩ := ih (fun z hz => h z (by simp [hz]))
    exact ⟨y :: ys, by rw [mapO, hy, hys]⟩

theorem bindO_total {α β : Type} {f : α → Option (List β)} {xs : List α} (h : ∀ x ∈ xs, ∃ y, f x = some y) : ∃ ys, bindO f xs = some ys := by
  obtain ⟨ys, hys⟩ := mapO_total h
  exact ⟨ys.flatten, by unfold bindO; rw [hys]; rfl⟩

/-- Normal return for one pair. -/
def TotalAt (rec : MatchRec) (x form : Ex) : Prop := ∀ pm, ∃ r, rec x form pm = some r

theorem amiElems_total {rec : MatchRec} {form : Ex} : ∀ (xs : List Ex) (pm : PM), (∀ x ∈ xs, TotalAt rec x form) →
    ∃ out, amiElems rec form xs pm = some out
  | [], pm, _ => ⟨_, rfl⟩
  | x :: xs, pm, h => by
    obtain ⟨⟨rs, pm'⟩, hr⟩ := h x (by simp) pm
    rw [amiElems, hr]
    simp only
    exact bindO_total (fun r _ => amiElems_total xs _ (fun y hy => h y (by simp [hy])))

theorem amiRun_total {env : MEnv} {rec : MatchRec} {sh : String} : ∀ (forms : List ParsedForm) (segs : List (List Ex)) (pm : PM),
    (∀ f ∈ forms, ∀ seg ∈ segs, ∀ x ∈ seg, TotalAt rec x f.form) → ∃ out, amiRun env rec sh forms segs pm = some out
  | [], _, pm, _ => ⟨[pm], by simp [amiRun]⟩
  | _ :: _, [], pm, _ => ⟨[pm], by simp [amiRun]⟩
  | f :: fs, seg :: segs, pm, h => by
    obtain ⟨pms, hp⟩ := amiElems_total (rec := rec) (form := f.form) seg pm (h f (by simp) seg (by simp))
    rw [amiRun, hp]
    simp only
    refine bindO_total (fun q _ => ?_)
    cases defineSequence env sh f seg q with
    | none => exact ⟨_, rfl⟩
    | some q' => exact amiRun_total fs segs q' (fun g hg s hs => h g (by simp [hg]) s (by simp [hs]))

theorem matchRow_total {rec : MatchRec} {comps : List Ex} {form : Ex} (h : ∀ x ∈ comps, TotalAt rec x form) :
    ∃ row, matchRow rec comps form = some row := by
  unfold matchRow
  refine mapO_total (fun c hc => ?_)
  obtain ⟨r, hr⟩ := h c hc []
  exact ⟨_, by rw [hr]; rfl⟩

theorem formTable_total {rec : MatchRec} {comps : List Ex} : ∀ (forms : List ParsedForm),
    (∀ f ∈ forms, ∀ x ∈ comps, TotalAt rec x f.form) → ∃ t, formTable rec comps forms = some t
  | [], _ => ⟨_, rfl⟩
  | f :: fs, h => by
    obtain ⟨row, hr⟩ := matchRow_total (h f (by simp))
    obtain ⟨t, ht⟩ := formTable_total fs (fun g hg => h g (by simp [hg]))
    rw [formTable, hr]
    simp only
    split
    · exact ⟨_, rfl⟩
    · rw [ht]; cases t <;> exact ⟨_, rfl⟩

theorem assignments_total {l : Nat} {forms : List ParsedForm} (fm ordl) (hlo : ∀ f ∈ forms, 0 ≤ f.startI) (hne : forms ≠ []) :
    ∃ as, assignments l forms fm ordl = some as := by
  unfold assignments
  have : ¬ (forms.any (fun f => decide (f.startI < 0)) = true) := by
    intro h
    rw [List.any_eq_true] at h
    obtain ⟨f, hf, h⟩ := h
    have := hlo f hf
    simp at h; omega
  rw [if_neg this]
  cases ordl with
  | true => simp [hne]
  | false => simp

theorem seqMatch_total {env : MEnv} {rec : MatchRec} {comps lhs : List Ex} {ordl flat sh} {pm : PM} (hl : ∀ p ∈ lhs, APat p) (hne : lhs ≠ [])
    (h : ∀ p ∈ lhs, ∀ x ∈ comps, TotalAt rec x (shape (env.dflt sh) flat sh p).elem) :
    ∃ out, seqMatch env rec comps lhs ordl flat sh pm = some out := by
  unfold seqMatch
  obtain ⟨forms, hforms, hag⟩ := parse_all env (flat := flat) (sh := sh) (d := env.dflt sh) hl
  have hT : ∀ f ∈ forms, ∀ x ∈ comps, TotalAt rec x f.form := by
    intro f hf x hx
    obtain ⟨p, hp, ha⟩ := forall₂_mem_right hag hf
    rw [ha.elem]; exact h p hp x hx
  have hfne : forms ≠ [] := by
    rintro rfl
    have := hag.length_eq
    simp at this
    exact hne this
  have hlo : ∀ f ∈ forms, 0 ≤ f.startI := by
    intro f hf
    obtain ⟨p, hp, ha⟩ := forall₂_mem_right hag hf
    rw [ha.lo]; exact (hl p hp).shape_cases.2.2
  rw [hforms]
  simp only
  obtain ⟨t, ht⟩ := formTable_total (rec := rec) (comps := comps) forms hT
  rw [ht]
  cases t with
  | none => exact ⟨_, rfl⟩
  | some fm =>
    simp only
    obtain ⟨as, has⟩ := assignments_total (l := comps.length) fm ordl hlo hfne
    rw [has]
    simp only
    refine bindO_total (fun A _ => amiRun_total _ _ _ ?_)
    intro f hf seg hseg x hx
    rw [List.mem_map] at hseg
    obtain ⟨is, _, rfl⟩ := hseg
    exact hT f hf x (mem_filterMap_get x hx)

theorem wellFormedL_mem {ps : List Ex} (h : wellFormedL ps = true) : ∀ p ∈ ps, wellFormed p = true := by
  induction ps with
  | nil => simp
  | cons p ps ih =>
    simp only [wellFormedL, Bool.and_eq_true] at h
    intro q hq
    rcases List.mem_cons.1 hq with rfl | hq
    · exact h.1
    · exact ih h.2 q hq

theorem matchParts_total {env : MEnv} {rec : MatchRec} {as ps : List Ex} {pm : PM} {fo : Bool} (h : PartsPat ps) (has : as ≠ [])
    (hT : ∀ d flat sh, ∀ p ∈ ps, ∀ x ∈ as, TotalAt rec x (shape d flat sh p).elem) :
    ∃ r, matchParts env rec as ps fo pm = some r := by
  have hd : ∃ r, (seqMatch env rec as ps false false "Sequence" pm).map (fun rs => (rs.map some, pm)) = some r := by
    obtain ⟨o, ho⟩ := seqMatch_total (env := env) (rec := rec) (comps := as) (ordl := false) (pm := pm) h.args h.ne (hT _ false "Sequence")
    exact ⟨_, by rw [ho]; rfl⟩
  unfold matchParts
  split
  · rename_i ah at' bh bt
    split
    · rename_i s t
      split
      · rename_i hst
        subst hst
        obtain ⟨o, ho⟩ := seqMatch_total (env := env) (rec := rec) (comps := at') (lhs := bt) (ordl := env.orderless s && !fo) (flat := env.flat s && !fo)
          (sh := s) (pm := pm) (fun p hp => h.args p (by simp [hp])) (h.tail _ _ rfl)
          (fun p hp x hx => hT _ _ _ p (by simp [hp]) x (by simp [hx]))
        exact ⟨_, by rw [ho]; rfl⟩
      · exact hd
    · exact hd
  · rename_i hne
    exfalso
    rcases as with _ | ⟨x, as⟩
    · exact has rfl
    · rcases ps with _ | ⟨y, ps⟩
      · exact h.ne rfl
      · exact hne _ _ _ _ rfl rfl

theorem matchAlts_total {rec : MatchRec} {a : Ex} : ∀ (alts : List Ex) (pm : PM), (∀ p ∈ alts, TotalAt rec a p) →
    ∃ r, matchAlts rec a alts pm = some r
  | [], pm, _ => ⟨_, rfl⟩
  | alt :: alts, pm, h => by
    obtain ⟨⟨rs, pm'⟩, hr⟩ := h alt (by simp) pm
    rw [matchAlts, hr]
    cases rs with
    | nil => exact matchAlts_total alts pm' (fun p hp => h p (by simp [hp]))
    | cons r tl => exact ⟨_, rfl⟩

/-- The fuel that suffices. -/
def matchFuel (a b : Ex) : Nat := 2 * size b + (if isAtom a then 1 else 0)

theorem elem_fuel {d flat sh} {p x : Ex} {ps : List Ex} {n : Nat} (hp : p ∈ ps) (hA : APat p) (hn : 2 * size (.expr ps) ≤ n + 1) :
    matchFuel x (shape d flat sh p).elem ≤ n := by
  have h1 := hA.shape_cases (d := d) (flat := flat) (sh := sh)
  have h2 := size_le_sizeL hp
  unfold matchFuel
  simp only [size] at hn
  split <;> omega

theorem matchF_total (env : MEnv) : ∀ n a b pm, EPat b → wellFormed a = true → matchFuel a b ≤ n → ∃ r, matchF env n a b pm = some r
  | 0, a, b, pm, _, _, hn => by
    have := size_pos b
    unfold matchFuel at hn; omega
  | n + 1, a, b, pm, hb, ha, hn => by
    have hrec := matchF_total env n
    rw [matchF]
    have hne : ¬ (a = .expr [] ∨ b = .expr []) := by
      rintro (rfl | rfl)
      · simp [wellFormed] at ha
      · cases hb with
        | atom h => simp [isAtom] at h
    rw [if_neg hne]
    have hparts : ∀ ps, PartsPat ps → EPat (.expr ps) → matchFuel a (.expr ps) ≤ n + 1 → verbatimOp a (.expr ps) = none → ∃ r, matchNormal env (matchF env n) a (.expr ps) pm = some r := by
      intro ps h hE hn hv
      unfold matchNormal
      rw [hv]
      simp only [Option.getD_none, Option.isSome_none, h.blank]
      split
      · rename_i nn d _ _ _
        obtain ⟨r, hr⟩ := hrec (.expr [S "Rational", .int nn, .int d]) (.expr ps) pm hE (by simp [wellFormed, wellFormedL, S])
          (by simp [matchFuel, isAtom] at hn ⊢; omega)
        exact ⟨_, by rw [hr]; rfl⟩
      · rename_i re im _ _ _
        simp only [wellFormed, Bool.and_eq_true] at ha
        obtain ⟨r, hr⟩ := hrec (.expr [S "Complex", re, im]) (.expr ps) pm hE (by simp [wellFormed, wellFormedL, S, ha.1, ha.2])
          (by simp [matchFuel, isAtom] at hn ⊢; omega)
        exact ⟨_, by rw [hr]; rfl⟩
      · rw [hv]
        simp only [Option.isSome_none]
        rename_i hy hz
        rw [h.compound _ _ _ (fun n d e => hy n d ps e rfl) (fun x y e => hz x y ps e rfl)]
        unfold partsResult
        have helem : ∀ as : List Ex, (∀ x ∈ as, wellFormed x = true) → ∀ d flat sh, ∀ p ∈ ps, ∀ x ∈ as,
            TotalAt (matchF env n) x (shape d flat sh p).elem := by
          intro as has d flat sh p hp x hx pm
          exact hrec _ _ _ (h.args p hp).shape_cases.1 (has x hx)
            (elem_fuel hp (h.args p hp) (by unfold matchFuel at hn; omega))
        split
        · rename_i as has
          unfold assumedParts at has
          split at has
          · rename_i h0
            simp only [Option.some.injEq] at has
            subst has
            refine matchParts_total h (by simp) (helem _ ?_)
            intro x hx
            simp only [List.mem_cons, List.not_mem_nil, or_false] at hx
            rcases hx with rfl | rfl
            · unfold headOmitted at h0
              split at h0
              · rfl
              · simp at h0
            · exact ha
          · split at has
            · simp only [Option.some.injEq] at has
              subst has
              simp only [wellFormed, Bool.and_eq_true] at ha
              exact matchParts_total h (by rintro rfl; simp at ha) (helem _ (wellFormedL_mem ha.2))
            · simp at has
        · exact ⟨_, rfl⟩
    have hbE := hb
    cases hb with
    | atom hat =>
      have h1 : matchSpecial env (matchF env n) a b pm = .goOn pm := by
        unfold matchSpecial; cases b <;> simp_all [isAtom]
      have hv : verbatimOp a b = none := by
        unfold verbatimOp; cases b <;> simp_all [isAtom]
      have hk : blankKind b = .notBlank := by
        unfold blankKind; cases b <;> simp_all [isAtom]
      rw [h1]
      simp only [matchNormal, hv, Option.getD_none, hk, Option.isSome_none]
      split
      · simp [isAtom] at hat
      · simp [isAtom] at hat
      · rw [hv]
        simp only [Option.isSome_none]
        rw [matchCompound_atom hat]
        unfold atomResult
        split <;> exact ⟨_, rfl⟩
    | @blank s args hs hlen =>
      have h1 : matchSpecial env (matchF env n) a (.expr (.sym s :: args)) pm = .goOn pm := by
        rcases mem_blankHeads.1 hs with rfl | rfl | rfl <;> simp [matchSpecial]
      have hk : blankKind (.expr (.sym s :: args)) = .bare args := by
        rcases mem_blankHeads.1 hs with rfl | rfl | rfl <;> simp [blankKind, blankArgs]
      have hv : verbatimOp a (.expr (.sym s :: args)) = none := by
        unfold verbatimOp; cases a <;> simp
      rw [h1]
      simp only [matchNormal, hv, Option.getD_none, hk]
      exact ⟨_, rfl⟩
    | @named s args x hs hlen =>
      have h1 : matchSpecial env (matchF env n) a (.expr [S "Pattern", .sym x, .expr (.sym s :: args)]) pm = .goOn pm := by
        simp [matchSpecial, S]
      have hk : blankKind (.expr [S "Pattern", .sym x, .expr (.sym s :: args)]) = .named (.sym x) args := by
        rcases mem_blankHeads.1 hs with rfl | rfl | rfl <;> simp [blankKind, blankArgs, S]
      have hv : verbatimOp a (.expr [S "Pattern", .sym x, .expr (.sym s :: args)]) = none := by
        unfold verbatimOp; cases a <;> simp [S]
      rw [h1]
      simp only [matchNormal, hv, Option.getD_none, hk]
      exact ⟨_, rfl⟩
    | app h1 h2 h3 =>
      have hp := PartsPat.app h1 h2 h3
      rw [hp.special]
      exact hparts _ hp hbE hn (verbatimOp_sym a)
    | appE h1 hv h2 h3 h4 =>
      have hp := PartsPat.appE h1 h2 h4
      rw [hp.special]
      exact hparts _ hp hbE hn (verbatimOp_head a hv)
    | @verb s ps h1 h2 h3 =>
      have hp := PartsPat.verb (s := s) h3
      rw [hp.special]
      cases hv : verbatimOp a (.expr (.expr [S "Verbatim", .sym s] :: ps)) with
      | none => exact hparts _ hp hbE hn hv
      | some b =>
        obtain ⟨g, as, rfl, _⟩ := verbatimOp_applies hv
        have hP := PartsPat.app h1 h2 h3
        obtain ⟨as', has', e⟩ := matchNormal_verb (env := env) (rec := matchF env n) (pm := pm) h1 hP hv
        have hwf : ∀ x ∈ as', wellFormed x = true := by
          rcases has' with rfl | ⟨_, rfl⟩
          · simp only [wellFormed, Bool.and_eq_true] at ha
            exact wellFormedL_mem ha.2
          · intro x hx
            simp only [List.mem_cons, List.not_mem_nil, or_false] at hx
            rcases hx with rfl | rfl
            · rfl
            · exact ha
        obtain ⟨r, hr⟩ := matchParts_total (env := env) (rec := matchF env n) (pm := pm) (fo := true) (as := as') hP
          (by rcases has' with rfl | ⟨_, rfl⟩ <;> simp)
          (fun d flat sh p hp x hx pm => hrec _ _ _ (hP.args p hp).shape_cases.1 (hwf x hx)
            (elem_fuel hp (hP.args p hp) (by simp [matchFuel, isAtom, size, sizeL] at hn ⊢; omega)))
        exact ⟨r, by rw [← hr]; exact e⟩
    | @alt alts hall =>
      have h1 : matchSpecial env (matchF env n) a (.expr (S "Alternatives" :: alts)) pm = .done (matchAlts (matchF env n) a alts pm) := by
        simp [matchSpecial, S]
      rw [h1]
      refine matchAlts_total alts pm (fun p hp pm => hrec a p pm (hall p hp) ha ?_)
      have h2 := size_le_sizeL hp
      have h3 := size_pos (S "Alternatives")
      simp only [matchFuel, size, sizeL] at hn ⊢
      split at hn <;> split <;> simp_all <;> omega
    | @test p t hp =>
      obtain ⟨⟨rs, pm'⟩, hr⟩ := hrec a p pm hp ha (by
        have h3 := size_pos (S "PatternTest")
        simp only [matchFuel, size, sizeL] at hn ⊢
        split at hn <;> split <;> simp_all <;> omega)
      have h1 : matchSpecial env (matchF env n) a (.expr [S "PatternTest", p, t]) pm = .done (match rs with
        | [] => some ([], pm')
        | r :: _ => some (if patternTestOk env a t then ([r], pm') else ([], pm'))) := by
        simp only [matchSpecial, S, show ("System`" ++ "PatternTest" : String) = "System`PatternTest" from rfl, if_true,
          show ("System`PatternTest" : String) ≠ "System`Except" by decide, show ("System`PatternTest" : String) ≠ "System`Alternatives" by decide,
          if_false, hr]
        cases rs <;> rfl
      rw [h1]
      cases rs <;> exact ⟨_, rfl⟩
    | @hold p hp =>
      have h1 : matchSpecial env (matchF env n) a (.expr [S "HoldPattern", p]) pm = .done (matchF env n a p pm) := by
        simp [matchSpecial, S]
      rw [h1]
      refine hrec a p pm hp ha ?_
      have h3 := size_pos (S "HoldPattern")
      simp only [matchFuel, size, sizeL] at hn ⊢
      split at hn <;> split <;> simp_all <;> omega

/-- The result of `p ? test` from that of `p`. -/
def testResult (env : MEnv) (a t : Ex) : Option (List (Option PM) × PM) → Option (List (Option PM) × PM)
  | none => none
  | some ([], pm') => some ([], pm')
  | some (r :: _, pm') => some (if patternTestOk env a t then ([r], pm') else ([], pm'))

theorem matchSpecial_test (env : MEnv) (rec : MatchRec) (a p t : Ex) (pm : PM) :
    matchSpecial env rec a (.expr [S "PatternTest", p, t]) pm = .done (testResult env a t (rec a p pm)) := by
  simp only [matchSpecial, S, show ("System`" ++ "PatternTest" : String) = "System`PatternTest" from rfl, if_true,
    show ("System`PatternTest" : String) ≠ "System`Except" by decide, show ("System`PatternTest" : String) ≠ "System`Alternatives" by decide,
    if_false]
  rcases rec a p pm with _ | ⟨_ | ⟨r, tl⟩, pm'⟩ <;> rfl

/-! ### One step of the matcher, per kind of pattern -/

section steps
variable {env : MEnv} {n : Nat} {a : Ex} {pm : PM} (ha : a ≠ .expr [])
include ha

theorem matchF_atom {b : Ex} (hat : isAtom b = true) : matchF env (n + 1) a b pm = atomResult a b pm := by
  have h1 : matchSpecial env (matchF env n) a b pm = .goOn pm := by
    unfold matchSpecial; cases b <;> simp_all [isAtom]
  have hv : verbatimOp a b = none := by
    unfold verbatimOp; cases b <;> simp_all [isAtom]
  have hk : blankKind b = .notBlank := by
    unfold blankKind; cases b <;> simp_all [isAtom]
  rw [matchF, if_neg (by rintro (h | h); exact ha h; subst h; simp [isAtom] at hat), h1]
  simp only [matchNormal, hv, Option.getD_none, hk, Option.isSome_none]
  split
  · simp [isAtom] at hat
  · simp [isAtom] at hat
  · rw [hv]
    simp only [Option.isSome_none]
    exact matchCompound_atom hat

theorem matchF_blank {s : String} {args : List Ex} (hs : s ∈ blankHeads) : matchF env (n + 1) a (.expr (.sym s :: args)) pm =
    some (if headOk (headExOf a) args then ([some pm], pm) else ([], pm)) := by
  have h1 : matchSpecial env (matchF env n) a (.expr (.sym s :: args)) pm = .goOn pm := by
    rcases mem_blankHeads.1 hs with rfl | rfl | rfl <;> simp [matchSpecial]
  have hk : blankKind (.expr (.sym s :: args)) = .bare args := by
    rcases mem_blankHeads.1 hs with rfl | rfl | rfl <;> simp [blankKind, blankArgs]
  have hv : verbatimOp a (.expr (.sym s :: args)) = none := by
    unfold verbatimOp; cases a <;> simp
  rw [matchF, if_neg (by simp [ha]), h1]
  simp only [matchNormal, hv, Option.getD_none, hk]

theorem matchF_named {s : String} {args : List Ex} {x : String} (hs : s ∈ blankHeads) :
    matchF env (n + 1) a (.expr [S "Pattern", .sym x, .expr (.sym s :: args)]) pm =
      some (if headOk (headExOf a) args then capture a (.sym x) pm else ([], pm)) := by
  have h1 : matchSpecial env (matchF env n) a (.expr [S "Pattern", .sym x, .expr (.sym s :: args)]) pm = .goOn pm := by
    simp [matchSpecial, S]
  have hk : blankKind (.expr [S "Pattern", .sym x, .expr (.sym s :: args)]) = .named (.sym x) args := by
    rcases mem_blankHeads.1 hs with rfl | rfl | rfl <;> simp [blankKind, blankArgs, S]
  have hv : verbatimOp a (.expr [S "Pattern", .sym x, .expr (.sym s :: args)]) = none := by
    unfold verbatimOp; cases a <;> simp [S]
  rw [matchF, if_neg (by simp [ha]), h1]
  simp only [matchNormal, hv, Option.getD_none, hk]

theorem matchF_parts {ps : List Ex} (hp : PartsPat ps) : matchF env (n + 1) a (.expr ps) pm =
    matchNormal env (matchF env n) a (.expr ps) pm := by
  have := hp.ne
  rw [matchF, if_neg (by simp [ha, this]), hp.special]

theorem matchF_alt {alts : List Ex} : matchF env (n + 1) a (.expr (S "Alternatives" :: alts)) pm = matchAlts (matchF env n) a alts pm := by
  have h1 : matchSpecial env (matchF env n) a (.expr (S "Alternatives" :: alts)) pm = .done (matchAlts (matchF env n) a alts pm) := by
    simp [matchSpecial, S]
  rw [matchF, if_neg (by simp [ha]), h1]

theorem matchF_test {p t : Ex} : matchF env (n + 1) a (.expr [S "PatternTest", p, t]) pm = testResult env a t (matchF env n a p pm) := by
  rw [matchF, if_neg (by simp [ha]), matchSpecial_test]

theorem matchF_hold {p : Ex} : matchF env (n + 1) a (.expr [S "HoldPattern", p]) pm = matchF env n a p pm := by
  have h1 : matchSpecial env (matchF env n) a (.expr [S "HoldPattern", p]) pm = .done (matchF env n a p pm) := by
    simp [matchSpecial, S]
  rw [matchF, if_neg (by simp [ha]), h1]

end steps

theorem matchF_empty (env : MEnv) (n b pm) : matchF env n (.expr []) b pm = none := by
  cases n <;> simp [matchF]

/-- The comparison of parts, with the conversion of rationals and complex numbers. -/
theorem matchNormal_parts {env : MEnv} {rec : MatchRec} {a : Ex} {pm : PM} {ps : List Ex} (h : PartsPat ps) (hv : verbatimOp a (.expr ps) = none) :
    matchNormal env rec a (.expr ps) pm = match (generalizing := false) a with
      | .rat n d => firstOnly (rec (.expr [S "Rational", .int n, .int d]) (.expr ps) pm)
      | .cplx re im => firstOnly (rec (.expr [S "Complex", re, im]) (.expr ps) pm)
      | a => partsResult env rec ps a pm := by
  unfold matchNormal
  rw [hv]
  simp only [Option.getD_none, Option.isSome_none, h.blank]
  cases a <;> simp only <;> first | rfl | (rw [hv, Option.isSome_none, h.compound _ _ _ (by simp) (by simp)])

end Expreduce
