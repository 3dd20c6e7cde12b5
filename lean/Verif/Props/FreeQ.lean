import Verif.Model.FreeQ
import Verif.Props.Replace
import Verif.Props.Matrix

/-! # C99: `FreeQ` -/

namespace Expreduce
open Ex

namespace FreeQ

/-- The matcher says yes. -/
def matchYes (env : MEnv) (m : Nat) (val u : Ex) : Bool :=
  match isMatchQ env m u val [] with
  | some (true, _) => true
  | _ => false

/-- What is looked for, replaced by the dummy symbol. -/
def hitDummy (env : MEnv) (m : Nat) (val u : Ex) : Option Ex := if matchYes env m val u then some (.sym dummyName) else none

/-- The expression with the outermost occurrences of what is looked for replaced. -/
def mark (env : MEnv) (m : Nat) (val : Ex) : Ex → Ex := rewriteOut (fun _ => false) (hitDummy env m val)

end FreeQ
open FreeQ

theorem rewriteOut_skip {skip skip' : Ex → Bool} {hit : Ex → Option Ex} : ∀ e : Ex, (∀ u ∈ subexprs e, skip u = skip' u) →
    rewriteOut skip hit e = rewriteOut skip' hit e := by
  intro e
  induction e using Ex.ind with
  | hexpr ps ih =>
    intro h
    simp only [rewriteOut, rewriteOutL_eq, h _ (subexprs_self _)]
    have : ps.map (rewriteOut skip hit) = ps.map (rewriteOut skip' hit) :=
      List.map_congr_left (fun p hp => ih p hp (fun u hu => h u (mem_subexprs_part hp hu)))
    rw [this]
  | _ => intro _; rw [rewriteOut_atom rfl, rewriteOut_atom rfl]

theorem rewriteOut_hit {hit : Ex → Option Ex} {w u : Ex} (hw : ∀ u v, hit u = some v → v = w) : ∀ e : Ex, u ∈ subexprs e → hit u ≠ none →
    w ∈ subexprs (rewriteOut (fun _ => false) hit e) := by
  intro e
  induction e using Ex.ind with
  | hexpr ps ih =>
    intro hu hn
    simp only [rewriteOut, rewriteOutL_eq]
    cases hh : hit (.expr ps) with
    | some v => rw [hw _ _ hh]; exact subexprs_self _
    | none =>
      simp only [subexprs, List.mem_cons, mem_subexprsL_iff] at hu
      rcases hu with rfl | ⟨p, hp, hu⟩
      · exact absurd hh hn
      · exact mem_subexprs_part (List.mem_map_of_mem hp) (ih p hp hu hn)
  | _ =>
    intro hu hn
    simp only [subexprs, List.mem_singleton] at hu
    subst hu
    rw [rewriteOut_atom rfl]
    obtain ⟨v, hv⟩ := Option.ne_none_iff_exists'.1 hn
    rw [hv, hw _ _ hv]
    exact subexprs_self _

theorem isSameQ_refl_or (a b : Ex) (hn : hash a = hash b → a = b) (hr : (∀ x y, a ≠ .flt x ∨ b ≠ .flt y)) : isSameQ a b = true ↔ a = b := by
  have : isSameQ a b = (hash a == hash b) := by
    unfold isSameQ
    split
    · rename_i x y; rcases hr x y with h | h <;> exact absurd rfl h
    · rfl
  rw [this]
  exact ⟨fun h => hn (by simpa using h), fun h => by simp [h]⟩

/-- What `FreeQ` compares with. -/
theorem freeQFn_mark {env : MEnv} {m : Nat} {ev : Ex → Ex} {e val : Ex} (hfl : ∀ s args, val = .expr (.sym s :: args) → env.flat s = false)
    (hs : containsSymbol "" e = false) (htot : ∀ u ∈ subexprs e, ∃ v q, isMatchQ env m u val [] = some (v, q))
    (hnm : ∀ u ∈ subexprs e, ∀ q, isMatchQ env m u val [] = some (true, q) → bindingsOf q dummyName = none)
    (hcl : ∀ u ∈ subexprs e, hash (mark env m val u) = hash u → mark env m val u = u) :
    freeQFn env m ev e val = some (isSameQ e (ev (mark env m val e))) := by
  have hsk : ∀ u ∈ subexprs e, rewriteOut (hasHead "") (hitDummy env m val) u = mark env m val u := by
    intro u hu
    exact rewriteOut_skip u (fun w hw => hasHead_empty hs w (subexprs_trans hw hu))
  have hD : Decides env m val (.sym dummyName) (hitDummy env m val) e := by
    intro u hu
    obtain ⟨v, q, hvq⟩ := htot u hu
    cases v with
    | false =>
      have : hitDummy env m val u = none := by simp [hitDummy, matchYes, hvq]
      rw [this]
      exact ⟨q, hvq⟩
    | true =>
      have : hitDummy env m val u = some (.sym dummyName) := by simp [hitDummy, matchYes, hvq]
      rw [this]
      refine ⟨q, hvq, ?_⟩
      rw [replacePD_bindings]
      simp [subst, hnm u hu q hvq]
  have := replaceAll_eq (env := env) (m := m) (stop := "") (lhs := val) (rhs := .sym dummyName) (hit := hitDummy env m val) hfl e hD (by
    intro u hu h
    rw [hsk u hu] at h ⊢
    exact hcl u hu h)
  unfold freeQFn replaceAllFn
  have hrule : (Ex.expr [S "Rule", val, .sym dummyName]) = rule val (.sym dummyName) := rfl
  rw [hrule, getValidRules_rule]
  simp only [rulesReplaceAll, ruleSides, rule]
  rw [this, hsk e (subexprs_self e)]

theorem mark_eq_iff {env : MEnv} {m : Nat} {val e : Ex} (hd : .sym dummyName ∉ subexprs e) :
    (mark env m val e = e ↔ ∀ u ∈ subexprs e, matchYes env m val u = false) ∧
      ((∃ u ∈ subexprs e, matchYes env m val u = true) → .sym dummyName ∈ subexprs (mark env m val e)) := by
  have h1 : (∃ u ∈ subexprs e, matchYes env m val u = true) → .sym dummyName ∈ subexprs (mark env m val e) := by
    rintro ⟨u, hu, h⟩
    refine rewriteOut_hit (hit := hitDummy env m val) (u := u) ?_ e hu (by simp [hitDummy, h])
    intro u v h
    unfold hitDummy at h
    split at h <;> simp_all
  refine ⟨⟨fun h u hu => ?_, fun h => ?_⟩, h1⟩
  · by_contra hc
    have := h1 ⟨u, hu, by simpa using hc⟩
    rw [h] at this
    exact hd this
  · exact rewriteOut_none e (fun u hu => by simp [hitDummy, h u hu])

theorem not_mem_subst_bind1 {x y : String} (hx : x ≠ y) : ∀ e : Ex, Ex.sym x ∉ subexprs (subst (bind1 x (.sym y)) e) := by
  intro e
  induction e using Ex.ind with
  | hexpr ps ih =>
    simp only [subst, substL_eq, subexprs, List.mem_cons, mem_subexprsL_iff, reduceCtorEq, false_or, not_exists, not_and]
    intro p hp
    obtain ⟨q, hq, rfl⟩ := List.mem_map.1 hp
    exact ih q hq
  | hsym s =>
    simp only [subst, bind1]
    by_cases h : s = x
    · simp [h, subexprs, hx]
    · simp only [h, if_false, subexprs, List.mem_singleton, Ex.sym.injEq]
      exact fun h' => h h'.symm
  | _ => simp [subst, subexprs]

/-- **C99, symbols.** `FreeQ[e, x]` says `True` exactly if the symbol `x` occurs nowhere in `e` (heads included). `e` is a value, and
evaluation does not bring up symbols that are not in its input. -/
theorem C99_symbol (env : MEnv) (m : Nat) (hm : 1 ≤ m) (ev : Ex → Ex) (x : String) (e : Ex) (hx : x ≠ dummyName)
    (hw : wellFormed e = true) (hs : containsSymbol "" e = false) (hval : ev e = e)
    (hev : ∀ u, .sym x ∉ subexprs u → .sym x ∉ subexprs (ev u))
    (hcl : NoCollision (.sym x :: subexprs e ++ subexprs (subst (bind1 x (.sym dummyName)) e) ++ [ev (subst (bind1 x (.sym dummyName)) e)])) :
    ∃ b, freeQFn env m ev e (.sym x) = some b ∧ (b = true ↔ .sym x ∉ subexprs e) := by
  have hD := decides_symbol (env := env) (v := .sym dummyName) hm hw (fun u hu h => hcl u (by simp [hu]) (.sym x) (by simp) h)
  have hne : ∀ u ∈ subexprs e, hasHead "" u = false := hasHead_empty hs
  have hre : ∀ u ∈ subexprs e, rewriteOut (hasHead "") (onlyAt (.sym x) (.sym dummyName)) u = subst (bind1 x (.sym dummyName)) u := fun u hu =>
    rewriteOut_subst u (fun w hw => hne w (subexprs_trans hw hu))
  have hstep := replaceAll_eq (env := env) (m := m) (stop := "") (lhs := .sym x) (rhs := .sym dummyName) (hit := onlyAt (.sym x) (.sym dummyName))
    (by simp) e hD (by
      intro u hu hh
      rw [hre u hu] at hh ⊢
      refine hcl _ ?_ _ ?_ hh
      · have := subst_subexprs (ρ := bind1 x (.sym dummyName)) _ hu
        simp [this]
      · simp [hu])
  rw [hre _ (subexprs_self _)] at hstep
  have hgo : freeQFn env m ev e (.sym x) = some (isSameQ e (ev (subst (bind1 x (.sym dummyName)) e))) := by
    unfold freeQFn replaceAllFn
    have hrule : (Ex.expr [S "Rule", .sym x, .sym dummyName]) = rule (.sym x) (.sym dummyName) := rfl
    rw [hrule, getValidRules_rule]
    simp only [rulesReplaceAll, ruleSides, rule]
    rw [hstep]
  refine ⟨_, hgo, ?_⟩
  by_cases hxe : .sym x ∈ subexprs e
  · have hfree : Ex.sym x ∉ subexprs (subst (bind1 x (.sym dummyName)) e) := by
      exact not_mem_subst_bind1 hx e
    have h1 := hev _ hfree
    simp only [hxe, not_true, iff_false, Bool.not_eq_true]
    by_contra hc
    simp only [Bool.not_eq_false] at hc
    have hne' : e ≠ ev (subst (bind1 x (.sym dummyName)) e) := by intro h; rw [← h] at h1; exact h1 hxe
    have hnf : ∀ y, e ≠ .flt y := by rintro y rfl; simp [subexprs] at hxe
    rw [isSameQ_refl_or _ _ (fun h => hcl _ (by simp [subexprs_self]) _ (by simp) h) (fun y _ => .inl (hnf y))] at hc
    exact hne' hc
  · have : subst (bind1 x (.sym dummyName)) e = e := subst_bind1_id (by
      by_contra hc; exact hxe ((containsSymbol_iff_mem x e).1 (by simpa using hc)))
    rw [this, hval]
    simp [hxe, isSameQ_refl']

theorem noReal_subexprs : ∀ (e u : Ex), u ∈ subexprs e → noReal e = true → noReal u = true := by
  intro e
  induction e using Ex.ind with
  | hexpr ps ih =>
    intro u hu hr
    simp only [subexprs, List.mem_cons, mem_subexprsL_iff] at hu
    rcases hu with rfl | ⟨p, hp, hu⟩
    · exact hr
    · exact ih p hp u hu (noRealL_mem (by simpa [noReal] using hr) p hp)
  | _ => intro u hu hr; simp only [subexprs, List.mem_singleton] at hu; subst hu; exact hr

/-- **C99, patterns.** `FreeQ[e, pattern]` says `True` exactly if no subexpression of `e` (heads included, `e` itself included) is an
instance of the pattern. (Covered patterns, see C20, whose head is not `Flat`; `e` is a value without machine reals, and evaluation
does not make the dummy symbol disappear.) -/
theorem C99_pattern_partial (env : MEnv) [env.Exact] (m : Nat) (ev : Ex → Ex) (val e : Ex) (hb : EPat val) (hc : committed val = true)
    (hfl : ∀ s args, val = .expr (.sym s :: args) → env.flat s = false) (hn : 2 * size val + 1 ≤ m)
    (hq : plainHeads val = true ∨ quotFree e = true) (hr : noReal e = true) (hw : wellFormed e = true) (hs : containsSymbol "" e = false)
    (hdv : dummyName ∉ patNames val) (hde : .sym dummyName ∉ subexprs e) (hval : ev e = e)
    (hev : .sym dummyName ∈ subexprs (mark env m val e) → .sym dummyName ∈ subexprs (ev (mark env m val e)))
    (hcl : ∀ u ∈ subexprs e, hash (mark env m val u) = hash u → mark env m val u = u)
    (hcl' : hash e = hash (ev (mark env m val e)) → e = ev (mark env m val e)) :
    ∃ b, freeQFn env m ev e val = some b ∧ (b = true ↔ ∀ u ∈ subexprs e, ¬ ∃ ρ, Matches env ρ val u) := by
  have hcov : ∀ u ∈ subexprs e, ∃ v q, isMatchQ env m u val [] = some (v, q) ∧ (v = true → Matches env (bindingsOf q) val u ∧ OnlyNames (bindingsOf q) val) ∧
      (v = false → ¬ ∃ ρ, Matches env ρ val u) := by
    intro u hu
    refine isMatchQ_covered ⟨hb, hc, ?_, hn⟩ (noReal_subexprs e u hu hr) (wellFormed_subexprs hw hu)
    rcases hq with hq | hq
    · exact .inl hq
    · exact .inr (quotFree_subexprs e u hu hq)
  have hgo := freeQFn_mark (ev := ev) hfl hs (fun u hu => by obtain ⟨v, q, h, _⟩ := hcov u hu; exact ⟨v, q, h⟩)
    (by
      intro u hu q h
      obtain ⟨v, q', h', h1, _⟩ := hcov u hu
      rw [h] at h'
      simp only [Option.some.injEq, Prod.mk.injEq] at h'
      obtain ⟨rfl, rfl⟩ := h'
      by_contra hne
      exact hdv ((h1 rfl).2 _ hne)) hcl
  refine ⟨_, hgo, ?_⟩
  have hyes : ∀ u ∈ subexprs e, (matchYes env m val u = true ↔ ∃ ρ, Matches env ρ val u) := by
    intro u hu
    obtain ⟨v, q, h, h1, h2⟩ := hcov u hu
    cases v with
    | true => simp only [matchYes, h]; exact ⟨fun _ => ⟨_, (h1 rfl).1⟩, fun _ => trivial⟩
    | false => simp only [matchYes, h, Bool.false_eq_true, false_iff]; exact h2 rfl
  obtain ⟨hm1, hm2⟩ := mark_eq_iff (env := env) (m := m) (val := val) hde
  constructor
  · intro h u hu hmt
    have h3 := hev (hm2 ⟨u, hu, (hyes u hu).2 hmt⟩)
    have hnf : ∀ y, e ≠ .flt y := by rintro y rfl; simp [noReal] at hr
    rw [isSameQ_refl_or _ _ hcl' (fun y _ => .inl (hnf y))] at h
    rw [← h] at h3
    exact hde h3
  · intro h
    have : mark env m val e = e := hm1.2 (fun u hu => by
      cases hy : matchYes env m val u with
      | false => rfl
      | true => exact absurd ((hyes u hu).1 hy) (h u hu))
    rw [this, hval]
    exact isSameQ_refl' e

/-- **C99 fails for patterns with a Flat head.** `FreeQ[c + x*(a + b), a + b]` says `True` although `a + b` occurs. -/
theorem C99_flat_missed :
    let ab := plusOf [.sym "Global`a", .sym "Global`b"]
    let e := plusOf [.sym "Global`c", .expr [S "Times", gx, ab]]
    freeQFn envP 60 id e ab = some true ∧ ab ∈ subexprs e := by
  decide +kernel

/-- **C99 fails for the dummy symbol.** Whatever `e` is, `FreeQ[e, Internal`DummyReplace]` says `True` if it says anything. -/
theorem C99_dummy (env : MEnv) (m : Nat) (hm : 1 ≤ m) (e : Ex) (hw : wellFormed e = true) (hs : containsSymbol "" e = false)
    (hcl : NoCollision (.sym dummyName :: subexprs e)) : freeQFn env m id e (.sym dummyName) = some true := by
  have hD := decides_symbol (env := env) (v := .sym dummyName) hm hw (fun u hu h => hcl u (by simp [hu]) (.sym dummyName) (by simp) h)
  have hne : ∀ u ∈ subexprs e, hasHead "" u = false := hasHead_empty hs
  have hid : ∀ u, subst (bind1 dummyName (.sym dummyName)) u = u := by
    intro u
    induction u using Ex.ind with
    | hexpr ps ih =>
      simp only [subst, substL_eq]
      congr 1
      conv_rhs => rw [← List.map_id ps]
      exact List.map_congr_left (fun p hp => ih p hp)
    | hsym s =>
      simp only [subst, bind1]
      by_cases h : s = dummyName <;> simp [h]
    | _ => rfl
  have hre : ∀ u ∈ subexprs e, rewriteOut (hasHead "") (onlyAt (.sym dummyName) (.sym dummyName)) u = u := fun u hu => by
    rw [rewriteOut_subst u (fun w hw => hne w (subexprs_trans hw hu)), hid]
  have hstep := replaceAll_eq (env := env) (m := m) (stop := "") (lhs := .sym dummyName) (rhs := .sym dummyName)
    (hit := onlyAt (.sym dummyName) (.sym dummyName)) (by simp) e hD (fun u hu _ => hre u hu)
  rw [hre _ (subexprs_self _)] at hstep
  unfold freeQFn replaceAllFn
  have hrule : (Ex.expr [S "Rule", .sym dummyName, .sym dummyName]) = rule (.sym dummyName) (.sym dummyName) := rfl
  rw [hrule, getValidRules_rule]
  simp only [rulesReplaceAll, ruleSides, rule]
  rw [hstep]
  simp [isSameQ_refl']

/-- Such cases: `FreeQ[f[x], x]` and `FreeQ[f[1], x]`. -/
example : freeQFn envP 1 id (fOf [gx]) gx = some false ∧ freeQFn envP 1 id (fOf [.int 1]) gx = some true := by decide +kernel

example : ∃ b, freeQFn envP 1 id (listOf [fOf [gx], gy]) gx = some b ∧ (b = true ↔ gx ∉ subexprs (listOf [fOf [gx], gy])) :=
  C99_symbol envP 1 le_rfl id "Global`x" (listOf [fOf [gx], gy]) (by decide) (by decide +kernel) (by decide +kernel) rfl (fun _ h => h)
    (by unfold NoCollision; decide +kernel)

/-- A case of `C99_pattern_partial`: `FreeQ[{f[x], y}, f[_]]`. -/
example : ∃ b, freeQFn envP 60 id (listOf [fOf [gx], gy]) (fOf [bl]) = some b ∧
    (b = true ↔ ∀ u ∈ subexprs (listOf [fOf [gx], gy]), ¬ ∃ ρ, Matches envP ρ (fOf [bl]) u) := by
  refine C99_pattern_partial envP 60 id (fOf [bl]) (listOf [fOf [gx], gy]) ?_ (by decide +kernel) ?_ (by decide +kernel) (.inl (by decide +kernel))
    (by decide +kernel) (by decide +kernel) (by decide +kernel) (by decide +kernel) (by decide +kernel) rfl (fun h => h) (by decide +kernel) (by decide +kernel)
  · refine fOf_pat _ (by simp) ?_
    intro p hp
    simp only [List.mem_singleton] at hp
    subst hp
    exact .body (.elem (.blank (by decide) (by simp)))
  · intro s args h
    simp only [fOf, Ex.expr.injEq, List.cons.injEq, Ex.sym.injEq] at h
    rw [← h.1]
    decide +kernel

end Expreduce
