import Verif.Model.With
import Verif.Spec.With
import Verif.Props.Definite
import Verif.Props.Replace

/-! # C115: `With` puts values in place, `Switch` picks the first case that matches -/

namespace Expreduce
open Ex

/-- What the replacements need: well-formed expressions, no symbol with the empty name, no two different expressions with the same
fingerprint (C09). -/
def LetReady : List (String × Ex) → Ex → Prop
  | [], _ => True
  | b :: bs, e => wellFormed e = true ∧ containsSymbol "" e = false ∧ NoCollision (subexprs e ++ subexprs (letIn [b] e) ++ [.sym b.1]) ∧
      LetReady bs (letIn [b] e)

theorem letIn_cons (b : String × Ex) (bs : List (String × Ex)) (e : Ex) : letIn (b :: bs) e = letIn bs (letIn [b] e) := rfl

theorem letIn_one (b : String × Ex) (e : Ex) : letIn [b] e = subst (bind1 b.1 b.2) e := rfl

theorem withRules_declarations (ds : List (Bool × String × Ex)) : withRules (ds.map (fun d => declaration d.1 d.2.1 d.2.2)) =
    some (ds.map (fun d => .expr [if d.1 then S "RuleDelayed" else S "Rule", .sym d.2.1, d.2.2])) := by
  induction ds with
  | nil => rfl
  | cons d ds ih =>
    obtain ⟨b, x, v⟩ := d
    simp only [List.map_cons]
    cases b <;> simp [declaration, withRules] <;> exact ih

/-- A rule and a delayed rule replace alike. -/
theorem rulesReplaceAll_let (env : MEnv) (m : Nat) (hm : 1 ≤ m) : ∀ (ds : List (Bool × String × Ex)) (e : Ex), LetReady (declared ds) e →
    rulesReplaceAll env m (ds.map (fun d => .expr [if d.1 then S "RuleDelayed" else S "Rule", .sym d.2.1, d.2.2])) e =
      some (letIn (declared ds) e)
  | [], e, _ => rfl
  | (b, x, v) :: ds, e, h => by
    obtain ⟨hw, hs, hd, hr⟩ := h
    have h1 := replaceAll_symbol env m hm e v x hw hs hd
    unfold replaceAllFn at h1
    have h2 := getValidRules_rule (.sym x) v
    unfold rule at h2
    rw [h2] at h1
    simp only [rulesReplaceAll, ruleSides] at h1
    simp only [List.map_cons, rulesReplaceAll, ruleSides]
    cases hq : replaceAll env m "" (.sym x) v e with
    | none => rw [hq] at h1; simp at h1
    | some q =>
      rw [hq] at h1
      simp only [Option.some.injEq] at h1
      subst h1
      exact rulesReplaceAll_let env m hm ds _ hr

/-- C115: `With[{x1 = v1, x2 := v2, ...}, body]` is the body with the values in place of the variables, one declaration after the other. The values
are put in as they stand. -/
theorem C115_with_partial (env : MEnv) (m : Nat) (hm : 1 ≤ m) (ds : List (Bool × String × Ex)) (body : Ex) (h : LetReady (declared ds) body) :
    withFn env m (withArgs ds body) = some (letIn (declared ds) body) := by
  unfold withFn withArgs applyWith
  simp only [if_true, withRules_declarations, rulesReplaceAll_let env m hm ds body h, Option.map_some, Option.getD_some]

/-- If no value mentions a variable declared after it, all values are put in at once, the first declaration of a variable winning. -/
theorem letIn_eq_subst : ∀ (bs : List (String × Ex)) (e : Ex), (bs.Pairwise (fun b c => containsSymbol c.1 b.2 = false)) →
    letIn bs e = subst (ruleValue bs) e := by
  intro bs
  induction bs using List.reverseRecOn with
  | nil => intro e _; exact (subst_nil e).symm
  | append_singleton bs b ih =>
    intro e h
    rw [List.pairwise_append] at h
    have : letIn (bs ++ [b]) e = subst (bind1 b.1 b.2) (letIn bs e) := by
      simp only [letIn, List.foldl_append, List.foldl_cons, List.foldl_nil]
      rfl
    rw [this, ih e h.1, subst_comp]
    · congr 1
      funext s
      exact (ruleValue_snoc bs b.1 b.2 s).symm
    · intro s w hs
      obtain ⟨r, hr, rfl⟩ := ruleValue_mem hs
      exact h.2.2 r hr b (by simp)

/-- C115: in that case `With` puts all values in at once. -/
theorem C115_simultaneous_partial (env : MEnv) (m : Nat) (hm : 1 ≤ m) (ds : List (Bool × String × Ex)) (body : Ex) (h : LetReady (declared ds) body)
    (hind : (declared ds).Pairwise (fun b c => containsSymbol c.1 b.2 = false)) :
    withFn env m (withArgs ds body) = some (subst (ruleValue (declared ds)) body) := by
  rw [C115_with_partial env m hm ds body h, letIn_eq_subst _ _ hind]

/-- Such a case: `With[{x = 1, y := f[x]}, f[x, y]]` is `f[1, f[x]]`. -/
example : let ds := [(false, "Global`x", Ex.int 1), (true, "Global`y", fOf [gx])]
    LetReady (declared ds) (fOf [gx, gy]) ∧ (declared ds).Pairwise (fun b c => containsSymbol c.1 b.2 = false) ∧
      letIn (declared ds) (fOf [gx, gy]) = fOf [.int 1, fOf [gx]] ∧
      withFn envP 60 (withArgs ds (fOf [gx, gy])) = some (fOf [.int 1, fOf [gx]]) := by
  refine ⟨?_, by decide +kernel, by decide +kernel, by decide +kernel⟩
  simp only [declared, List.map, LetReady]
  unfold NoCollision
  decide +kernel

/-- C115 as stated is false: a later declaration also acts on the values of the earlier ones, `With[{x = y, y = 2}, x]` is 2 and not `y`; and the
variables of an inner function are replaced too, `With[{x = 1}, Function[x, x]]` is `Function[1, 1]`. -/
theorem C115_wrong : withFn envP 60 (withArgs [(false, "Global`x", gy), (false, "Global`y", .int 2)] gx) = some (.int 2) ∧
    subst (ruleValue [("Global`x", gy), ("Global`y", .int 2)]) gx = gy ∧
    withFn envP 60 (withArgs [(false, "Global`x", .int 1)] (.expr [S "Function", gx, gx])) = some (.expr [S "Function", .int 1, .int 1]) := by
  decide +kernel

/-- C115: a declaration that is neither `x = v` nor `x := v` makes `With` return unchanged, whatever the other ones are. -/
theorem C115_refused (env : MEnv) (m : Nat) (ds : List Ex) (body d : Ex) (hd : d ∈ ds)
    (hn : ∀ x v, d ≠ .expr [S "Set", x, v] ∧ d ≠ .expr [S "SetDelayed", x, v]) :
    withFn env m [listOf ds, body] = some (.expr [S "With", listOf ds, body]) := by
  have key : withRules ds = none := by
    induction ds with
    | nil => simp at hd
    | cons c ds ih =>
      unfold withRules
      split
      · simp_all
      · rename_i s x v l heq
        simp only [List.cons.injEq] at heq
        obtain ⟨rfl, rfl⟩ := heq
        rcases List.mem_cons.1 hd with rfl | hd
        · rw [if_neg (fun h => (hn x v).1 (by rw [h]; rfl)), if_neg (fun h => (hn x v).2 (by rw [h]; rfl))]
        · rw [ih hd]; simp
      · rfl
  have : applyWith env m [listOf ds, body] = some none := by
    unfold applyWith listOf
    rw [show S "List" = .sym "System`List" from rfl]
    simp [key]
  rw [withFn, this]
  rfl

example : (∀ x v, gx ≠ .expr [S "Set", x, v] ∧ gx ≠ .expr [S "SetDelayed", x, v]) ∧
    withFn envP 60 [listOf [declaration false "Global`y" (.int 1), gx], fOf [gx, gy]] =
      some (.expr [S "With", listOf [declaration false "Global`y" (.int 1), gx], fOf [gx, gy]]) :=
  ⟨by simp [gx], by decide +kernel⟩

theorem switchLoop_spec {env : MEnv} [env.Exact] {m : Nat} {e : Ex} (hr : noReal e = true) (hw : wellFormed e = true) :
    ∀ cs : List (Ex × Ex), (∀ c ∈ cs, Covered m c.1 e) →
      switchLoop env m e (casesOf cs) = some none ∧ (∀ c ∈ cs, ¬ ∃ ρ, Matches env ρ c.1 e) ∨
      ∃ a c b ρ, cs = a ++ c :: b ∧ (∀ d ∈ a, ¬ ∃ ρ, Matches env ρ d.1 e) ∧ Matches env ρ c.1 e ∧
        switchLoop env m e (casesOf cs) = some (some c.2)
  | [], _ => .inl ⟨rfl, by simp⟩
  | c :: cs, h => by
    obtain ⟨v, q, hq, h1, h2⟩ := isMatchQ_covered (env := env) (h c (by simp)) hr hw
    have hstep : switchLoop env m e (casesOf (c :: cs)) = if v then some (some c.2) else switchLoop env m e (casesOf cs) := by
      simp only [casesOf, List.flatMap_cons, List.cons_append, List.nil_append, switchLoop, hq]
      cases v <;> simp
    cases v with
    | true => exact .inr ⟨[], c, cs, _, rfl, by simp, (h1 rfl).1, by simp [hstep]⟩
    | false =>
      have hc := h2 rfl
      rcases switchLoop_spec (env := env) hr hw cs (fun d hd => h d (by simp [hd])) with ⟨hl, hn⟩ | ⟨a, d, b, ρ, rfl, ha, hm, hl⟩
      · refine .inl ⟨by simpa [hstep] using hl, ?_⟩
        intro d hd
        rcases List.mem_cons.1 hd with rfl | hd
        · exact hc
        · exact hn d hd
      · refine .inr ⟨c :: a, d, b, ρ, rfl, ?_, hm, by simpa [hstep] using hl⟩
        intro d' hd
        rcases List.mem_cons.1 hd with rfl | hd
        · exact hc
        · exact ha d' hd

/-- C115: `Switch[e, p1, v1, p2, v2, ...]` is the value beside the first pattern that `e` matches, and it is unchanged if there is none. -/
theorem C115_switch_partial (env : MEnv) [env.Exact] (m : Nat) (e : Ex) (cs : List (Ex × Ex)) (hr : noReal e = true) (hw : wellFormed e = true)
    (hne : cs ≠ []) (hc : ∀ c ∈ cs, Covered m c.1 e) :
    (∃ a c b ρ, cs = a ++ c :: b ∧ (∀ d ∈ a, ¬ ∃ ρ, Matches env ρ d.1 e) ∧ Matches env ρ c.1 e ∧
        switchFn env m (e :: casesOf cs) = some c.2) ∨
      (∀ c ∈ cs, ¬ ∃ ρ, Matches env ρ c.1 e) ∧ switchFn env m (e :: casesOf cs) = some (.expr (S "Switch" :: e :: casesOf cs)) := by
  have hlen : (casesOf cs).length = 2 * cs.length := by
    unfold casesOf
    clear hc hne
    induction cs with
    | nil => rfl
    | cons c cs ih => simp only [List.flatMap_cons, List.length_append, ih, List.length_cons, List.length_nil]; omega
  have hpos : 0 < cs.length := List.length_pos_iff.2 hne
  have hcond : ¬ ((e :: casesOf cs).length < 3 ∨ (e :: casesOf cs).length % 2 = 0) := by
    simp only [List.length_cons, hlen]
    omega
  have hsw : switchFn env m (e :: casesOf cs) = (switchLoop env m e (casesOf cs)).map (·.getD (.expr (S "Switch" :: e :: casesOf cs))) := by
    unfold switchFn
    simp only [if_neg hcond]
  rw [hsw]
  rcases switchLoop_spec (env := env) hr hw cs hc with ⟨h, hn⟩ | ⟨a, c, b, ρ, hcs, ha, hm, h⟩
  · exact .inr ⟨hn, by rw [h]; rfl⟩
  · exact .inl ⟨a, c, b, ρ, hcs, ha, hm, by rw [h]; rfl⟩

/-- Such a case: `Switch[f[1], _Integer, x, f[_], y]` is `y`. -/
example : (∀ c ∈ [(.expr [S "Blank", S "Integer"], gx), (fOf [bl], gy)], Covered 60 c.1 (fOf [.int 1])) ∧
    switchFn envP 60 (fOf [.int 1] :: casesOf [(.expr [S "Blank", S "Integer"], gx), (fOf [bl], gy)]) = some gy := by
  refine ⟨?_, by decide +kernel⟩
  intro c hc
  simp only [List.mem_cons, List.not_mem_nil, or_false] at hc
  rcases hc with rfl | rfl
  · exact ⟨.blank (s := "System`Blank") (by decide) (by decide), by decide +kernel, by decide +kernel, by decide +kernel⟩
  · refine ⟨fOf_pat _ (by simp) ?_, by decide +kernel, by decide +kernel, by decide +kernel⟩
    intro p hp
    simp only [List.mem_cons, List.not_mem_nil, or_false] at hp
    subst hp
    exact .body (.elem (.blank (s := "System`Blank") (by decide) (by decide)))

end Expreduce
