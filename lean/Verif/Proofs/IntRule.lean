import Verif.Proofs.IntCalc
import Verif.Proofs.IntCalc2

/-! From an application of an integration rule to the derivative of its result. -/

namespace Expreduce
open Ex Shipped Filter

/-- The name can be found among the named arguments. -/
def nameTaken (pat : Ex) (y : String) : Bool := y == "Private`x" || (namedArgs pat).any (fun t => argName t.2.2 == some y)

/-- What a rule has to look like. -/
def intCheck (r : IntRule) : Bool :=
  epatB 9 (held (intOf r.integrand (anyOf "x" "Symbol"))) && (fillOk r.integrand && (tmpl r.result && (tmpl (templateOf r.integrand) &&
    (fixedNames.all (fun s => !(patNames (held (intOf r.integrand (anyOf "x" "Symbol")))).contains s) &&
      (match r.result with
        | .expr (.sym s :: _) => tmplHeads.contains s
        | _ => false)))))

/-- The pattern is arithmetic. -/
def intPatCheck (pat : Ex) : Bool :=
  fpatB sumsEnv polyHeads 9 pat && ((argName pat).isNone && (!isOptional pat && (simpleArgs pat &&
    (patNames (held (intOf pat (anyOf "x" "Symbol")))).all (nameTaken pat))))

section
variable {env : MEnv} [env.Exact] {locals : Ex → Option Ex} {x : String} {V : Interp}

/-- The bindings of a match of an arithmetic pattern. -/
theorem int_bind {pl : List String} (hE : ArithEnv env pl) (hf : "Rubi`Int" ∈ pl) {pat u : Ex} {ρ : String → Option Ex} (hk : intPatCheck pat = true)
    (hfx : fixedNames.all (fun s => !(patNames (held (intOf pat (anyOf "x" "Symbol")))).contains s) = true) (hfill : fillOk pat = true) (hu : noOpen u = true)
    (h1 : ClashFree env polyHeads (held (intOf pat (anyOf "x" "Symbol"))) (intOf u (.sym x)) ρ)
    (h2 : Matches env ρ (held (intOf pat (anyOf "x" "Symbol"))) (intOf u (.sym x))) (h3 : OnlyNames ρ (held (intOf pat (anyOf "x" "Symbol")))) :
    BindOk ρ x ∧ ∀ V : Interp, V.meaning.argVals (subst ρ (templateOf pat)) = V.meaning.argVals u := by
  simp only [intPatCheck, Bool.and_eq_true, Option.isNone_iff_eq_none, Bool.not_eq_true'] at hk
  obtain ⟨k1, k2, k3, k4, k5⟩ := hk
  obtain ⟨g1, g2, g3⟩ := int_match hE hf (by decide) h1 h2 (fpat_sums hE k1) k2 k3
  have hfix : ∀ s ∈ fixedNames, ρ s = none := by
    intro s hs
    rw [List.all_eq_true] at hfx
    exact h3.none (by simpa using hfx s hs)
  have hb : ∀ y w, ρ y = some w → hasHead "System`Sequence" w = false ∧ noOpen w = true := by
    intro y w hw
    have hy := h3 y (by rw [hw]; simp)
    rw [List.all_eq_true] at k5
    have := k5 y hy
    simp only [nameTaken, Bool.or_eq_true, beq_iff_eq, List.any_eq_true] at this
    rcases this with rfl | ⟨t, ht, hn⟩
    · rw [g1] at hw
      cases hw
      exact ⟨rfl, noOpen_sym x⟩
    · unfold simpleArgs at k4
      rw [List.all_eq_true] at k4
      have q := k4 t ht
      simp only [Bool.and_eq_true, Bool.not_eq_true', List.contains_iff_mem] at q
      have ht' := (g2 t ht).mono (Q := fun c => noOpen c = true) (fun a ha => noOpen_mem hu ha)
      rw [q.1] at ht'
      obtain ⟨y', w', e1, e2, e3, e4⟩ := taken_closed hE q.2.1 q.2.2 ht'
      rw [hn] at e1
      cases e1
      rw [hw] at e2
      cases e2
      exact ⟨e3, e4⟩
  refine ⟨⟨hfix, fun s w h => (hb s w h).1, fun s w h => (hb s w h).2, g1⟩, fun V => ?_⟩
  rw [← g3 V, fill_subst (fun s hs => hfix s ?_) _ pat (Nat.lt_succ_self _) hfill]
  simp only [polyHeads, List.mem_cons, List.not_mem_nil, or_false] at hs
  rcases hs with rfl | rfl | rfl <;> decide

/-- The bindings of a match of `a_`. -/
theorem int_bind_any {pl : List String} (hE : ArithEnv env pl) (hf : "Rubi`Int" ∈ pl) {u : Ex} {ρ : String → Option Ex} (hu : noOpen u = true)
    (h1 : ClashFree env polyHeads (held (intOf (any "a") (anyOf "x" "Symbol"))) (intOf u (.sym x)) ρ)
    (h2 : Matches env ρ (held (intOf (any "a") (anyOf "x" "Symbol"))) (intOf u (.sym x))) (h3 : OnlyNames ρ (held (intOf (any "a") (anyOf "x" "Symbol")))) :
    BindOk ρ x ∧ ∀ V : Interp, V.meaning.argVals (subst ρ (templateOf (any "a"))) = V.meaning.argVals u := by
  obtain ⟨g1, T, hD, hT, t1⟩ := int_args hE hf (by decide) h1 h2 (by rfl) (by rw [shape_any]; exact ⟨rfl, rfl⟩)
  have hm : u ∈ pieces (.expr [.sym "Rubi`Int", u, .sym x]) := pieces_arg (by simp) (pieces_self u)
  have ha := takes_any hD hT hm t1
  have hs := hD.noSeq _ hm
  have ha' : ρ "Private`a" = some u := ha
  have hnames : patNames (held (intOf (any "a") (anyOf "x" "Symbol"))) = ["Private`a", "Private`x"] := by decide +kernel
  have hb : ∀ y w, ρ y = some w → hasHead "System`Sequence" w = false ∧ noOpen w = true := by
    intro y w hw
    have hy := h3 y (by rw [hw]; simp)
    rw [hnames] at hy
    simp only [List.mem_cons, List.not_mem_nil, or_false] at hy
    rcases hy with rfl | rfl
    · rw [ha'] at hw
      cases hw
      exact ⟨hs, hu⟩
    · rw [g1] at hw
      cases hw
      exact ⟨rfl, noOpen_sym x⟩
  refine ⟨⟨fun s hs => h3.none ?_, fun s w h => (hb s w h).1, fun s w h => (hb s w h).2, g1⟩, fun V => ?_⟩
  · rw [hnames]
    revert s
    decide
  · have : templateOf (any "a") = .sym "Private`a" := rfl
    rw [this, subst, ha']

/-- The setting of a match. -/
theorem int_setting (hV : V.Standard) (hi : ∀ v, V.fn "System`Identity" [v] = some v) (hx : isVariable x) (hT : IntTests V x env.isTrue) {ρ : String → Option Ex}
    (hρ : BindOk ρ x) : Setting (famOf V x ρ) (fun t => env.isTrue (subst ρ t) = true) := by
  have hfix : ∀ s ∈ fixedNames, ρ s = none := hρ.fixed
  refine ⟨fun z => ?_, fun z v => hi v, fun z => ?_, ?_, ?_, ?_, ?_, ?_, ?_, ?_, ?_, ?_⟩
  · have h := put_standard hV hx z
    constructor
    · simp only [famOf, hfix "System`E" (by decide)]; exact h.e
    · simp only [famOf, hfix "System`Pi" (by decide)]; exact h.pi
    · simp only [famOf, hfix "System`I" (by decide)]; exact h.i
    · exact h.log
    · exact h.sqrt
    · exact h.sin
    · exact h.cos
    · exact h.tan
    · exact h.cot
    · exact h.sec
    · exact h.csc
    · exact h.sinh
    · exact h.cosh
    · exact h.coth
    · exact h.csch
    · exact h.arctan
  · rw [← fam_den hρ z (by decide)]
    have : subst ρ (Shipped.var "x") = .sym x := subst_x hρ.var
    rw [this]
    exact den_var hx z
  · intro l h
    rw [Shipped.call, S, subst_call (hfix _ (by decide))] at h
    obtain ⟨c, hc, h⟩ := hT.some _ h
    obtain ⟨a, ha, rfl⟩ := List.mem_map.1 hc
    exact ⟨a, ha, h⟩
  · intro l h c hc
    rw [Shipped.call, S, subst_call (hfix _ (by decide))] at h
    exact hT.all _ h _ (List.mem_map.2 ⟨c, hc, rfl⟩)
  · intro a b ha hb h z v w h1 h2
    rw [eqQ, subst_call (hfix _ (by decide))] at h
    exact hT.equal _ _ h z v w ((fam_den hρ z ha).2 h1) ((fam_den hρ z hb).2 h2)
  · intro a ha h z v h1
    rw [eqQ0, subst_call (hfix _ (by decide))] at h
    exact hT.zero _ h z v ((fam_den hρ z ha).2 h1)
  · intro a ha h
    rw [Shipped.call, S, subst_call (hfix _ (by decide))] at h
    obtain ⟨n, h⟩ := hT.integer _ h
    exact ⟨n, fun z v h1 => h z v ((fam_den hρ z ha).2 h1)⟩
  · intro a ha h
    rw [testR, subst_call (hfix _ (by decide))] at h
    obtain ⟨n, h⟩ := hT.posInteger _ h
    exact ⟨n, fun z v h1 => h z v ((fam_den hρ z ha).2 h1)⟩
  · intro a ha h
    rw [testR, subst_call (hfix _ (by decide))] at h
    obtain ⟨n, h⟩ := hT.negInteger _ h
    exact ⟨n, fun z v h1 => h z v ((fam_den hρ z ha).2 h1)⟩
  · intro a ha h
    rw [testR, subst_call (hfix _ (by decide))] at h
    obtain ⟨n, h⟩ := hT.rational _ h
    exact ⟨n, fun z v h1 => h z v ((fam_den hρ z ha).2 h1)⟩
  · intro a ha h
    rw [testR, subst_call (hfix _ (by decide))] at h
    obtain ⟨n, h0, h⟩ := hT.positive _ h
    exact ⟨n, h0, fun z v h1 => h z v ((fam_den hρ z ha).2 h1)⟩

/-- The tests of a rule that was applied. -/
theorem int_tests (hT : IntTests V x env.isTrue) {ρ : String → Option Ex} (hρ : BindOk ρ x) {r : IntRule} {res : Ex}
    (h : Yields env locals (subst ρ r.rule.2) res) : (∀ t ∈ r.allTests, env.isTrue (subst ρ t) = true) ∧ Yields env locals (subst ρ r.result) res := by
  have hc : ∀ a t, subst ρ (Shipped.cond a t) = Shipped.cond (subst ρ a) (subst ρ t) := by
    intro a t
    rw [Shipped.cond, Shipped.call, S, subst_call (hρ.fixed _ (by decide))]
    rfl
  have hrule : r.rule.2 = (match r.allTests with
      | [] => r.result
      | [t] => Shipped.cond r.result t
      | ts => Shipped.cond r.result (call "And" ts)) := rfl
  rw [hrule] at h
  generalize hl : r.allTests = l at h
  match l, h with
  | [], h => exact ⟨by simp, h⟩
  | [t], h =>
    simp only [hc] at h
    obtain ⟨h1, h2⟩ := yields_cond h
    exact ⟨by simpa using h1, h2⟩
  | t :: t' :: ts, h =>
    simp only [hc] at h
    obtain ⟨h1, h2⟩ := yields_cond h
    refine ⟨fun c hcm => ?_, h2⟩
    rw [Shipped.call, S, subst_call (hρ.fixed _ (by decide))] at h1
    exact hT.all _ h1 _ (List.mem_map.2 ⟨c, hcm, rfl⟩)

/-- Names that pass `FreeQ` do not depend on the variable. -/
theorem int_free (hT : IntTests V x env.isTrue) {ρ : String → Option Ex} (hρ : BindOk ρ x) {r : IntRule}
    (h : ∀ t ∈ r.allTests, env.isTrue (subst ρ t) = true) : ∀ y ∈ r.free, ∀ z w v, (famOf V x ρ z).Denotes (var y) v → (famOf V x ρ w).Denotes (var y) v := by
  have hfree : ∀ y ∈ r.free, .sym x ∉ pieces (subst ρ (var y)) := by
    intro y hy
    have hxv := subst_x hρ.var
    unfold IntRule.allTests at h
    generalize r.free = l at h hy
    match l, h, hy with
    | [y'], h, hy =>
      simp only [List.mem_singleton] at hy
      subst hy
      have := h (call "FreeQ" [var y, var "x"]) (by simp)
      rw [call, S, subst_call (hρ.fixed _ (by decide)), List.map_cons, List.map_cons, List.map_nil, hxv] at this
      exact hT.free _ this
    | y1 :: y2 :: ys, h, hy =>
      have hF : ∀ l, subst ρ (call "FreeQ" [l, var "x"]) = .expr [S "FreeQ", subst ρ l, .sym x] := by
        intro l
        rw [call, S, subst_call (hρ.fixed _ (by decide)), List.map_cons, List.map_cons, List.map_nil, hxv]
      have := h (call "FreeQ" [list ((y1 :: y2 :: ys).map var), var "x"]) (by simp)
      rw [hF] at this
      intro hc
      refine hT.free _ this ?_
      rw [list, call, S, subst_call (hρ.fixed _ (by decide))]
      exact pieces_arg (List.mem_cons_of_mem _ (List.mem_map.2 ⟨_, List.mem_map.2 ⟨y, hy, rfl⟩, rfl⟩)) hc
  intro y hy z w v h1
  have ht : tmpl (var y) = true := by
    simp only [var, tmpl, bne_iff_ne, ne_eq]
    intro hh
    have h0 : ("Private`" ++ y).toList = "System`Sequence".toList := by rw [hh]
    rw [String.toList_append] at h0
    have h1 := congrArg List.head? h0
    rw [show "Private`".toList = ['P', 'r', 'i', 'v', 'a', 't', 'e', '`'] from rfl] at h1
    rw [List.cons_append, List.head?_cons] at h1
    exact absurd h1 (by decide)
  rw [← fam_den hρ _ ht] at h1 ⊢
  exact const_of (hfree y hy) z h1 w

/-- The derivative of the result of a rule is the integrand. -/
theorem int_sound {pl : List String} (hE : ArithEnv env pl) (hf : "Rubi`Int" ∈ pl) (hL : LocalsOk locals) (hV : V.Standard) (hi : ∀ v, V.fn "System`Identity" [v] = some v)
    (hx : isVariable x) (hT : IntTests V x env.isTrue) {r : IntRule} (hk : intCheck r = true) (hp : intPatCheck r.integrand = true ∨ r.integrand = any "a") (hcalc : CalcOk r)
    {u res : Ex} (hu : noOpen u = true) (h : RuleGives env locals polyHeads r.rule (intOf u (.sym x)) res) {F G : ℂ → ℂ}
    (hF : Reads (fun z => V.put x z) x res F) (hG : ∀ᶠ z in mostly, (V.put x z).Denotes u (G z)) : ∀ᶠ z in mostly, HasDerivAt F (G z) z := by
  simp only [intCheck, Bool.and_eq_true] at hk
  obtain ⟨c1, c2, c3, c4, c5, c6⟩ := hk
  obtain ⟨ρ, h1, h2, h3, h4⟩ := ruleGives_match (epatB_sound c1) h
  obtain ⟨hρ, hval⟩ : BindOk ρ x ∧ ∀ V : Interp, V.meaning.argVals (subst ρ (templateOf r.integrand)) = V.meaning.argVals u := by
    rcases hp with hp | hp
    · exact int_bind hE hf hp c5 c2 hu h1 h2 h3
    · rw [hp] at h1 h2 h3 ⊢
      exact int_bind_any hE hf hu h1 h2 h3
  obtain ⟨k1, k2⟩ := int_tests hT hρ (r := r) h4
  have hres : res = subst ρ r.result := by
    split at c6
    · rename_i s l heq
      rw [heq] at k2 ⊢
      simp only [List.contains_iff_mem] at c6
      rw [subst_call (hρ.fixed s (by unfold fixedNames; simp [c6]))] at k2 ⊢
      exact yields_call hL ⟨fun he => absurd (he ▸ c6) (by decide), fun he => absurd (he ▸ c6) (by decide), fun he => absurd (he ▸ c6) (by decide)⟩ k2
    · cases c6
  subst hres
  refine hcalc (famOf V x ρ) _ F G (int_setting hV hi hx hT hρ) (int_free hT hρ k1) (fun t ht => k1 t ?_) (fam_reads hρ _ _ (Nat.lt_succ_self _) c3 hF) ?_
  · unfold IntRule.allTests
    exact List.mem_append_right _ ht
  · filter_upwards [hG] with z hz
    rw [← fam_den hρ z c4]
    unfold Interp.Denotes at hz ⊢
    rw [hval, hz]

end
end Expreduce
