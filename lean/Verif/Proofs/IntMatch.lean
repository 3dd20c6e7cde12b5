import Verif.Proofs.IntReads
import Verif.Proofs.LinearRules
import Verif.Props.Solve

/-! From an application of an integration rule to the values of its names. -/

namespace Expreduce
open Ex Shipped Filter

/-! ### Bindings -/

theorem pieces_least {P : Ex → Prop} (hp : ∀ a as, P a → partsOf a = some as → ∀ x ∈ as, P x) (ho : ∀ a, P a → P (opened a)) (e : Ex) : P e → ∀ b ∈ pieces e, P b := by
  induction e using Ex.rec (motive_2 := fun ps => ∀ p ∈ ps, P p → ∀ b ∈ pieces p, P b) with
  | expr ps ih =>
    intro he b hb
    rcases mem_pieces_expr hb with rfl | ⟨c, hc, hb⟩
    · exact he
    · exact ih c hc (hp _ ps he rfl c hc) b hb
  | cplx re im ih1 ih2 =>
    intro he b hb
    have h1 := hp _ _ he rfl
    simp only [pieces, List.mem_cons, List.mem_append] at hb
    rcases hb with rfl | rfl | rfl | hb | hb
    · exact he
    · exact ho _ he
    · exact h1 _ (by simp)
    · exact ih1 (h1 _ (by simp)) b hb
    · exact ih2 (h1 _ (by simp)) b hb
  | rat n d =>
    intro he b hb
    have h1 := hp _ _ he rfl
    simp only [pieces, List.mem_cons, List.not_mem_nil, or_false] at hb
    rcases hb with rfl | rfl | rfl | rfl | rfl
    · exact he
    · exact ho _ he
    all_goals exact h1 _ (by simp)
  | nil => rename_i hm _ _ _; simp at hm
  | cons p ps ih1 ih2 =>
    rename_i q hq he b hb
    rcases List.mem_cons.1 hq with rfl | hq
    · exact ih1 he b hb
    · exact ih2 q hq he b hb
  | _ =>
    intro he b hb
    simp only [pieces, List.mem_singleton] at hb
    subst hb
    exact he

theorem pieces_deep {a b e : Ex} (hb : b ∈ pieces a) (ha : a ∈ pieces e) : b ∈ pieces e :=
  pieces_least (P := (· ∈ pieces e)) (pieces_part e) (pieces_opened e) a ha b hb

theorem noOpen_mem {e a : Ex} (h : noOpen e = true) (ha : a ∈ pieces e) : noOpen a = true := by
  unfold noOpen at *
  rw [List.all_eq_true] at *
  intro b hb
  refine h b ?_
  have : ∀ a', a' ∈ pieces a → a' ∈ pieces e := by
    clear h hb b
    exact fun a' ha' => pieces_deep ha' ha
  exact this b hb

theorem noOpen_app {s : String} {cs : List Ex} (hs : s ∉ openHeads) (h : ∀ c ∈ cs, noOpen c = true) : noOpen (.expr (.sym s :: cs)) = true := by
  unfold noOpen
  rw [List.all_eq_true]
  intro b hb
  rcases mem_pieces_expr hb with rfl | ⟨a, ha, hb⟩
  · rw [List.all_eq_true]
    intro t ht
    have : s ≠ t := fun he => hs (he ▸ ht)
    simp [hasHead, this]
  · rcases List.mem_cons.1 ha with rfl | ha
    · have := noOpen_sym s
      unfold noOpen at this
      exact List.all_eq_true.1 this b hb
    · have := h a ha
      unfold noOpen at this
      exact List.all_eq_true.1 this b hb

/-- Argument patterns `y_` and `y_.`. -/
def simpleArg (p : Ex) : Bool :=
  match argName p with
  | some s => decide (p = .expr [S "Pattern", .sym s, .expr [S "Blank"]]) || decide (p = .expr [S "Optional", .expr [S "Pattern", .sym s, .expr [S "Blank"]]])
  | none => false

/-- The named arguments are of these two kinds. -/
def simpleArgs (p : Ex) : Bool := (namedArgs p).all (fun t => !t.1 && (polyHeads.contains t.2.1 && simpleArg t.2.2))

section
variable {env : MEnv} {pl : List String} (hE : ArithEnv env pl)
include hE

theorem taken_closed {ρ : String → Option Ex} {s : String} (hs : s ∈ polyHeads) {p : Ex} (hp : simpleArg p = true) (ht : Taken env (fun c => noOpen c = true) ρ false s p) :
    ∃ y w, argName p = some y ∧ ρ y = some w ∧ hasHead "System`Sequence" w = false ∧ noOpen w = true := by
  unfold simpleArg at hp
  cases hn : argName p with
  | none => rw [hn] at hp; cases hp
  | some y =>
    rw [hn] at hp
    simp only [Bool.or_eq_true, decide_eq_true_eq] at hp
    have hso : s ∉ openHeads := by
      simp only [polyHeads, List.mem_cons, List.not_mem_nil, or_false] at hs
      rcases hs with rfl | rfl | rfl <;> decide
    have hsq : s ≠ "System`Sequence" := fun h => absurd (h ▸ hs) (by decide)
    have hb : isBlank (.expr [.sym "System`Blank"]) = true := by decide
    rcases hp with hp | hp
    · subst hp
      have hsh : callShape env false s (.expr [S "Pattern", .sym y, .expr [S "Blank"]]) =
          { bodyShape (env.flat s) s (.expr [S "Blank"]) with name := some y } := by
        simp [callShape, shape, S, testShape, namedShape]
      cases hf : env.flat s with
      | false =>
        have hsh' : callShape env false s (.expr [S "Pattern", .sym y, .expr [S "Blank"]]) = ⟨1, 1, .expr [S "Blank"], some y, true, S "Sequence", none⟩ := by
          rw [hsh, hf]; simp [bodyShape, S]
        obtain ⟨c, h1, h2⟩ := ht.one hn (by rw [hsh']) (by rw [hsh']) (by rw [hsh']; rfl)
        exact ⟨y, c, rfl, h1, h2.noSeq, h2.prop⟩
      | true =>
        have hsh' : callShape env false s (.expr [S "Pattern", .sym y, .expr [S "Blank"]]) = ⟨1, unlimited, .expr [S "Blank"], some y, false, .sym s, none⟩ := by
          rw [hsh, hf]; simp [bodyShape, S, hb]
        obtain ⟨w, h1, h2, h3⟩ := ht.flatArg hn (by rw [hsh']) hsq (by rw [hsh'])
        refine ⟨y, w, rfl, h1, h2, ?_⟩
        rcases h3 with h3 | ⟨cs, rfl, _, h3⟩
        · exact h3.prop
        · exact noOpen_app hso (fun c hc => (h3 c hc).prop)
    · subst hp
      have hd : ∃ n : Int, env.dflt s = some (.int n) := by
        simp only [polyHeads, List.mem_cons, List.not_mem_nil, or_false] at hs
        rcases hs with rfl | rfl | rfl
        · exact ⟨0, hE.plus.2.2.2⟩
        · exact ⟨1, hE.times.2.2.2⟩
        · exact ⟨1, hE.power.2.2.2⟩
      obtain ⟨n, hd⟩ := hd
      have key : (callShape env false s (.expr [S "Optional", .expr [S "Pattern", .sym y, .expr [S "Blank"]]])).absent = some (.int n) ∧
          (callShape env false s (.expr [S "Optional", .expr [S "Pattern", .sym y, .expr [S "Blank"]]])).bare = true ∧
          ((callShape env false s (.expr [S "Optional", .expr [S "Pattern", .sym y, .expr [S "Blank"]]])).wrap = .sym s ∧ s ≠ "System`Sequence" ∨
            (callShape env false s (.expr [S "Optional", .expr [S "Pattern", .sym y, .expr [S "Blank"]]])).hi = 1) := by
        cases hf : env.flat s with
        | false => simp [callShape, shape, S, optShape, optNamed, optBody, hd, hf, hb]
        | true => simp [callShape, shape, S, optShape, optNamed, optBody, hd, hf, hb, hsq]
      obtain ⟨w, h1, h2, h3⟩ := ht.optArg hn key.1 rfl key.2.1 key.2.2
      refine ⟨y, w, rfl, h1, h2, ?_⟩
      rcases h3 with rfl | h3 | ⟨_, cs, rfl, _, h3⟩
      · exact noOpen_int n
      · exact h3.prop
      · exact noOpen_app hso (fun c hc => (h3 c hc).prop)

/-- The arguments of `Int`. -/
theorem int_args {f : String} (hf : f ∈ pl) (hsp : f ∉ specialHeads) {pat P : Ex} {x : String} {ρ : String → Option Ex}
    (hc : ClashFree env polyHeads (held (.expr [.sym f, pat, anyOf "x" "Symbol"])) (.expr [.sym f, P, .sym x]) ρ)
    (hm : Matches env ρ (held (.expr [.sym f, pat, anyOf "x" "Symbol"])) (.expr [.sym f, P, .sym x]))
    (hopt : isOptional pat = false) (hs : (shape (env.dflt f) false f pat).lo = 1 ∧ (shape (env.dflt f) false f pat).hi = 1) :
    ρ "Private`x" = some (.sym x) ∧ ∃ T, Distinct env (· ∈ polyHeads) (· ∈ subexprs (held (.expr [.sym f, pat, anyOf "x" "Symbol"]))) (· ∈ pieces (.expr [.sym f, P, .sym x])) T ∧
      (∀ x v, ρ x = some v → T v) ∧ TakesOne env ρ f pat P := by
  obtain ⟨T, hD, hT⟩ := hc
  have hsub : ∀ q ∈ subexprs (.expr [.sym f, pat, anyOf "x" "Symbol"]), q ∈ subexprs (held (.expr [.sym f, pat, anyOf "x" "Symbol"])) := by
    intro q hq
    exact subexprs_arg (ps := [.expr [.sym f, pat, anyOf "x" "Symbol"]]) (List.mem_singleton.2 rfl) hq
  obtain ⟨cs, k1, k2⟩ := args_inv hD hsp (hE.plain f hf).1 (hE.plain f hf).2 hsub (pieces_self _) (by simp [hopt, show isOptional (anyOf "x" "Symbol") = false from rfl]) (by
    intro p hp'
    simp only [List.mem_cons, List.not_mem_nil, or_false] at hp'
    rcases hp' with rfl | rfl
    · exact hs
    · rw [shape_anyOf]; exact ⟨rfl, rfl⟩) (matches_hold_inv hm)
  simp only [partsOf, Option.some.injEq, List.cons.injEq, true_and] at k1
  subst k1
  cases k2 with
  | cons t1 k2 =>
    cases k2 with
    | cons t2 k2 =>
      have hx : (Ex.sym x) ∈ pieces (.expr [.sym f, P, .sym x]) := pieces_arg (by simp) (pieces_self _)
      exact ⟨takes_anyOf hD hT hx t2, T, hD, hT, t1⟩

theorem int_match {f : String} (hf : f ∈ pl) (hsp : f ∉ specialHeads) {pat P : Ex} {x : String} {ρ : String → Option Ex}
    (hc : ClashFree env polyHeads (held (.expr [.sym f, pat, anyOf "x" "Symbol"])) (.expr [.sym f, P, .sym x]) ρ)
    (hm : Matches env ρ (held (.expr [.sym f, pat, anyOf "x" "Symbol"])) (.expr [.sym f, P, .sym x]))
    (hp : FPat env (· ∈ polyHeads) pat) (hn : argName pat = none) (hopt : isOptional pat = false) :
    ρ "Private`x" = some (.sym x) ∧ (∀ t ∈ namedArgs pat, Taken env (· ∈ pieces P) ρ t.1 t.2.1 t.2.2) ∧
      ∀ V : Interp, V.meaning.argVals (fill ρ pat) = V.meaning.argVals P := by
  obtain ⟨h0, T, hD, hT, t1⟩ := int_args hE hf hsp hc hm hopt (by rw [shape_fpat hp hn]; exact ⟨rfl, rfl⟩)
  have hsub : ∀ q ∈ subexprs (.expr [.sym f, pat, anyOf "x" "Symbol"]), q ∈ subexprs (held (.expr [.sym f, pat, anyOf "x" "Symbol"])) := by
    intro q hq
    exact subexprs_arg (ps := [.expr [.sym f, pat, anyOf "x" "Symbol"]]) (List.mem_singleton.2 rfl) hq
  have hD' : Distinct env (· ∈ polyHeads) (· ∈ subexprs pat) (· ∈ pieces P) T :=
    hD.sub (fun _ h => h) (fun q hq => hsub q (subexprs_arg (by simp) hq)) (fun b hb => pieces_arg (by simp) hb) (pieces_part P) (pieces_opened P)
  have hm1 := t1.1
  rw [shape_fpat hp hn] at hm1
  have key := fun V : Interp => fill_matches (M := V.meaning) (fun s hs => arith_lawful hE V hs) hD' hT (sizeOf pat + 1) pat P (by omega) hp (fun q hq => hq) (pieces_self P) hm1
  exact ⟨h0, (key ⟨fun _ => none, fun _ _ => none⟩).2, fun V => (key V).1⟩

end

/-! ### Filling a pattern and substituting -/

mutual
/-- Calls of arithmetic functions with named arguments, numbers and calls. -/
def fillOk (p : Ex) : Bool :=
  (argName p).isSome ||
    match p with
    | .int _ => true
    | .rat _ _ => true
    | .expr (.sym s :: ps) => polyHeads.contains s && fillOkL ps
    | _ => false
/-- The same for a list. -/
def fillOkL : List Ex → Bool
  | [] => true
  | p :: ps => fillOk p && fillOkL ps
end

theorem fillL_map (ρ : String → Option Ex) : ∀ ps, fillL ρ ps = ps.map (fill ρ)
  | [] => rfl
  | p :: ps => by rw [fillL, fillL_map ρ ps, List.map_cons]

theorem fillOkL_mem : ∀ {ps : List Ex}, fillOkL ps = true → ∀ p ∈ ps, fillOk p = true
  | [], _, e, he => by cases he
  | a :: es, h, e, he => by
    simp only [fillOkL, Bool.and_eq_true] at h
    rcases List.mem_cons.1 he with rfl | he
    · exact h.1
    · exact fillOkL_mem h.2 e he

theorem fill_call {ρ : String → Option Ex} {s : String} {ps : List Ex} (hn : argName (.expr (.sym s :: ps)) = none) (hs : s ∈ polyHeads) :
    fill ρ (.expr (.sym s :: ps)) = .expr (.sym s :: ps.map (fill ρ)) := by
  unfold fill
  rw [hn]
  have : ¬ (s = "System`PatternTest" ∨ s = "System`HoldPattern") := by
    rintro (h | h) <;> exact absurd (h ▸ hs) (by decide)
  simp only [this, if_false]
  rw [fillL_map]

/-- The template of a pattern. -/
def templateOf (p : Ex) : Ex := fill (fun _ => none) p

theorem fill_subst {ρ : String → Option Ex} (hρ : ∀ s ∈ polyHeads, ρ s = none) : ∀ (n : Nat) (p : Ex), sizeOf p < n → fillOk p = true → fill ρ p = subst ρ (templateOf p) := by
  intro n
  induction n with
  | zero => intro p h; omega
  | succ n ih =>
    intro p hn h
    unfold templateOf
    cases ha : argName p with
    | some x =>
      have h1 : fill ρ p = (ρ x).getD (.sym x) := by unfold fill; rw [ha]
      have h2 : fill (fun _ => none) p = .sym x := by unfold fill; rw [ha]; rfl
      rw [h1, h2, subst]
      cases ρ x <;> rfl
    | none =>
      unfold fillOk at h
      rw [ha, Option.isSome_none, Bool.false_or] at h
      split at h
      · unfold fill; rw [ha]; rfl
      · unfold fill; rw [ha]; rfl
      · rename_i s ps
        simp only [Bool.and_eq_true, List.contains_iff_mem] at h
        rw [fill_call ha h.1, fill_call ha h.1, subst_call (hρ s h.1), List.map_map]
        congr 2
        refine List.map_congr_left fun q hq => ?_
        refine ih q ?_ (fillOkL_mem h.2 q hq)
        have := List.sizeOf_lt_of_mem hq
        simp only [Ex.expr.sizeOf_spec, List.cons.sizeOf_spec] at hn
        omega
      · cases h

/-! ### Symbols in a template have values -/

mutual
/-- The symbols in the arguments. -/
def leaves : Ex → List String
  | .sym s => [s]
  | .expr (_ :: es) => leavesL es
  | _ => []
/-- The same for a list. -/
def leavesL : List Ex → List String
  | [] => []
  | e :: es => leaves e ++ leavesL es
end

theorem mem_leavesL {s : String} : ∀ {es : List Ex}, s ∈ leavesL es → ∃ e ∈ es, s ∈ leaves e
  | [], h => by cases h
  | e :: es, h => by
    rw [leavesL, List.mem_append] at h
    rcases h with h | h
    · exact ⟨e, by simp, h⟩
    · obtain ⟨a, ha, h⟩ := mem_leavesL h
      exact ⟨a, by simp [ha], h⟩

theorem leaf_value {V : Interp} : ∀ (n : Nat) (t : Ex), sizeOf t < n → tmpl t = true → ∀ {v : ℂ}, V.Denotes t v → ∀ s ∈ leaves t, ∃ w, V.Denotes (.sym s) w := by
  intro n
  induction n with
  | zero => intro t h; omega
  | succ n ih =>
    intro t hn ht v hv s hs
    have ht' := ht
    unfold tmpl at ht
    split at ht
    · simp [leaves] at hs
    · simp [leaves] at hs
    · simp only [leaves, List.mem_singleton] at hs
      subst hs
      exact ⟨v, hv⟩
    · rename_i s' es
      simp only [Bool.and_eq_true, List.contains_iff_mem] at ht
      have hq : s' ≠ "System`Sequence" := fun he => absurd (he ▸ ht.1.1) (by decide)
      have hm := tmplL_mem ht.2
      obtain ⟨vs, h1, _⟩ := den_inv hq (fun e he => tmpl_noSeq (hm e he)) hv
      rw [leaves] at hs
      obtain ⟨e, he, hs⟩ := mem_leavesL hs
      obtain ⟨i, hi, rfl⟩ := List.mem_iff_getElem.1 he
      have hvi := (List.forall₂_iff_get.1 h1).2 i hi ((List.forall₂_iff_get.1 h1).1 ▸ hi)
      refine ih _ ?_ (hm _ he) hvi s hs
      have := List.sizeOf_lt_of_mem he
      simp only [Ex.expr.sizeOf_spec, List.cons.sizeOf_spec] at hn
      change sizeOf es[i] < n
      omega
    · cases ht

end Expreduce
