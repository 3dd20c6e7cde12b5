import Verif.Props.UserFnDefs
import Verif.Spec.Print

/-! C121: the order of definitions in terms of the printed left sides. -/

namespace Expreduce
open Ex
open AssignProg

/-- How `ruleSpecificity` prints (`evalstate.go:453-462`, `string.go:133-142`). -/
def definitionParams : PParams := { form := .input, context := "Global`", path := ["System`", "Private`"], prev := "", fns := true }

/-- The length used by the interpreter is that of the printed form, in bytes. -/
def PrintedLength (prec : String → Option Nat) (fl : Rat → String) (strLen : Ex → Nat) : Prop :=
  ∀ e s, Prints prec fl definitionParams e s → strLen e = s.utf8ByteSize

/-- The symbol is printed without a format of its own. -/
def NoFormat (f : String) : Prop := infixOf f = none ∧ blankRepr f = none ∧ formOf f = none ∧
  f ∉ ["System`List", "System`Plus", "System`Times", "System`Power", "System`Part", "System`Pattern", "System`Optional", "System`HoldForm", "System`Infix"]

/-- The printed form of an argument of a left side. -/
def ArgPat.text : ArgPat → String
  | .any x => symForm definitionParams x ++ "_"
  | .lit c => Int.repr c

section
variable {prec : String → Option Nat} {fl : Rat → String}

theorem symForm_prev (s : String) : symForm { definitionParams with prev := topHead } s = symForm definitionParams s := rfl

theorem prints_blank (p : PParams) (hp : p.form = .input) (hf : p.fns = true) (n : Nat) : sf prec fl (n + 2) p (.expr [S "Blank"]) = .ok "_" := by
  have h : special prec fl (n + 1) p (S "Blank") [] = .ok (some "_") := by
    simp [special, hf, infixOf, blankRepr, S, hp]
  rw [sf, h]; rfl

theorem prints_arg (p : PParams) (hp : p = { definitionParams with prev := topHead }) (a : ArgPat) (n : Nat) : sf prec fl (n + 4) p a.toEx = .ok a.text := by
  cases a with
  | lit c => rw [ArgPat.toEx, sf]; rfl
  | any x =>
    have h : special prec fl (n + 3) p (S "Pattern") [.sym x, .expr [S "Blank"]] = .ok (some (ArgPat.any x).text) := by
      have hb := prints_blank (prec := prec) (fl := fl) p (by rw [hp]; rfl) (by rw [hp]; rfl) n
      have hf : p.fns = true := by rw [hp]; rfl
      have hi : p.form = .input := by rw [hp]; rfl
      have hh : hasHead "System`Blank" (.expr [S "Blank"]) = true := rfl
      have hx : sf prec fl (n + 2) p (.sym x) = .ok (symForm p x) := rfl
      have e : special prec fl (n + 3) p (S "Pattern") [.sym x, .expr [S "Blank"]] =
          (sf prec fl (n + 2) p (.sym x)).bind (fun s => (sf prec fl (n + 2) p (.expr [S "Blank"])).bind (fun t =>
              if hasHead "System`Blank" (.expr [S "Blank"]) || hasHead "System`BlankSequence" (.expr [S "Blank"]) || hasHead "System`BlankNullSequence" (.expr [S "Blank"]) then .ok (some (s ++ t))
              else .ok (some ("(" ++ s ++ ") : (" ++ t ++ ")")))) := by
        rw [S, special]
        simp [hf, infixOf, blankRepr, hi]
      rw [e, hx, hb]
      simp only [Res.bind, hh, Bool.true_or, if_true]
      rw [hp, ArgPat.text, symForm_prev]
    show sf prec fl (n + 4) p (.expr [S "Pattern", .sym x, .expr [S "Blank"]]) = _
    rw [sf, h]; rfl

theorem prints_args (p : PParams) (hp : p = { definitionParams with prev := topHead }) : ∀ (as : List ArgPat) (n : Nat), as.length + 5 ≤ n →
    sfL prec fl n p (as.map ArgPat.toEx) = .ok (as.map ArgPat.text)
  | [], n, hn => by
    obtain ⟨n, rfl⟩ : ∃ m, n = m + 1 := ⟨n - 1, by simp at hn; omega⟩
    rfl
  | a :: as, n, hn => by
    obtain ⟨n, rfl⟩ : ∃ m, n = m + 5 := ⟨n - 5, by simp at hn; omega⟩
    rw [List.map_cons, sfL, prints_arg p hp a n, Res.bind, prints_args p hp as (n + 4) (by simp at hn; omega)]
    rfl

theorem special_plain (p : PParams) (hf : p.fns = true) {f : String} (h : NoFormat f) (args : List Ex) (n : Nat) : special prec fl (n + 1) p (.sym f) args = .ok none := by
  obtain ⟨h1, h2, h3, h4⟩ := h
  simp only [List.mem_cons, List.not_mem_nil, or_false, not_or] at h4
  obtain ⟨a1, a2, a3, a4, a5, a6, a7, a8, a9⟩ := h4
  rw [special.eq_def]
  simp [hf, h1, h2, a1, a2, a3, a4, a5, a6, a7, a8, a9]

theorem prints_call (p : PParams) (hp : p.fns = true ∧ p.form = .input) {f : String} (h : NoFormat f) {args : List Ex} {ts : List String} {N : Nat}
    (ha : ∀ n, N ≤ n → sfL prec fl n { p with prev := topHead } args = .ok ts) (n : Nat) (hn : N + 2 ≤ n) :
    sf prec fl n p (.expr (.sym f :: args)) = .ok (symForm p f ++ "[" ++ joinTexts ", " ts ++ "]") := by
  obtain ⟨n, rfl⟩ : ∃ m, n = m + 2 := ⟨n - 2, by omega⟩
  have hc : formOfCall (.sym f) args = none := by
    rcases args with _ | ⟨x, _ | ⟨y, r⟩⟩
    · rfl
    · show (formOf f).map _ = none
      rw [h.2.2.1]; rfl
    · rfl
  have hs : sf prec fl (n + 1) p (.sym f) = .ok (symForm p f) := rfl
  rw [sf, special_plain p hp.1 h]
  simp only [Res.bind, hc, hs, ha (n + 1) (by omega)]

theorem hold_plain : NoFormat "System`HoldPattern" := ⟨by decide, by decide, by decide, by decide⟩

/-- C121: the printed form of a stored left side. -/
theorem C121_printed {f : String} (hf : NoFormat f) (as : List ArgPat) : Prints prec fl definitionParams (held (.expr (.sym f :: as.map ArgPat.toEx)))
    ("HoldPattern[" ++ symForm definitionParams f ++ "[" ++ joinTexts ", " (as.map ArgPat.text) ++ "]]") := by
  have h1 : ∀ n, as.length + 5 + 2 ≤ n → sf prec fl n { definitionParams with prev := topHead } (.expr (.sym f :: as.map ArgPat.toEx)) =
      .ok (symForm definitionParams f ++ "[" ++ joinTexts ", " (as.map ArgPat.text) ++ "]") := fun n hn =>
    prints_call (p := { definitionParams with prev := topHead }) ⟨rfl, rfl⟩ hf (N := as.length + 5) (fun n hn => prints_args _ rfl as n hn) n hn
  have h2 : ∀ n, as.length + 5 + 2 + 1 ≤ n → sfL prec fl n { definitionParams with prev := topHead } [.expr (.sym f :: as.map ArgPat.toEx)] =
      .ok [symForm definitionParams f ++ "[" ++ joinTexts ", " (as.map ArgPat.text) ++ "]"] := by
    intro n hn
    obtain ⟨n, rfl⟩ : ∃ m, n = m + 2 := ⟨n - 2, by omega⟩
    rw [sfL, h1 (n + 1) (by omega)]
    rfl
  refine ⟨as.length + 5 + 2 + 1 + 2, fun n hn => ?_⟩
  rw [held, S, prints_call (f := "System`" ++ "HoldPattern") definitionParams ⟨rfl, rfl⟩ hold_plain h2 n hn]
  have : symForm definitionParams ("System`" ++ "HoldPattern") = "HoldPattern" := by decide +kernel
  rw [this]
  simp [joinTexts, String.append_assoc]

end

section
variable {prec : String → Option Nat} {fl : Rat → String} {A : AlgParams} {strLen : Ex → Nat} {fmt : Rat → String}

theorem length_one (hlen : PrintedLength prec fl strLen) {f : String} (hf : NoFormat f) (a : ArgPat) :
    strLen (held (.expr [.sym f, a.toEx])) = 15 + (symForm definitionParams f).utf8ByteSize + a.text.utf8ByteSize := by
  have h0 := hlen _ _ (C121_printed (prec := prec) (fl := fl) hf [a])
  simp only [List.map_cons, List.map_nil] at h0
  rw [h0]
  simp only [joinTexts, String.utf8ByteSize_append]
  have h1 : "HoldPattern[".utf8ByteSize = 12 := by decide
  have h2 : "[".utf8ByteSize = 1 := by decide
  have h3 : "]]".utf8ByteSize = 2 := by decide
  omega

theorem length_two (hlen : PrintedLength prec fl strLen) {f : String} (hf : NoFormat f) (a b : ArgPat) :
    strLen (held (.expr [.sym f, a.toEx, b.toEx])) = 17 + (symForm definitionParams f).utf8ByteSize + a.text.utf8ByteSize + b.text.utf8ByteSize := by
  have h0 := hlen _ _ (C121_printed (prec := prec) (fl := fl) hf [a, b])
  simp only [List.map_cons, List.map_nil] at h0
  rw [h0]
  simp only [joinTexts, String.utf8ByteSize_append]
  have h1 : "HoldPattern[".utf8ByteSize = 12 := by decide
  have h2 : "[".utf8ByteSize = 1 := by decide
  have h3 : "]]".utf8ByteSize = 2 := by decide
  have h4 : ", ".utf8ByteSize = 2 := by decide
  omega

/-- C121: the case of one parameter, with the printed lengths: the definition for an integer is tried first if the names of the function and its parameter have less than 94 bytes together. -/
theorem C121_order_printed_partial (hlen : PrintedLength prec fl strLen) {st : EState} (h : Shell st) {f x : String} (hf : NewName st f) (hn : NoFormat f) (c : Int) (v body : Ex)
    (hb : hasHead "System`Condition" body = false)
    (hd : isSameQ (held (.expr [.sym f, .int c])) (held (.expr [.sym f, argP x])) = false ∧ isSameQ (held (.expr [.sym f, argP x])) (held (.expr [.sym f, .int c])) = false)
    (hs : (symForm definitionParams f).utf8ByteSize + (symForm definitionParams x).utf8ByteSize < 94) (first second : Clause)
    (hfs : (first, second) = (⟨[.lit c], v⟩, ⟨[.any x], body⟩) ∨ (first, second) = (⟨[.any x], body⟩, ⟨[.lit c], v⟩)) :
    ∃ st1 st2, Defines strLen st (first.lhs f) first.body st1 ∧ Defines strLen st1 (second.lhs f) second.body st2 ∧
      HasClauses st2 f [⟨[.lit c], v⟩, ⟨[.any x], body⟩] ∧ attrsOf st2 f = {} ∧ Shell st2 := by
  refine C121_order_partial h hf c v body hb hd ?_ first second hfs
  have := length_one hlen hn (.any x)
  simp only [ArgPat.toEx, ArgPat.text, String.utf8ByteSize_append] at this
  have h1 : "_".utf8ByteSize = 1 := by decide
  omega

/-- C121, refuted: beside `p[x_, y_] := ...` a base case `p[x_, c] := ...` is never used if the integer has no more characters than the name `y`; in particular `p[x_, 0]` never is. -/
theorem C121_base_case_hidden_printed (hlen : PrintedLength prec fl strLen) {st : EState} (h : Shell st) {p x y : String} (hp : NewName st p) (hn : NoFormat p) (hxy : x ≠ y)
    (c : Int) (e e' : Ex) (hc : hasHead "System`Condition" e = false ∧ hasHead "System`Condition" e' = false)
    (hd : isSameQ (held (.expr [.sym p, argP x, .int c])) (held (.expr [.sym p, argP x, argP y])) = false ∧
      isSameQ (held (.expr [.sym p, argP x, argP y])) (held (.expr [.sym p, argP x, .int c])) = false)
    (hs : (Int.repr c).utf8ByteSize ≤ (symForm definitionParams y).utf8ByteSize) (first second : Clause)
    (hfs : (first, second) = (⟨[.any x, .lit c], e⟩, ⟨[.any x, .any y], e'⟩) ∨ (first, second) = (⟨[.any x, .any y], e'⟩, ⟨[.any x, .lit c], e⟩)) :
    ∃ st1 st2, Defines strLen st (first.lhs p) first.body st1 ∧ Defines strLen st1 (second.lhs p) second.body st2 ∧
      HasClauses st2 p [⟨[.any x, .any y], e'⟩, ⟨[.any x, .lit c], e⟩] ∧ attrsOf st2 p = {} ∧ Shell st2 := by
  refine C121_base_case_hidden h hp hxy c e e' hc hd ?_ first second hfs
  have h1 := length_two hlen hn (.any x) (.lit c)
  have h2 := length_two hlen hn (.any x) (.any y)
  simp only [ArgPat.toEx, ArgPat.text, String.utf8ByteSize_append] at h1 h2
  have h3 : "_".utf8ByteSize = 1 := by decide
  omega

/-- C121, concrete: `p[a_, 0]` beside `p[a_, b_]`. -/
example : (Int.repr 0).utf8ByteSize ≤ (symForm definitionParams "Global`b").utf8ByteSize := by decide +kernel
example : (symForm definitionParams "Global`fact").utf8ByteSize + (symForm definitionParams "Global`n").utf8ByteSize < 94 := by decide +kernel
example : NoFormat "Global`fact" ∧ NoFormat "Global`p" := ⟨⟨by decide, by decide, by decide, by decide⟩, ⟨by decide, by decide, by decide, by decide⟩⟩
/-- C121, concrete: a stored left side. -/
example : Prints prec fl definitionParams (held (.expr [.sym "Global`p", argP "Private`a", .int (-12)])) "HoldPattern[p[a_, -12]]" := by
  have := C121_printed (prec := prec) (fl := fl) (f := "Global`p") ⟨by decide, by decide, by decide, by decide⟩ [.any "Private`a", .lit (-12)]
  have e : ("HoldPattern[" ++ symForm definitionParams "Global`p" ++ "[" ++ joinTexts ", " ([ArgPat.any "Private`a", .lit (-12)].map ArgPat.text) ++ "]]") =
      "HoldPattern[p[a_, -12]]" := by decide +kernel
  rw [e] at this
  exact this

open Classical in
/-- The printed length is a function of the expression: such an interpreter exists. -/
example : ∃ strLen : Ex → Nat, PrintedLength prec fl strLen := by
  refine ⟨fun e => if h : ∃ s, Prints prec fl definitionParams e s then (Classical.choose h).utf8ByteSize else 0, ?_⟩
  intro e s hs
  have h : ∃ s, Prints prec fl definitionParams e s := ⟨s, hs⟩
  simp only [dif_pos h]
  obtain ⟨N, hN⟩ := Classical.choose_spec h
  obtain ⟨M, hM⟩ := hs
  have := (hN (max N M) (by omega)).symm.trans (hM (max N M) (by omega))
  rw [Res.ok.inj this]

end
end Expreduce
