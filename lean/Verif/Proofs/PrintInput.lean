import Verif.Spec.PrintInput
import Verif.Proofs.PrintRead

/-! Proofs about `InputForm`: what is printed. -/

namespace Expreduce
open Ex

/-- The head used for the parentheses of an operator. -/
def OpRow.hd (o : OpRow) : String := if o.own then "System`" ++ o.name else ""

/-- A text that does not begin with a minus sign. -/
def NoMinus (s : String) : Prop := ∃ c r, s.toList = c :: r ∧ c ≠ '-'

theorem op_rows : ∀ o ∈ opTable, (o.name = "Plus" ∨ o.name = "Times" ∨ o.name = "Power") ∨
    (infixOf ("System`" ++ o.name) = some (String.ofList o.text, o.hd, o.surround, o.two)) := by decide +kernel

theorem row_plus : ∀ o ∈ opTable, o.name = "Plus" → o = ⟨"Plus", [' ', '+', ' '], true, false, false⟩ := by decide +kernel
theorem row_times : ∀ o ∈ opTable, o.name = "Times" → o = ⟨"Times", ['*'], true, false, false⟩ := by decide +kernel
theorem row_power : ∀ o ∈ opTable, o.name = "Power" → o = ⟨"Power", ['^'], true, false, true⟩ := by decide +kernel

section
variable (prec : String → Option Nat) (fl : Rat → String)

theorem sf_special {n : Nat} {p : PParams} {h : Ex} {args : List Ex} {s : String} (hs : special prec fl n p h args = .ok (some s)) :
    sf prec fl (n + 1) p (.expr (h :: args)) = .ok s := by
  rw [sf, hs]
  rfl

theorem infix_ok {n : Nat} {p : PParams} (hf : p.form = .input) {args : List Ex} (hl : 2 ≤ args.length) {d h : String} {b : Bool} {l : List String}
    (hs : sfL prec fl n { p with prev := h } args = .ok l) :
    infixForm prec fl (n + 1) p args d h b = .ok (some (inBrackets (needsParens prec h p.prev) (joinTexts d (l.map (inBrackets b))))) := by
  unfold infixForm
  rw [if_neg (by rw [hf]; decide), if_neg (by omega), hs]
  rfl

theorem plusTexts_ok : ∀ {l : List String}, (∀ s ∈ l, NoMinus s) → ∃ t, plusTexts l = .ok t ∧ ∀ s, s ++ t = joinTexts " + " (s :: l)
  | [], _ => ⟨"", rfl, fun s => by simp [joinTexts]⟩
  | a :: l, h => by
    obtain ⟨t, ht, hj⟩ := plusTexts_ok (fun s hs => h s (List.mem_cons_of_mem _ hs))
    obtain ⟨c, r, hc, hm⟩ := h a List.mem_cons_self
    refine ⟨" + " ++ a ++ t, ?_, ?_⟩
    · rw [plusTexts, hc]
      simp only [ht, Res.bind, if_neg hm]
    · intro s
      rw [joinTexts]
      · rw [← hj a, String.append_assoc, String.append_assoc]
      · simp

theorem sfL_length : ∀ {n : Nat} {p : PParams} {args : List Ex} {l : List String}, sfL prec fl n p args = .ok l → l.length = args.length
  | 0, _, _, _, h => by simp [sfL] at h
  | n + 1, _, [], _, h => by
    rw [sfL] at h
    simp only [Res.ok.injEq] at h
    subst h; rfl
  | n + 1, p, e :: r, l, h => by
    rw [sfL] at h
    replace h := Res.bind_ok h
    obtain ⟨s, _, h⟩ := h
    replace h := Res.bind_ok h
    obtain ⟨l', h', h⟩ := h
    simp only [Res.ok.injEq] at h
    subst h
    simp [sfL_length h']

theorem joinTexts_noMinus {d s : String} {l : List String} (h : NoMinus s) : NoMinus (joinTexts d (s :: l)) := by
  obtain ⟨c, r, hc, hm⟩ := h
  cases l with
  | nil => exact ⟨c, r, hc, hm⟩
  | cons a l =>
    rw [joinTexts]
    · exact ⟨c, r ++ d.toList ++ (joinTexts d (a :: l)).toList, by simp [hc], hm⟩
    · simp

theorem inBrackets_noMinus {b : Bool} {s : String} (h : NoMinus s) : NoMinus (inBrackets b s) := by
  cases b
  · exact h
  · exact ⟨'(', s.toList ++ [')'], by simp [inBrackets], by decide⟩

theorem minusPrefix_none {s : String} (h : NoMinus s) : minusPrefix s = ("", s) := by
  obtain ⟨c, r, hc, hm⟩ := h
  unfold minusPrefix
  rw [dropPre_eq, hc]
  have : ("-1*".toList).isPrefixOf (c :: r) = false := by
    have e : "-1*".toList = ['-', '1', '*'] := by decide
    rw [e, List.isPrefixOf_cons₂]
    simp only [Bool.and_eq_false_iff, beq_eq_false_iff_ne, ne_eq]
    exact Or.inl (fun e => hm e.symm)
  rw [this]
  rfl

theorem splitFrac_none {e : Ex} (h1 : quotientPower e = false) (h2 : ∀ n d, e ≠ .rat n d) : splitFrac e = (some e, none) := by
  unfold splitFrac
  split
  · rw [if_neg]
    simpa [quotientPower] using h1
  · exact absurd rfl (h2 _ _)
  · rfl

theorem map_inBrackets_false (l : List String) : l.map (inBrackets false) = l := by
  have : inBrackets false = id := by funext s; rfl
  rw [this, List.map_id]

/-- What an application of an operator is printed as. -/
theorem sf_op {o : OpRow} (ho : o ∈ opTable) {p : PParams} (hf : p.form = .input) (hfn : p.fns = true) {args : List Ex} (hl : 2 ≤ args.length)
    (htwo : o.two = true → args.length = 2) (hnum : ∀ a ∈ args, (∀ n d, a ≠ .rat n d) ∧ ∀ x y, a ≠ .cplx x y)
    (htimes : o.name = "Times" → ∀ a ∈ args, quotientPower a = false)
    (hpow : o.name = "Power" → ∀ b e, args = [b, e] → isSameQ e (.rat 1 2) = false ∧ isSameQ e (.rat (-1) 2) = false ∧ isSameQ e (.int (-1)) = false)
    {N : Nat} {l : List String} (hs : ∀ m, N ≤ m → sfL prec fl m { p with prev := o.hd } args = .ok l) (hm : ∀ s ∈ l, NoMinus s) :
    ∀ m, N + 3 ≤ m → sf prec fl m p (.expr (.sym ("System`" ++ o.name) :: args)) =
      .ok (inBrackets (needsParens prec o.hd p.prev) (joinTexts (String.ofList o.text) (l.map (inBrackets o.surround)))) := by
  intro m hmN
  obtain ⟨m, rfl⟩ : ∃ k, m = k + 3 := ⟨m - 3, by omega⟩
  have hs0 := hs m (by omega)
  have hlen := sfL_length prec fl hs0
  apply sf_special
  rcases op_rows o ho with (h | h | h) | h
  · obtain rfl := row_plus o ho h
    have hs1 := hs (m + 1) (by omega)
    have i1 : infixOf ("System`" ++ "Plus") = none := by decide +kernel
    have i2 : blankRepr ("System`" ++ "Plus") = none := by decide +kernel
    unfold special
    rw [if_neg (by rw [hfn]; simp), i1, i2]
    simp only
    rw [if_neg (by decide), if_pos (by decide), if_neg (by rw [hf]; decide), if_neg (by omega)]
    have e : (OpRow.mk "Plus" [' ', '+', ' '] true false false).hd = "System`Plus" := by decide
    rw [e] at hs1 ⊢
    rw [hs1]
    cases l with
    | nil => simp at hlen; omega
    | cons s r =>
      obtain ⟨t, ht, hj⟩ := plusTexts_ok (fun x hx => hm x (List.mem_cons_of_mem _ hx))
      simp only [Res.bind, ht, hj]
      rw [map_inBrackets_false]
  · obtain rfl := row_times o ho h
    have i1 : infixOf ("System`" ++ "Times") = none := by decide +kernel
    have i2 : blankRepr ("System`" ++ "Times") = none := by decide +kernel
    unfold special
    rw [if_neg (by rw [hfn]; simp), i1, i2]
    simp only
    rw [if_neg (by decide), if_neg (by decide), if_pos (by decide)]
    have hp : timesParts args = args := timesParts_plain (fun e he => (hnum e he).2)
    have hsp : args.map splitFrac = args.map (fun e => (some e, none)) :=
      List.map_congr_left (fun e he => splitFrac_none (htimes rfl e he) (hnum e he).1)
    have e1 : (args.map (fun e => ((some e, none) : Option Ex × Option Ex))).filterMap (·.2) = [] := by
      rw [List.filterMap_map]; simp [Function.comp_def]
    have e2 : (args.map (fun e => ((some e, none) : Option Ex × Option Ex))).filterMap (·.1) = args := by
      rw [List.filterMap_map]; simp [Function.comp_def]
    rw [hp, hsp, e1, e2, if_pos rfl]
    have e : (OpRow.mk "Times" ['*'] true false false).hd = "System`Times" := by decide
    rw [e] at hs0 ⊢
    rw [infix_ok prec fl hf hl hs0]
    simp only [Res.bind, Option.map_some, map_inBrackets_false]
    have d : String.ofList ['*'] = "*" := by decide
    rw [d]
    rw [minusPrefix_none]
    · simp
    · apply inBrackets_noMinus
      cases l with
      | nil => simp at hlen; omega
      | cons s r => exact joinTexts_noMinus (hm s List.mem_cons_self)
  · obtain rfl := row_power o ho h
    have i1 : infixOf ("System`" ++ "Power") = none := by decide +kernel
    have i2 : blankRepr ("System`" ++ "Power") = none := by decide +kernel
    have hl2 := htwo rfl
    match args, hl2 with
    | [b, e], _ =>
      obtain ⟨h1, h2, h3⟩ := hpow rfl b e rfl
      unfold special
      rw [if_neg (by rw [hfn]; simp), i1, i2]
      simp only
      rw [if_neg (by decide), if_neg (by decide), if_neg (by decide), if_pos (by decide), h1, h2, h3]
      have e : (OpRow.mk "Power" ['^'] true false true).hd = "System`Power" := by decide
      rw [e] at hs0 ⊢
      simp only [Bool.false_and, Bool.false_eq_true, if_false]
      rw [infix_ok prec fl hf hl hs0]
  · unfold special
    rw [if_neg (by rw [hfn]; simp), h]
    simp only
    have ht : (o.two && args.length != 2) = false := by
      cases h2 : o.two
      · rfl
      · simp [htwo h2]
    rw [ht, if_neg (by simp), infix_ok prec fl hf hl hs0]

/-- A list. -/
theorem sf_list {p : PParams} (hf : p.form = .input) (hfn : p.fns = true) {args : List Ex} {N : Nat} {l : List String}
    (hs : ∀ m, N ≤ m → sfL prec fl m { p with prev := topHead } args = .ok l) :
    ∀ m, N + 2 ≤ m → sf prec fl m p (.expr (.sym "System`List" :: args)) = .ok ("{" ++ joinTexts ", " l ++ "}") := by
  intro m hm
  obtain ⟨m, rfl⟩ : ∃ k, m = k + 2 := ⟨m - 2, by omega⟩
  apply sf_special
  have i1 : infixOf "System`List" = none := by decide +kernel
  have i2 : blankRepr "System`List" = none := by decide +kernel
  unfold special
  rw [if_neg (by rw [hfn]; simp), i1, i2]
  simp only
  rw [if_pos trivial, if_neg (by rw [hf]; decide), hs m (by omega)]
  rfl

theorem special_none {p : PParams} {h : Ex} (hh : ∀ f ∈ notationNames, h ≠ .sym f) (n : Nat) (args : List Ex) : special prec fl (n + 1) p h args = .ok none := by
  cases h with
  | sym s =>
    have hn : s ∉ notationNames := fun hm => hh s hm rfl
    have hmem : notationNames = ["System`Plus", "System`Times", "System`Power", "System`Equal", "System`Unequal", "System`SameQ", "System`UnsameQ", "System`Less", "System`Greater",
      "System`LessEqual", "System`GreaterEqual", "System`And", "System`Or", "System`StringJoin", "System`Set", "System`SetDelayed", "System`Rule", "System`RuleDelayed",
      "System`ReplaceAll", "System`ReplaceRepeated", "System`List", "System`Blank", "System`BlankSequence", "System`BlankNullSequence", "System`Part", "System`Pattern",
      "System`Optional", "System`HoldForm", "System`Infix", "System`Definition"] := by decide +kernel
    rw [hmem] at hn
    simp only [List.mem_cons, List.not_mem_nil, or_false, not_or] at hn
    have i1 : infixOf s = none := by simp [infixOf, hn]
    have i2 : blankRepr s = none := by simp [blankRepr, hn]
    unfold special
    rw [i1, i2]
    simp [hn]
  | _ => all_goals rfl

/-- A call. -/
theorem sf_plain_call {p : PParams} {h : Ex} {args : List Ex} (hh : ∀ f ∈ notationNames, h ≠ .sym f) (h1 : args.length = 1 → ∀ f ∈ formatNames, h ≠ .sym f)
    {N : Nat} {x : String} {l : List String} (hx : ∀ m, N ≤ m → sf prec fl m p h = .ok x) (hs : ∀ m, N ≤ m → sfL prec fl m { p with prev := topHead } args = .ok l) :
    ∀ m, N + 2 ≤ m → sf prec fl m p (.expr (h :: args)) = .ok (x ++ "[" ++ joinTexts ", " l ++ "]") := by
  intro m hm
  obtain ⟨m, rfl⟩ : ∃ k, m = k + 2 := ⟨m - 2, by omega⟩
  refine sf_call prec fl (special_none prec fl hh m args) ?_ (hx _ (by omega)) (hs _ (by omega))
  apply formOfCall_none
  match args, h1 with
  | [], _ => simp [PlainPart]
  | [y], h1 => simpa [PlainPart] using h1 rfl
  | _ :: _ :: _, _ => simp [PlainPart]

end
end Expreduce
