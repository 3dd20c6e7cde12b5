import Verif.Props.Parser

/-! Property C82: the patterns `x_`, `x__h`, `___`, `x_.` and so on. -/

namespace Expreduce
open Ex

theorem containsStr_cons (d : List Char) (c : Char) (s : List Char) : containsStr d (c :: s) = (d.isPrefixOf (c :: s) || containsStr d s) := by
  simp [containsStr, List.tails]

theorem prefix_ne {d : List Char} {a c : Char} (h : c ≠ a) (s : List Char) : (a :: d).isPrefixOf (c :: s) = false := by
  simp [List.isPrefixOf, Ne.symm h]

theorem containsStr_skip {d : List Char} {a : Char} : ∀ {x : List Char}, a ∉ x → ∀ s, containsStr (a :: d) (x ++ s) = containsStr (a :: d) s
  | [], _, s => rfl
  | c :: x, h, s => by
    rw [List.cons_append, containsStr_cons, prefix_ne (fun e => h (by simp [e])), containsStr_skip (fun e => h (List.mem_cons_of_mem _ e)) s, Bool.false_or]

theorem containsStr_none {d : List Char} {a : Char} {h : List Char} (hh : a ∉ h) : containsStr (a :: d) h = false := by
  have := containsStr_skip (d := d) hh []
  rw [List.append_nil] at this
  rw [this]
  rfl

theorem splitGo_skip {d : List Char} {a : Char} : ∀ {x : List Char} (n : Nat) (cur s : List Char), a ∉ x →
    splitGo (a :: d) (x.length + n) cur (x ++ s) = splitGo (a :: d) n (x.reverse ++ cur) s
  | [], n, cur, s, _ => by simp
  | c :: x, n, cur, s, h => by
    have e : (c :: x).length + n = (x.length + n) + 1 := by simp only [List.length_cons]; omega
    have hc : c ≠ a := fun e => h (by simp [e])
    rw [e, List.cons_append, splitGo, prefix_ne hc, if_neg (by simp), splitGo_skip n (c :: cur) s (fun e => h (List.mem_cons_of_mem _ e))]
    simp

theorem splitGo_end {d : List Char} {a : Char} {h : List Char} (hh : a ∉ h) (n : Nat) (cur : List Char) :
    splitGo (a :: d) (h.length + n) cur h = [cur.reverse ++ h] := by
  have := splitGo_skip (d := d) n cur [] hh
  rw [List.append_nil] at this
  rw [this]
  cases n <;> simp [splitGo]

theorem splitGo_hit {d : List Char} (hd : d ≠ []) (n : Nat) (cur h : List Char) : splitGo d (n + 1) cur (d ++ h) = cur.reverse :: splitGo d n [] h := by
  match d, hd with
  | a :: d, _ =>
    rw [List.cons_append, splitGo]
    have : (a :: d).isPrefixOf (a :: (d ++ h)) = true := by
      rw [List.isPrefixOf_iff_prefix]
      exact ⟨h, by simp⟩
    rw [this, if_pos rfl]
    congr 2
    simp

/-- The pieces around the only occurrence of the delimiter. -/
theorem splitStr_once {d : List Char} {a : Char} {x h : List Char} (hx : a ∉ x) (hh : a ∉ h) : splitStr (a :: d) (x ++ ((a :: d) ++ h)) = [x, h] := by
  unfold splitStr
  have e : (x ++ ((a :: d) ++ h)).length + 1 = x.length + (((h.length + (d.length + 1))) + 1) := by simp only [List.length_append, List.length_cons]; omega
  rw [e, splitGo_skip _ _ _ hx, splitGo_hit (by simp), splitGo_end hh]
  simp

/-- The kind of blank is the number of underscores. -/
theorem blankKindOf_count {x h : List Char} (hx : '_' ∉ x) (hh : '_' ∉ h) :
    blankKindOf (x ++ (['_'] ++ h)) = (['_'], "Blank") ∧ blankKindOf (x ++ (['_', '_'] ++ h)) = (['_', '_'], "BlankSequence") ∧
      blankKindOf (x ++ (['_', '_', '_'] ++ h)) = (['_', '_', '_'], "BlankNullSequence") := by
  have h0 : ∀ d, containsStr ('_' :: d) h = false := fun d => containsStr_none hh
  have p1 : ∀ d, ('_' :: d).isPrefixOf h = false := by
    intro d
    match h, hh with
    | [], _ => rfl
    | c :: r, hh => exact prefix_ne (fun e => hh (by simp [e])) r
  refine ⟨?_, ?_, ?_⟩
  · unfold blankKindOf
    rw [containsStr_skip hx, containsStr_skip hx]
    simp [containsStr_cons, h0, List.isPrefixOf, p1]
  · unfold blankKindOf
    rw [containsStr_skip hx, containsStr_skip hx]
    simp [containsStr_cons, h0, List.isPrefixOf, p1]
  · unfold blankKindOf
    rw [containsStr_skip hx, containsStr_skip hx]
    simp [containsStr_cons, h0, List.isPrefixOf]

theorem ofList_eq_empty {s : String} : s.toList = [] ↔ s = "" := by
  constructor
  · intro h; exact String.toList_inj.1 (by rw [h]; rfl)
  · rintro rfl; rfl

/-- **Pattern tokens.** For names `x` and `h` without underscores (either may be missing), `x` followed by one, two or three underscores and `h` is the pattern with that name,
the kind of blank with that number of underscores and that head. Only `h = "."` after one underscore has another meaning. -/
theorem C82_pattern {x h : String} (hx : '_' ∉ x.toList) (hh : '_' ∉ h.toList) {k : Nat} (hk : k = 1 ∨ k = 2 ∨ k = 3) (hd : k = 1 → h ≠ ".") :
    parsePattern (x ++ String.ofList (List.replicate k '_') ++ h) = blankExpr x k h := by
  obtain ⟨b1, b2, b3⟩ := blankKindOf_count hx hh
  have hl : (x ++ String.ofList (List.replicate k '_') ++ h).toList = x.toList ++ (List.replicate k '_' ++ h.toList) := by simp
  have hdot : h.toList = ['.'] ↔ h = "." := by
    constructor
    · intro e; exact String.toList_inj.1 (by rw [e]; rfl)
    · rintro rfl; rfl
  unfold parsePattern blankExpr
  rw [hl]
  rcases hk with rfl | rfl | rfl
  · have e : List.replicate 1 '_' = ['_'] := rfl
    rw [e, b1, splitStr_once hx hh]
    have hd' : ¬ (h = ".") := hd rfl
    simp only [patternOf, ofList_eq_empty, String.ofList_toList, hdot, hd', and_false, if_false]
    by_cases h1 : x = "" <;> by_cases h2 : h = "" <;> simp [h1, h2]
  · have e : List.replicate 2 '_' = ['_', '_'] := rfl
    rw [e, b2, splitStr_once hx hh]
    simp only [patternOf, ofList_eq_empty, String.ofList_toList, hdot]
    by_cases h1 : x = "" <;> by_cases h2 : h = "" <;> simp [h1, h2]
  · have e : List.replicate 3 '_' = ['_', '_', '_'] := rfl
    rw [e, b3, splitStr_once hx hh]
    simp only [patternOf, ofList_eq_empty, String.ofList_toList, hdot]
    by_cases h1 : x = "" <;> by_cases h2 : h = "" <;> simp [h1, h2]

/-- Cases of it: `x__Integer`, `_Real`, `y___`, `_`. -/
example : parsePattern "x__Integer" = .expr [S "Pattern", .sym "x", .expr [S "BlankSequence", .sym "Integer"]] ∧ parsePattern "_Real" = .expr [S "Blank", .sym "Real"] ∧
    parsePattern "y___" = .expr [S "Pattern", .sym "y", .expr [S "BlankNullSequence"]] ∧ parsePattern "_" = .expr [S "Blank"] := by decide +kernel

/-- **Optional patterns.** `x_.` is the optional pattern `x_`. -/
theorem C82_optional {x : String} (hx : '_' ∉ x.toList) : parsePattern (x ++ "_.") = .expr [S "Optional", blankExpr x 1 ""] := by
  have hh : '_' ∉ ['.'] := by decide
  obtain ⟨b1, -, -⟩ := blankKindOf_count hx hh
  have hl : (x ++ "_.").toList = x.toList ++ (['_'] ++ ['.']) := by simp
  unfold parsePattern blankExpr
  rw [hl, b1, splitStr_once hx hh]
  simp only [patternOf, ofList_eq_empty, String.ofList_toList]
  by_cases h1 : x = "" <;> simp [h1]

/-- **Different patterns from different texts**: name, number of underscores and head can be read off the result. -/
theorem C82_distinct {x h x' h' : String} {k k' : Nat} (hk : k = 1 ∨ k = 2 ∨ k = 3) (hk' : k' = 1 ∨ k' = 2 ∨ k' = 3)
    (e : blankExpr x k h = blankExpr x' k' h') : x = x' ∧ k = k' ∧ h = h' := by
  unfold blankExpr at e
  rcases hk with rfl | rfl | rfl <;> rcases hk' with rfl | rfl | rfl <;>
    by_cases h1 : x = "" <;> by_cases h2 : h = "" <;> by_cases h3 : x' = "" <;> by_cases h4 : h' = "" <;> simp_all [S]

/-- After two or three underscores the point is taken for a head: `x___.` is `x` with a head named `.`; four underscores are a blank with a head named `_`; six are an
error-valued result. -/
theorem C82_odd : parsePattern "x___." = .expr [S "Pattern", .sym "x", .expr [S "BlankNullSequence", .sym "."]] ∧
    parsePattern "____" = .expr [S "BlankNullSequence", .sym "_"] ∧ parsePattern "______" = .expr [S "Error", .str "Pattern parse error."] := by decide +kernel

/-- A pattern token in an expression, as it is parsed. -/
theorem C82_parsed {x h : String} (hx : '_' ∉ x.toList) (hh : '_' ∉ h.toList)
    {k : Nat} (hk : k = 1 ∨ k = 2 ∨ k = 3) (hd : k = 1 → h ≠ ".") :
    parsed (.tok (.pat (x ++ String.ofList (List.replicate k '_') ++ h))) = some (blankExpr x k h) := by
  rw [parsed, conv, tokenConv, C82_pattern hx hh hk hd, Option.bind_some]
  have px' : strip (.sym x) = some (.sym x) := rfl
  have ph' : strip (.sym h) = some (.sym h) := rfl
  unfold blankExpr
  rcases hk with rfl | rfl | rfl <;> by_cases h1 : x = "" <;> by_cases h2 : h = "" <;>
    simp [h1, h2, strip_S, stripL, px', ph']

end Expreduce
