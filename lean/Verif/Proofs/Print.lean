import Verif.Spec.Print
import Verif.Props.Context
import Verif.Props.Reading

/-! Proofs about printing. -/

namespace Expreduce
open Ex

theorem dropPre_eq (c s : String) : dropPre c s = if c.toList.isPrefixOf s.toList then some (String.ofList (s.toList.drop c.toList.length)) else none := rfl

theorem findSome_dropPre (s : String) : ∀ path : List String,
    path.findSome? (fun c => dropPre c s) = (path.find? (fun c => c.toList.isPrefixOf s.toList)).map (fun c => String.ofList (s.toList.drop c.toList.length))
  | [] => rfl
  | c :: l => by
    rw [List.findSome?_cons, List.find?_cons, dropPre_eq]
    cases h : c.toList.isPrefixOf s.toList
    · simp [findSome_dropPre s l]
    · simp

theorem symForm_shown (p : PParams) (s : String) (hs : s ≠ "") : symForm p s = shown p.context p.path s := by
  unfold symForm shown
  rw [if_neg hs, dropPre_eq, List.find?_cons]
  cases h : p.context.toList.isPrefixOf s.toList
  · simp only [Bool.false_eq_true, if_false, findSome_dropPre]
    cases (p.path.find? (fun c => c.toList.isPrefixOf s.toList)) <;> rfl
  · rfl

theorem ratForm_full (prec : String → Option Nat) (p : PParams) (hf : p.form = .full) (k d : Int) : (ratForm prec p k d).toList = callText [rationalText, intText k, intText d] := by 
  have h1 : "Rational[".toList = rationalText ++ ['['] := by decide
  have h2 : ", ".toList = [',', ' '] := by decide
  have h3 : "]".toList = [']'] := by decide
  unfold ratForm
  rw [hf]
  simp only [String.toList_append, h1, h2, h3, callText, commaList, intText, List.append_assoc, List.cons_append, List.nil_append]

section
variable (prec : String → Option Nat) (fl : Rat → String)

theorem sf_sym (n : Nat) (p : PParams) (s : String) : sf prec fl (n + 1) p (.sym s) = .ok (symForm p s) := by rw [sf]
theorem sf_int (n : Nat) (p : PParams) (k : Int) : sf prec fl (n + 1) p (.int k) = .ok (Int.repr k) := by rw [sf]
theorem sf_rat (n : Nat) (p : PParams) (k d : Int) : sf prec fl (n + 1) p (.rat k d) = .ok (ratForm prec p k d) := by rw [sf]
theorem sf_str (n : Nat) (p : PParams) (s : String) : sf prec fl (n + 1) p (.str s) = .ok (strForm p s) := by rw [sf]

theorem sf_call {n : Nat} {p : PParams} {h : Ex} {args : List Ex} {x : String} {l : List String} (h1 : special prec fl n p h args = .ok none)
    (h2 : formOfCall h args = none) (h3 : sf prec fl n p h = .ok x) (h4 : sfL prec fl n { p with prev := topHead } args = .ok l) :
    sf prec fl (n + 1) p (.expr (h :: args)) = .ok (x ++ "[" ++ joinTexts ", " l ++ "]") := by
  rw [sf, h1]
  simp only [Res.bind, h2, h3, h4]

theorem sfL_cons {n : Nat} {p : PParams} {e : Ex} {r : List Ex} {x : String} {l : List String} (h1 : sf prec fl n p e = .ok x) (h2 : sfL prec fl n p r = .ok l) :
    sfL prec fl (n + 1) p (e :: r) = .ok (x :: l) := by
  rw [sfL, h1]
  simp only [Res.bind, h2]

theorem sfL_nil (n : Nat) (p : PParams) : sfL prec fl (n + 1) p [] = .ok [] := by rw [sfL]

theorem infix_full (n : Nat) (p : PParams) (h : p.form = .full) (l : List Ex) (a b : String) (c : Bool) : infixForm prec fl (n + 1) p l a b c = .ok none := by
  simp [infixForm, h]

theorem joinTexts_comma : ∀ l : List String, (joinTexts ", " l).toList = commaList (l.map String.toList)
  | [] => rfl
  | [s] => rfl
  | s :: t :: r => by
    rw [joinTexts, String.toList_append, String.toList_append, joinTexts_comma (t :: r)]
    · simp [commaList]
    · simp

theorem formOf_none {h : String} (hf : h ∉ formatNames) : formOf h = none := by
  simp only [formatNames, List.mem_cons, List.not_mem_nil, or_false, not_or] at hf
  obtain ⟨h1, h2, h3, h4, h5, h6⟩ := hf
  simp [formOf, h1, h2, h3, h4, h5, h6]

theorem formOfCall_none {h : Ex} {args : List Ex} (hp : PlainPart (.expr (h :: args))) : formOfCall h args = none := by
  cases h with
  | sym f =>
    match args with
    | [x] =>
      simp only [PlainPart, ne_eq, Ex.sym.injEq] at hp
      simp only [formOfCall]
      rw [formOf_none (fun hm => hp f hm rfl)]
      rfl
    | [] => rfl
    | _ :: _ :: _ => rfl
  | _ => cases args <;> rfl

theorem everyPartL_mem {P : Ex → Prop} : ∀ {l : List Ex}, everyPartL P l → ∀ e ∈ l, everyPart P e
  | [], _, e, h => by simp at h
  | a :: l, hl, e, h => by
    simp only [everyPartL] at hl
    rcases List.mem_cons.1 h with rfl | h
    · exact hl.1
    · exact everyPartL_mem hl.2 e h

theorem everyPart_top {P : Ex → Prop} {e : Ex} (h : everyPart P e) : P e := by
  cases e <;> simp only [everyPart] at h <;> first | exact h | exact h.1

/-- The numerator and denominator parts are parts, parts of parts or integers. -/
theorem splitFrac_fst {e x : Ex} (h : (splitFrac e).1 = some x) : x = e ∨ ∃ n, x = .int n := by
  unfold splitFrac at h
  split at h
  · split at h
    · simp at h
    · simp only [Option.some.injEq] at h
      exact Or.inl h.symm
  · split at h
    · simp at h
    · simp only [Option.some.injEq] at h
      exact Or.inr ⟨_, h.symm⟩
  · simp only [Option.some.injEq] at h
    exact Or.inl h.symm

theorem splitFrac_snd {e x : Ex} (h : (splitFrac e).2 = some x) : (∃ n, x = .int n) ∨ ∃ y, e = .expr [.sym "System`Power", x, y] := by
  unfold splitFrac at h
  split at h
  · split at h
    · simp only [Option.some.injEq] at h
      subst h
      exact Or.inr ⟨_, rfl⟩
    · simp at h
  · split at h
    · simp only [Option.some.injEq] at h
      exact Or.inl ⟨_, h.symm⟩
    · simp only [Option.some.injEq] at h
      exact Or.inl ⟨_, h.symm⟩
  · simp at h

theorem timesParts_plain : ∀ {l : List Ex}, (∀ e ∈ l, ∀ a b, e ≠ .cplx a b) → timesParts l = l
  | [], _ => rfl
  | e :: l, h => by
    have ih := timesParts_plain (fun x hx => h x (List.mem_cons_of_mem _ hx))
    cases e with
    | cplx a b => exact absurd rfl (h _ List.mem_cons_self a b)
    | _ => simp only [timesParts, ih]

theorem fracSide_full (n : Nat) (p : PParams) (hf : p.form = .full) (l : List Ex) (hl : ∀ x ∈ l, ∃ s, sf prec fl (n + 1) p x = .ok s) :
    ∃ r, fracSide prec fl (n + 2) p l = .ok r := by
  unfold fracSide
  rw [infix_full prec fl _ p hf]
  match l with
  | [] => exact ⟨none, rfl⟩
  | [x] =>
    obtain ⟨s, hs⟩ := hl x List.mem_cons_self
    exact ⟨some s, by simp only [Res.bind, hs]⟩
  | _ :: _ :: _ => exact ⟨none, rfl⟩

/-- In `FullForm` the functions of the builtins decline. -/
theorem special_full (n : Nat) (p : PParams) (hf : p.form = .full) (h : Ex) (args : List Ex)
    (hc : everyPartL PlainPart args)
    (hx : ∀ x : Ex, everyPart PlainPart x → (size x ≤ sizeL args) → ∀ m, n ≤ m + 2 → ∃ s, sf prec fl m p x = .ok s)
    (hn : 4 ≤ n) : special prec fl n p h args = .ok none := by
  obtain ⟨n, rfl⟩ : ∃ k, n = k + 4 := ⟨n - 4, by omega⟩
  cases h with
  | sym h =>
    unfold special
    by_cases h0 : p.fns = false
    · rw [if_pos h0]
    rw [if_neg h0]
    cases h1 : infixOf h with
    | some q =>
      obtain ⟨d, hd, su, two⟩ := q
      simp only [infix_full prec fl _ p hf]
      split <;> rfl
    | none =>
      cases h2 : blankRepr h with
      | some r => simp only [hf, if_true]
      | none =>
        simp only [hf, if_true, decide_false, Bool.and_false, Bool.false_eq_true, if_false, reduceCtorEq, infix_full prec fl _ p hf]
        have hne : ∀ x ∈ args, 1 ≤ sizeL args := fun x hx => Nat.le_trans (size_pos x) (size_le_sizeL hx)
        have hnoc : ∀ e ∈ args, ∀ a b, e ≠ .cplx a b := by
          rintro e he a b rfl
          exact everyPart_top (everyPartL_mem hc _ he)
        have hnum : ∀ x ∈ List.filterMap (fun x => x.1) (List.map splitFrac (timesParts args)), ∃ s, sf prec fl (n + 2) p x = .ok s := by
          intro x hxm
          rw [timesParts_plain hnoc, List.filterMap_map, List.mem_filterMap] at hxm
          obtain ⟨e, he, hex⟩ := hxm
          rcases splitFrac_fst hex with rfl | ⟨k, rfl⟩
          · exact hx x (everyPartL_mem hc _ he) (size_le_sizeL he) _ (by omega)
          · exact hx (.int k) (by simp [everyPart, PlainPart]) (hne _ he) _ (by omega)
        have hden : ∀ x ∈ List.filterMap (fun x => x.2) (List.map splitFrac (timesParts args)), ∃ s, sf prec fl (n + 2) p x = .ok s := by
          intro x hxm
          rw [timesParts_plain hnoc, List.filterMap_map, List.mem_filterMap] at hxm
          obtain ⟨e, he, hex⟩ := hxm
          rcases splitFrac_snd hex with ⟨k, rfl⟩ | ⟨y, rfl⟩
          · exact hx (.int k) (by simp [everyPart, PlainPart]) (hne _ he) _ (by omega)
          · have h3 := everyPartL_mem hc _ he
            simp only [everyPart, everyPartL] at h3
            have h4 := size_le_sizeL he
            simp only [size, sizeL] at h4
            exact hx x h3.2.2.1 (by omega) _ (by omega)
        obtain ⟨r1, hr1⟩ := fracSide_full prec fl (n + 1) p hf _ hnum
        obtain ⟨r2, hr2⟩ := fracSide_full prec fl (n + 1) p hf _ hden
        rw [hr1, hr2]
        have hemp : ∀ e ∈ args, e ≠ .expr [] := by
          rintro e he rfl
          exact everyPart_top (everyPartL_mem hc _ he)
        repeat' (split; try rfl)
        all_goals first
          | rfl
          | (simp only [Res.bind]; split <;> rfl)
          | (rename_i hh; simp_all)
  | _ => all_goals rfl

/-- `FullForm` gives the plain text. -/
theorem sf_full (e : Ex) : ∀ (p : PParams), p.form = .full → everyPart PlainPart e → ∀ n, 6 * size e ≤ n →
    sf prec fl n p e = .ok (String.ofList (plainText p.context p.path e)) := by
  have main : ∀ k, ∀ e : Ex, size e ≤ k → ∀ (p : PParams), p.form = .full → everyPart PlainPart e → ∀ n, 6 * size e ≤ n →
      sf prec fl n p e = .ok (String.ofList (plainText p.context p.path e)) := by
    intro k
    induction k with
    | zero => intro e h; have := size_pos e; omega
    | succ k ih =>
      intro e hk p hf he n hn
      have hpos := size_pos e
      obtain ⟨n, rfl⟩ : ∃ m, n = m + 1 := ⟨n - 1, by omega⟩
      cases e with
      | sym s =>
        simp only [everyPart, PlainPart] at he
        rw [sf_sym, symForm_shown p s he, plainText, String.ofList_toList]
      | int m =>
        rw [sf_int, plainText, intText, String.ofList_toList]
      | rat a b =>
        rw [sf_rat]
        rw [plainText, Res.ok.injEq]
        apply String.toList_inj.1
        rw [ratForm_full prec p hf, String.toList_ofList]
      | str s =>
        rw [sf_str]
        simp only [plainText, strForm, hf, Res.ok.injEq]
        apply String.toList_inj.1
        simp
      | flt v => simp [everyPart, PlainPart] at he
      | cplx a b => simp [everyPart, PlainPart] at he
      | expr ps =>
        simp only [everyPart] at he
        cases ps with
        | nil => exact absurd he.1 (by simp [PlainPart])
        | cons h args =>
          simp only [everyPartL] at he
          simp only [size, sizeL] at hk hn
          have hsp : special prec fl n p h args = .ok none := by
            apply special_full prec fl n p hf h args he.2.2 _ (by have := size_pos h; omega)
            intro x hx hs m hm
            have := size_pos h
            exact ⟨_, ih x (by omega) p hf hx m (by omega)⟩
          have hL : ∀ (l : List Ex), everyPartL PlainPart l → sizeL l ≤ sizeL args → ∀ m, 6 * sizeL l + 1 ≤ m → ∀ q : PParams, q.form = .full → q.context = p.context → q.path = p.path →
              sfL prec fl m q l = .ok ((plainTexts p.context p.path l).map String.ofList) := by
            intro l
            induction l with
            | nil =>
              intro _ _ m hm q _ _ _
              obtain ⟨m, rfl⟩ : ∃ k, m = k + 1 := ⟨m - 1, by omega⟩
              rw [sfL_nil]; rfl
            | cons x l ihl =>
              intro hl hs m hm q hq1 hq2 hq3
              simp only [everyPartL] at hl
              simp only [sizeL] at hs hm
              have := size_pos x
              obtain ⟨m, rfl⟩ : ∃ k, m = k + 1 := ⟨m - 1, by omega⟩
              have := size_pos h
              have h1 := ih x (by omega) q hq1 hl.1 m (by omega)
              have h2 := ihl hl.2 (by omega) m (by omega) q hq1 hq2 hq3
              rw [sfL_cons prec fl h1 h2, plainTexts, List.map_cons, hq2, hq3]
          have h1 := ih h (by omega) p hf he.2.1 n (by omega)
          have h2 := hL args he.2.2 (Nat.le_refl _) n (by have := size_pos h; omega) { p with prev := topHead } hf rfl rfl
          rw [sf_call prec fl hsp (formOfCall_none he.1) h1 h2, Res.ok.injEq]
          apply String.toList_inj.1
          simp [joinTexts_comma, Function.comp_def, plainText, plainTexts, callText]
  exact main (size e) e (Nat.le_refl _)

end
end Expreduce
