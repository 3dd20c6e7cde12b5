import Verif.Model.Structure
import Verif.Props.Lists

/-! Property C86: `Head`, `Length`, `Depth` and `LeafCount` describe the tree of the expression. -/

namespace Expreduce
open Ex

/-- The subexpression of `e` at a path of part numbers is `x`; number 0 is the head. -/
inductive PartAt : Ex → List Nat → Ex → Prop
  | here (e : Ex) : PartAt e [] e
  | down {ps : List Ex} {i : Nat} {p x : Ex} {path : List Nat} : ps[i]? = some p → PartAt p path x → PartAt (.expr ps) (i :: path) x

/-- Not compound. -/
def IsAtom : Ex → Prop
  | .expr _ => False
  | _ => True

instance (e : Ex) : Decidable (IsAtom e) := by cases e <;> unfold IsAtom <;> infer_instance

theorem leaves_exist : ∀ e : Ex, ∃ l : List (List Nat), l.Nodup ∧ l.length = leafCount e ∧ ∀ p, p ∈ l ↔ ∃ x, PartAt e p x ∧ IsAtom x := by
  intro e
  induction e using Ex.ind with
  | hexpr ps ih =>
    have hL : ∀ (qs : List Ex) (k : Nat), (∀ q ∈ qs, q ∈ ps) → ∃ l : List (List Nat), l.Nodup ∧ l.length = leafCountList qs ∧
        ∀ p, p ∈ l ↔ ∃ i path q x, p = (k + i) :: path ∧ qs[i]? = some q ∧ PartAt q path x ∧ IsAtom x := by
      intro qs
      induction qs with
      | nil => intro k _; exact ⟨[], List.nodup_nil, rfl, by simp⟩
      | cons q qs ihq =>
        intro k hm
        obtain ⟨l, h1, h2, h3⟩ := ih q (hm q List.mem_cons_self)
        obtain ⟨l', h1', h2', h3'⟩ := ihq (k + 1) (fun x hx => hm x (List.mem_cons_of_mem _ hx))
        refine ⟨l.map (k :: ·) ++ l', ?_, by simp [leafCountList, h2, h2'], ?_⟩
        · rw [List.nodup_append]
          refine ⟨h1.map (by intro a b h; simpa using h), h1', ?_⟩
          intro a ha b hb hab
          subst hab
          obtain ⟨c, hc, rfl⟩ := List.mem_map.1 ha
          obtain ⟨i, path, q', x, he, -⟩ := (h3' _).1 hb
          simp only [List.cons.injEq] at he
          omega
        · intro p
          rw [List.mem_append, List.mem_map]
          constructor
          · rintro (⟨c, hc, rfl⟩ | hp)
            · obtain ⟨x, hx, ha⟩ := (h3 c).1 hc
              exact ⟨0, c, q, x, by simp, by simp, hx, ha⟩
            · obtain ⟨i, path, q', x, rfl, hq, hx, ha⟩ := (h3' p).1 hp
              exact ⟨i + 1, path, q', x, by simp; omega, by simpa using hq, hx, ha⟩
          · rintro ⟨i, path, q', x, rfl, hq, hx, ha⟩
            cases i with
            | zero =>
              simp only [List.getElem?_cons_zero, Option.some.injEq] at hq
              subst hq
              exact Or.inl ⟨path, (h3 path).2 ⟨x, hx, ha⟩, rfl⟩
            | succ i =>
              refine Or.inr ((h3' _).2 ⟨i, path, q', x, by simp; omega, by simpa using hq, hx, ha⟩)
    obtain ⟨l, h1, h2, h3⟩ := hL ps 0 (fun _ h => h)
    refine ⟨l, h1, by rw [h2, leafCount], ?_⟩
    intro p
    rw [h3]
    constructor
    · rintro ⟨i, path, q, x, rfl, hq, hx, ha⟩
      exact ⟨x, by rw [Nat.zero_add]; exact .down hq hx, ha⟩
    · rintro ⟨x, hx, ha⟩
      cases hx with
      | here => exact ha.elim
      | down hq hx => exact ⟨_, _, _, x, by rw [Nat.zero_add], hq, hx, ha⟩
  | _ =>
    all_goals
      refine ⟨[[]], by simp, by simp [leafCount], ?_⟩
      intro p
      simp only [List.mem_singleton]
      constructor
      · rintro rfl; exact ⟨_, .here _, trivial⟩
      · rintro ⟨x, hx, -⟩
        cases hx; rfl

/-- C86: `LeafCount[e]` is the number of places in `e`, heads included, at which there is an atom. -/
theorem C86_leafCount (f e : Ex) : ∃ l : List (List Nat), l.Nodup ∧ (∀ p, p ∈ l ↔ ∃ x, PartAt e p x ∧ IsAtom x) ∧ leafCountFn [f, e] = some (.int l.length) := by
  obtain ⟨l, h1, h2, h3⟩ := leaves_exist e
  exact ⟨l, h1, h3, by rw [leafCountFn, h2]⟩

/-- `LeafCount[f[a, g[b]]]` is 4. -/
example : leafCountFn [S "LeafCount", .expr [.sym "f", .sym "a", .expr [.sym "g", .sym "b"]]] = some (.int 4) := by decide +kernel

theorem argsDepth (m : Nat) : ∀ as : List Ex, m ≤ calcDepthArgs m as ∧ (∀ a ∈ as, calcDepth a ≤ calcDepthArgs m as) ∧ (calcDepthArgs m as = m ∨ ∃ a ∈ as, calcDepth a = calcDepthArgs m as) := by
  intro as
  induction as generalizing m with
  | nil => simp [calcDepthArgs]
  | cons a as ih =>
    rw [calcDepthArgs]
    obtain ⟨h1, h2, h3⟩ := ih (max m (calcDepth a))
    refine ⟨by omega, ?_, ?_⟩
    · intro b hb
      rcases List.mem_cons.1 hb with rfl | hb
      · omega
      · exact h2 b hb
    · rcases h3 with h3 | ⟨b, hb, h3⟩
      · by_cases hm : calcDepth a ≤ m
        · exact Or.inl (by rw [h3]; omega)
        · exact Or.inr ⟨a, List.mem_cons_self, by rw [h3]; omega⟩
      · exact Or.inr ⟨b, List.mem_cons_of_mem _ hb, h3⟩

/-- A path that goes through arguments only. -/
def ArgPath (p : List Nat) : Prop := 0 ∉ p

theorem depth_bound {e x : Ex} {p : List Nat} (h : PartAt e p x) : ArgPath p → p.length + calcDepth x ≤ calcDepth e := by
  induction h with
  | here e => intro _; simp
  | @down ps i q x path hq _ ih =>
    intro hp
    simp only [ArgPath, List.mem_cons, not_or] at hp
    have ih := ih hp.2
    cases ps with
    | nil => simp at hq
    | cons hd as =>
      obtain ⟨j, rfl⟩ : ∃ j, i = j + 1 := ⟨i - 1, by have := hp.1; omega⟩
      simp only [List.getElem?_cons_succ] at hq
      have hm := (argsDepth 1 as).2.1 q (List.mem_of_getElem? hq)
      rw [calcDepth, calcDepthParts, List.length_cons]
      omega

/-- An atom, or a call without arguments: nothing below it. -/
def Bottom : Ex → Prop
  | .expr (_ :: _ :: _) => False
  | _ => True

theorem depth_reached : ∀ e : Ex, ∃ p x, PartAt e p x ∧ ArgPath p ∧ Bottom x ∧ p.length + calcDepth x = calcDepth e := by
  intro e
  induction e using Ex.ind with
  | hexpr ps ih =>
    match ps, ih with
    | [], _ => exact ⟨[], _, .here _, by simp [ArgPath], trivial, by simp⟩
    | [h], _ => exact ⟨[], _, .here _, by simp [ArgPath], trivial, by simp⟩
    | h :: a :: as, ih =>
      have hd := (argsDepth 1 (a :: as)).2.2
      obtain ⟨b, hb, hbd⟩ : ∃ b ∈ a :: as, calcDepth b = calcDepthArgs 1 (a :: as) := by
        rcases hd with hd | hd
        · refine ⟨a, List.mem_cons_self, ?_⟩
          have h1 := (argsDepth 1 (a :: as)).2.1 a List.mem_cons_self
          have h2 : 1 ≤ calcDepth a := by
            cases a with
            | expr qs => cases qs <;> simp [calcDepth, calcDepthParts]
            | _ => all_goals simp [calcDepth]
          omega
        · exact hd
      obtain ⟨p, x, h1, h2, h3, h4⟩ := ih b (List.mem_cons_of_mem _ hb)
      obtain ⟨j, hj⟩ := List.getElem?_of_mem hb
      refine ⟨(j + 1) :: p, x, .down (by simpa using hj) h1, by simpa [ArgPath] using h2, h3, ?_⟩
      rw [calcDepth, calcDepthParts, List.length_cons]
      omega
  | _ => all_goals exact ⟨[], _, .here _, by simp [ArgPath], trivial, by simp⟩

/-- C86: `Depth[e]` is one more than the length of the longest way from `e` through arguments down to an atom; a call without arguments counts as if something were below it. -/
theorem C86_depth (f e : Ex) : ∃ d : Nat, depthFn [f, e] = some (.int d) ∧
    (∀ p x, PartAt e p x → ArgPath p → p.length + (if IsAtom x then 1 else 2) ≤ d) ∧
    ∃ p x, PartAt e p x ∧ ArgPath p ∧ Bottom x ∧ p.length + (if IsAtom x then 1 else 2) = d := by
  have hx : ∀ x, (if IsAtom x then 1 else 2) ≤ calcDepth x ∧ (Bottom x → (if IsAtom x then 1 else 2) = calcDepth x) := by
    intro x
    cases x with
    | expr ps =>
      have e2 : (if IsAtom (.expr ps) then 1 else 2) = 2 := if_neg (fun h => h)
      rw [e2]
      match ps with
      | [] => simp [calcDepth, calcDepthParts]
      | [h] => simp [calcDepth, calcDepthParts, calcDepthArgs]
      | h :: a :: as =>
        have := (argsDepth 1 (a :: as)).1
        simp only [calcDepth, calcDepthParts, Bottom, false_imp_iff, and_true]
        omega
    | _ => all_goals simp [IsAtom, calcDepth]
  refine ⟨calcDepth e, rfl, ?_, ?_⟩
  · intro p x h hp
    have := depth_bound h hp
    have := (hx x).1
    omega
  · obtain ⟨p, x, h1, h2, h3, h4⟩ := depth_reached e
    exact ⟨p, x, h1, h2, h3, by rw [(hx x).2 h3, h4]⟩

/-- `Depth[f[a, g[b]]]` is 3. -/
example : depthFn [S "Depth", .expr [.sym "f", .sym "a", .expr [.sym "g", .sym "b"]]] = some (.int 3) := by decide +kernel

/-- C86: `Length[e]` is the number of arguments: there is a part number `i ≥ 1` exactly for `i` up to the length; atoms have length 0. -/
theorem C86_length (f e : Ex) (hne : e ≠ .expr []) : ∃ n : Nat, lengthFn [f, e] = some (.int n) ∧ ∀ i : Nat, 1 ≤ i → ((∃ x, PartAt e [i] x) ↔ i ≤ n) := by
  cases e with
  | expr ps =>
    cases ps with
    | nil => exact absurd rfl hne
    | cons h as =>
      refine ⟨as.length, by simp [lengthFn], ?_⟩
      intro i hi
      constructor
      · rintro ⟨x, hx⟩
        cases hx with
        | down hq _ =>
          have := (List.getElem?_eq_some_iff.1 hq).1
          simp at this
          omega
      · intro hle
        exact ⟨_, .down (List.getElem?_eq_getElem (l := h :: as) (i := i) (by simp; omega)) (.here _)⟩
  | _ =>
    all_goals
      refine ⟨0, rfl, ?_⟩
      intro i hi
      constructor
      · rintro ⟨x, hx⟩; cases hx
      · intro h; omega

/-- The type of an atom, by name. -/
inductive AtomType : Ex → String → Prop
  | int (n : Int) : AtomType (.int n) "Integer"
  | rat (n d : Int) : AtomType (.rat n d) "Rational"
  | flt (x : Rat) : AtomType (.flt x) "Real"
  | cplx (a b : Ex) : AtomType (.cplx a b) "Complex"
  | str (s : String) : AtomType (.str s) "String"
  | sym (s : String) : AtomType (.sym s) "Symbol"

/-- C86: `Head[e]` is part 0 of a compound expression, and the name of the type of an atom. It crashes only on an expression without any part. -/
theorem C86_head (f e : Ex) : (∀ x, PartAt e [0] x → headFn [f, e] = some x) ∧ (IsAtom e → ∃ s, AtomType e s ∧ headFn [f, e] = some (S s)) ∧
    (headFn [f, e] = none ↔ e = .expr []) := by
  cases e with
  | expr ps =>
    cases ps with
    | nil =>
      refine ⟨?_, fun h => h.elim, by simp [headFn]⟩
      intro x hx
      cases hx with
      | down hq _ => simp at hq
    | cons h as =>
      refine ⟨?_, fun h => h.elim, by simp [headFn]⟩
      intro x hx
      cases hx with
      | down hq hx =>
        simp only [List.getElem?_cons_zero, Option.some.injEq] at hq
        subst hq
        cases hx
        rfl
  | _ =>
    all_goals
      refine ⟨?_, fun _ => ⟨_, by constructor, rfl⟩, by simp [headFn]⟩
      intro x hx
      cases hx

/-- No negative integer, rational or complex number occurs. -/
def NoSigns (e : Ex) : Prop := ∀ p x, PartAt e p x → (∀ n, x = .int n → 0 ≤ n) ∧ (∀ n d, x ≠ .rat n d) ∧ ∀ a b, x ≠ .cplx a b

/-- C86: the size by which `Simplify` compares two forms is never below `LeafCount`, and equal to it if no sign, quotient or complex number occurs. -/
theorem C86_simplifyCount : ∀ e : Ex, leafCount e ≤ simplifyCount e ∧ (NoSigns e → simplifyCount e = leafCount e) := by
  intro e
  induction e using Ex.ind with
  | hexpr ps ih =>
    rw [leafCount, simplifyCount]
    have key : ∀ qs : List Ex, (∀ q ∈ qs, q ∈ ps) → leafCountList qs ≤ simplifyCountL qs ∧ ((∀ q ∈ qs, NoSigns q) → simplifyCountL qs = leafCountList qs) := by
      intro qs
      induction qs with
      | nil => intro _; simp [leafCountList, simplifyCountL]
      | cons q qs ihq =>
        intro hm
        have h1 := ih q (hm q List.mem_cons_self)
        have h2 := ihq (fun x hx => hm x (List.mem_cons_of_mem _ hx))
        rw [leafCountList, simplifyCountL]
        refine ⟨by omega, ?_⟩
        intro hn
        rw [h1.2 (hn q List.mem_cons_self), h2.2 (fun x hx => hn x (List.mem_cons_of_mem _ hx))]
    have k := key ps (fun _ h => h)
    refine ⟨k.1, fun hn => k.2 ?_⟩
    intro q hq p x hx
    obtain ⟨i, hi, rfl⟩ := List.mem_iff_getElem.1 hq
    exact hn (i :: p) x (.down (List.getElem?_eq_getElem hi) hx)
  | hint n =>
    rw [leafCount, simplifyCount]
    refine ⟨by split <;> omega, ?_⟩
    intro hn
    have := (hn [] _ (.here _)).1 n rfl
    rw [if_neg (by omega)]
  | hrat n d => exact ⟨by rw [leafCount, simplifyCount]; omega, fun hn => absurd rfl ((hn [] _ (.here _)).2.1 n d)⟩
  | hcplx a b => exact ⟨by rw [leafCount, simplifyCount]; omega, fun hn => absurd rfl ((hn [] _ (.here _)).2.2 a b)⟩
  | _ => all_goals exact ⟨by rw [leafCount, simplifyCount], fun _ => by rw [leafCount, simplifyCount]⟩

/-- `-1 + x` counts as more than its three leaves. -/
example : simplifyCount (.expr [S "Plus", .int (-1), .sym "x"]) = 4 := by decide +kernel

end Expreduce
