import Verif.Proofs.MatchInst
import Verif.Spec.Replace

/-! Properties C20, C21, C22, C62: pattern matching and the use of its bindings. -/

namespace Expreduce
open Ex

/-- The bindings a successful match returns; a nil `PDManager` binds nothing. -/
def bindingsOf : Option PM → String → Option Ex
  | none => fun _ => none
  | some q => q.get

/-- C20. The matcher returns on every covered pattern and every expression whose nodes all have heads: it neither crashes nor
runs forever (`n` bounds the recursion depth; any bound from `matchFuel a b` on gives a result). -/
theorem C20_returns (env : MEnv) (n : Nat) (a b : Ex) (pm : PM) (hb : EPat b) (ha : wellFormed a = true) (hn : matchFuel a b ≤ n) :
    ∃ v r, isMatchQ env n a b pm = some (v, r) := by
  obtain ⟨⟨rs, pm'⟩, h⟩ := matchF_total env n a b pm hb ha hn
  unfold isMatchQ
  rw [h]
  cases rs with
  | nil => exact ⟨_, _, rfl⟩
  | cons r tl => exact ⟨_, _, rfl⟩

/-- C20. Soundness: if `MatchQ` says yes, the expression is an instance of the pattern under the bindings returned. In
particular a name has one value throughout. (Default values of functions must not contain machine reals: `env.Exact`.) -/
theorem C20_sound_partial (env : MEnv) [env.Exact] (n : Nat) (a b : Ex) (r) (hb : EPat b) (ha : noReal a = true)
    (h : isMatchQ env n a b [] = some (true, r)) : Matches env (bindingsOf r) b a := by
  unfold isMatchQ at h
  split at h
  · simp at h
  · simp at h
  · rename_i r0 tl pm' hm
    simp only [Option.some.injEq, Prod.mk.injEq, true_and] at h
    subst h
    have := (matchF_sound env n a b [] _ _ ha hb hm).2 r0 (by simp)
    cases r0 with
    | none => exact this _
    | some q => exact this.2

/-- C20. Soundness under given bindings: the bindings that were there are kept, up to sameness of their values. -/
theorem C20_sound_extends (env : MEnv) [env.Exact] (n : Nat) (a b : Ex) (pm q : PM) (hb : EPat b) (ha : noReal a = true)
    (h : isMatchQ env n a b pm = some (true, some q)) :
    Matches env q.get b a ∧ ∀ x v, pm.get x = some v → ∃ w, q.get x = some w ∧ hash v = hash w := by
  unfold isMatchQ at h
  split at h
  · simp at h
  · simp at h
  · rename_i r0 tl pm' hm
    simp only [Option.some.injEq, Prod.mk.injEq, true_and] at h
    subst h
    have := (matchF_sound env n a b pm _ _ ha hb hm).2 _ (List.mem_cons_self)
    exact ⟨this.2, this.1⟩

/-- C20. Completeness: `MatchQ` says yes exactly if there are bindings that make the expression an instance of the pattern.
The conditions: alternatives and tested subpatterns bind no names inside, and the expression has no rational or complex
numbers unless the pattern has no subpattern that could take them apart (`Rational[...]`, `Complex[...]`, a head that is a pattern, or
`f[..., x_., ...]`, which may take `2/3` for `f[2/3]`). -/
theorem C20_decides (env : MEnv) [env.Exact] (n : Nat) (a b : Ex) (hb : EPat b) (hc : committed b = true)
    (hq : plainHeads b = true ∨ quotFree a = true) (ha : noReal a = true) (hw : wellFormed a = true) (hn : matchFuel a b ≤ n) :
    (∃ r, isMatchQ env n a b [] = some (true, r)) ↔ ∃ ρ, Matches env ρ b a := by
  constructor
  · rintro ⟨r, h⟩
    exact ⟨_, C20_sound_partial env n a b r hb ha h⟩
  · rintro ⟨ρ, hm⟩
    obtain ⟨⟨rs, pm'⟩, h⟩ := matchF_total env n a b [] hb hw hn
    obtain ⟨r, hr, _⟩ := matchF_complete env ρ n a b hb hc hq ha [] rs pm' h (kept_nil ρ) hm
    unfold isMatchQ
    rw [h]
    cases rs with
    | nil => simp at hr
    | cons r tl => exact ⟨r, rfl⟩

/-- C20. Every way of matching is found: for all bindings that make the expression an instance, some result of the iterator
agrees with them. -/
theorem C20_all_ways (env : MEnv) [env.Exact] (n : Nat) (a b : Ex) (ρ) (hb : EPat b) (hc : committed b = true)
    (hq : plainHeads b = true ∨ quotFree a = true) (ha : noReal a = true) (hw : wellFormed a = true) (hn : matchFuel a b ≤ n)
    (hm : Matches env ρ b a) : ∃ rs pm', matchF env n a b [] = some (rs, pm') ∧
      ∃ r ∈ rs, ∀ x v, bindingsOf r x = some v → ∃ w, ρ x = some w ∧ hash v = hash w := by
  obtain ⟨⟨rs, pm'⟩, h⟩ := matchF_total env n a b [] hb hw hn
  obtain ⟨r, hr, hk⟩ := matchF_complete env ρ n a b hb hc hq ha [] rs pm' h (kept_nil ρ) hm
  refine ⟨rs, pm', h, r, hr, ?_⟩
  intro x v hx
  refine hk x v ?_
  cases r with
  | none => simp [bindingsOf] at hx
  | some q =>
    simp only [bindingsOf] at hx
    simp only [PM.updateO]
    rw [PM.get_update, hx]
    rfl

/-- C20. For patterns of literals, named blanks and ordinary functions: replacing the names in the pattern by the values returned
reproduces the expression (up to sameness). The two side conditions exclude that the code confuses an atom with a compound
pattern (fingerprint collision, see C09) and patterns that take numbers apart as `Rational[...]` or `Complex[...]`. -/
theorem C20_reproduces (env : MEnv) [env.Exact] (n : Nat) (a b : Ex) (r) (hb : Plain env b) (ha : noReal a = true)
    (hcl : ∀ q ∈ subexprs b, ∀ c ∈ subexprs a, isAtom q = false → partsOf c = none → hash c ≠ hash q)
    (hpl : plainHeads b = true ∨ quotFree a = true)
    (h : isMatchQ env n a b [] = some (true, r)) : isSameQ (inst (bindingsOf r) b) a = true := by
  rw [isSameQ_notFlt (noReal_notFlt ha)]
  refine hb.instance a ha (C20_sound_partial env n a b r hb.epat ha h) hcl ?_
  intro q hq c hc h1 h2 h3
  rcases hpl with hpl | hpl
  · exact plainHeads_subexprs b q hq hpl
  · have := quotFree_subexprs a c hc hpl
    revert h1 h2 h3 this
    cases c <;> simp [isAtom, partsOf, quotFree]

/-- A state with one `Flat`, `Orderless`, `OneIdentity` function (`Plus`, default 0) in which `OddQ` and `EvenQ` of integers work. -/
def envP : MEnv where
  flat := fun s => s == "System`Plus"
  orderless := fun s => s == "System`Plus"
  oneIdentity := fun s => s == "System`Plus"
  dflt := fun s => if s == "System`Plus" then some (.int 0) else none
  isTrue := fun e => match e with
    | .expr [.sym t, .int n] => (t == "System`OddQ" && n % 2 == 1) || (t == "System`EvenQ" && n % 2 == 0)
    | _ => false

instance : envP.Exact where
  exact := by
    intro s d h
    simp only [envP] at h
    split at h
    · simp only [Option.some.injEq] at h; subst h; rfl
    · simp at h

/-- `_` -/
def bl : Ex := .expr [S "Blank"]
/-- `__` -/
def bls : Ex := .expr [S "BlankSequence"]
/-- `x : body` -/
def nm (x : String) (b : Ex) : Ex := .expr [S "Pattern", .sym x, b]
/-- `f[...]` -/
def fOf (l : List Ex) : Ex := .expr (.sym "Global`f" :: l)
/-- `a + b + ...` -/
def plusOf (l : List Ex) : Ex := .expr (S "Plus" :: l)

/-- A decision procedure for the fragment, for use on concrete patterns. -/
theorem fOf_pat (ps : List Ex) (h1 : ps ≠ []) (h2 : ∀ p ∈ ps, APat p) : EPat (fOf ps) := .app (by decide) h1 h2

theorem plusOf_pat (ps : List Ex) (h1 : ps ≠ []) (h2 : ∀ p ∈ ps, APat p) : EPat (plusOf ps) := .app (by decide) h1 h2

theorem bl_pat : EPat bl := .blank (by decide) (by simp)
theorem bls_pat : EPat bls := .blank (by decide) (by simp)

/-- The hypotheses are met: `f[x__, x_, Plus[1, y_] | 3]` is covered and the theorem decides it. -/
example : let b := fOf [nm "x" bls, nm "y" bl, .expr [S "Alternatives", plusOf [.int 1, bl], .int 3]]
    EPat b ∧ committed b = true ∧ plainHeads b = true ∧
      isMatchQ envP 60 (fOf [.int 7, .int 8, .int 9, plusOf [.sym "Global`u", .int 1]]) b [] =
        some (true, some [("y", .int 9), ("x", .expr [S "Sequence", .int 7, .int 8])]) := by
  refine ⟨?_, by decide +kernel, by decide +kernel, by decide +kernel⟩
  refine fOf_pat _ (by simp) ?_
  intro p hp
  simp only [List.mem_cons, List.not_mem_nil, or_false] at hp
  rcases hp with rfl | rfl | rfl
  · exact .body (.elem (.named _ (by decide) (by simp)))
  · exact .body (.elem (.named _ (by decide) (by simp)))
  · refine .body (.elem (.alt ?_))
    intro p hp
    simp only [List.mem_cons, List.not_mem_nil, or_false] at hp
    rcases hp with rfl | rfl
    · refine plusOf_pat _ (by simp) ?_
      intro p hp
      simp only [List.mem_cons, List.not_mem_nil, or_false] at hp
      rcases hp with rfl | rfl
      · exact .body (.elem (.atom rfl))
      · exact .body (.elem bl_pat)
    · exact .atom rfl

/-- A repeated name must take the same value: `f[x_, x_]` does not match `f[1, 2]`. -/
example : isMatchQ envP 60 (fOf [.int 1, .int 2]) (fOf [nm "x" bl, nm "x" bl]) [] = some (false, some []) := by decide +kernel

/-- C20, the restriction to expressions without machine reals is needed: `f[x_, x_, x_]` matches `f[1., 1.+ulp, 1.+2ulp]` although
the bound value is not the same as the first argument (the binding moves along with each one-ulp step). -/
theorem C20_reals_drift : ∃ q v, isMatchQ envP 20 (fOf [.flt 1, .flt (1 + 1 / 2 ^ 52), .flt (1 + 2 / 2 ^ 52)])
      (fOf [nm "x" bl, nm "x" bl, nm "x" bl]) [] = some (true, some q) ∧ q.get "x" = some v ∧ isSameQ v (.flt 1) = false := by
  refine ⟨[("x", .flt (1 + 2 / 2 ^ 52))], .flt (1 + 2 / 2 ^ 52), by decide +kernel, by decide +kernel, by decide +kernel⟩

/-- C20, the restriction on alternatives is needed: `f[x_ | y_, x_]` matches `f[1, 2]` with `y -> 1, x -> 2`, but the code commits to
the first alternative and says no. -/
theorem C20_alternatives_incomplete :
    let b := fOf [.expr [S "Alternatives", nm "x" bl, nm "y" bl], nm "x" bl]
    isMatchQ envP 60 (fOf [.int 1, .int 2]) b [] = some (false, some []) ∧
      Matches envP (PM.get [("x", .int 2), ("y", .int 1)]) b (fOf [.int 1, .int 2]) := by
  refine ⟨by decide +kernel, ?_⟩
  refine .same [[0], [1]] (by decide) rfl rfl (by unfold Layout; decide) ?_ ?_ ?_
  · intro j p is hp his
    rcases j with _ | _ | j <;> simp at hp his <;> subst hp <;> subst his <;> decide
  · intro j p is i c hp his hi hc
    rcases j with _ | _ | j <;> simp at hp his <;> subst hp <;> subst his <;> simp at hi <;> subst hi <;> simp at hc <;> subst hc
    · refine .alt (p := nm "y" bl) (by simp) ?_
      exact .named (v := .int 1) (by decide) (by intro h hh; simp at hh) (by decide) (by decide +kernel)
    · exact .blank (by decide) (by intro h hh; simp at hh)
  · intro j p is x hp his hx
    rcases j with _ | _ | j <;> simp at hp his <;> subst hp <;> subst his
    · change (none : Option String) = some x at hx; simp at hx
    · change some "x" = some x at hx
      simp only [Option.some.injEq] at hx
      subst hx
      exact ⟨.int 2, by decide, by decide +kernel⟩

/-- The hypotheses of `C20_reproduces` are met by `f[x_, g[y_Integer, x_]]` against `f[1, g[2, 1]]`. -/
example : let b := fOf [nm "x" bl, .expr [.sym "Global`g", nm "y" (.expr [S "Blank", S "Integer"]), nm "x" bl]]
    let a := fOf [.int 1, .expr [.sym "Global`g", .int 2, .int 1]]
    Plain envP b ∧ (∀ q ∈ subexprs b, ∀ c ∈ subexprs a, isAtom q = false → partsOf c = none → hash c ≠ hash q) ∧ plainHeads b = true ∧
      isMatchQ envP 60 a b [] = some (true, some [("x", .int 1), ("y", .int 2)]) ∧ inst (PM.get [("x", .int 1), ("y", .int 2)]) b = a := by
  refine ⟨?_, by decide +kernel, by decide +kernel, by decide +kernel, by decide +kernel⟩
  refine .app (by decide) rfl rfl (by simp) ?_
  intro p hp
  simp only [List.mem_cons, List.not_mem_nil, or_false] at hp
  rcases hp with rfl | rfl
  · exact .named _ _ (by simp)
  · refine .app (by decide) rfl rfl (by simp) ?_
    intro p hp
    simp only [List.mem_cons, List.not_mem_nil, or_false] at hp
    rcases hp with rfl | rfl
    · exact .named _ _ (by simp)
    · exact .named _ _ (by simp)

/-! ### Optional arguments -/

/-- `p_.` -/
def optOf (p : Ex) : Ex := .expr [S "Optional", p]
/-- `p_ : d` -/
def optD (p d : Ex) : Ex := .expr [S "Optional", p, d]

/-- Optional arguments are covered: `f[x_, y_ : 7, z : g[_] : 5]` matches `f[1]`, and `x_. + y_` matches `f[1]`, which is taken as
`Plus[f[1]]`; the theorems decide both. -/
example : let b := fOf [nm "x" bl, optD (nm "y" bl) (.int 7), optD (nm "z" (.expr [.sym "Global`g", bl])) (.int 5)]
    EPat b ∧ committed b = true ∧ quotFree (fOf [.int 1]) = true ∧ isMatchQ envP 60 (fOf [.int 1]) b [] =
        some (true, some [("z", .int 5), ("y", .int 7), ("x", .int 1)]) := by
  refine ⟨?_, by decide +kernel, by decide +kernel, by decide +kernel⟩
  refine fOf_pat _ (by simp) ?_
  intro p hp
  simp only [List.mem_cons, List.not_mem_nil, or_false] at hp
  rcases hp with rfl | rfl | rfl
  · exact .body (.elem (.named _ (by decide) (by simp)))
  · exact .optD _ (.named _ (.blank (by decide) (by simp))) rfl
  · refine .optD _ (.named _ (.app (by decide) (by simp) ?_)) rfl
    intro p hp
    simp only [List.mem_cons, List.not_mem_nil, or_false] at hp
    subst hp
    exact .body (.elem bl_pat)

example : let b := plusOf [optOf (nm "x" bl), nm "y" bl]
    EPat b ∧ committed b = true ∧ headOmitted envP [S "Plus", optOf (nm "x" bl), nm "y" bl] (fOf [.int 1]) = true ∧
      isMatchQ envP 60 (fOf [.int 1]) b [] = some (true, some [("y", fOf [.int 1]), ("x", .int 0)]) := by
  refine ⟨?_, by decide +kernel, by decide +kernel, by decide +kernel⟩
  refine plusOf_pat _ (by simp) ?_
  intro p hp
  simp only [List.mem_cons, List.not_mem_nil, or_false] at hp
  rcases hp with rfl | rfl
  · exact .opt (.named _ (.blank (by decide) (by simp)))
  · exact .body (.elem (.named _ (by decide) (by simp)))

theorem opt_named_shape (d : Option Ex) (flat : Bool) (h x : String) (p : Ex) :
    optShape d flat h (nm x p) = { optBody d flat h false p with name := some x } := by
  unfold optShape nm S
  simp only
  rw [if_neg (by decide)]
  unfold optNamed
  simp only
  rw [if_pos (by decide)]

/-- C20. An optional argument that is not there has the default value: against no arguments at all, the names of `f[x_:d]` and, for a
function with a default value, of `f[x_.]` are bound to it. -/
theorem C20_default (env : MEnv) [env.Exact] (n : Nat) (s x : String) (d : Ex) (rest : List Ex) (r) (hs : s ∉ specialHeads)
    (hd : rest = [d] ∧ noReal d = true ∨ rest = [] ∧ env.dflt s = some d)
    (h : isMatchQ env n (.expr [.sym s]) (.expr [.sym s, .expr (S "Optional" :: nm x bl :: rest)]) [] = some (true, r)) :
    ∃ v, bindingsOf r x = some v ∧ isSameQ v d = true := by
  have hA : APat (.expr (S "Optional" :: nm x bl :: rest)) := by
    rcases hd with ⟨rfl, hd⟩ | ⟨rfl, _⟩
    · exact .optD _ (.named _ (.blank (by decide) (by simp))) hd
    · exact .opt (.named _ (.blank (by decide) (by simp)))
  have hm := C20_sound_partial env n _ _ r (.app hs (by simp) (by simpa using hA)) rfl h
  have hdef : rest.head?.or (env.dflt s) = some d := by
    rcases hd with ⟨rfl, _⟩ | ⟨rfl, hd⟩
    · rfl
    · simpa using hd
  have hsp : ∀ t, t ∈ specialHeads → s ≠ t := by rintro t ht rfl; exact hs ht
  cases hm with
  | lit h1 => simp [isAtom] at h1
  | blank h2 _ => exact absurd rfl (hsp s (by simp [specialHeads, h2]))
  | @same _ _ as _ A _ h2 h3 h4 h5 h6 h7 =>
    simp only [partsOf, Option.some.injEq, List.cons.injEq, true_and] at h2
    subst h2
    obtain ⟨is, rfl⟩ := List.length_eq_one_iff.1 (show A.length = 1 from h3)
    have his : is = [] := by
      unfold Layout at h4
      split at h4
      · simpa using h4.1
      · simpa using h4
    subst his
    have hsh : shape (env.dflt s) (env.flat s) s (.expr (S "Optional" :: nm x bl :: rest)) =
        { optBody (some d) (env.flat s) s false bl with name := some x } := by
      rw [shape_opt, hdef]; exact opt_named_shape _ _ _ _ _
    obtain ⟨v, hv, e⟩ := h7 0 _ [] x rfl rfl (by rw [hsh])
    rw [hsh] at e
    exact ⟨v, hv, e⟩
  | diff A h1 h2 h3 =>
    simp only [partsOf, Option.some.injEq] at h2
    subst h2
    exact absurd ⟨rfl, rfl⟩ (h3 s)
  | clash h1 => simp [isAtom] at h1
  | assumed _ h2 _ => simp [headOmitted, partsOf] at h2
  | hold => exact absurd rfl (hsp "System`HoldPattern" (by simp [specialHeads]))
  | alt => exact absurd rfl (hsp "System`Alternatives" (by simp [specialHeads]))

/-- C20, a defect: matched against `x_. + y_`, the number 2/3 is taken apart first, so that `y` is bound to the unevaluated compound
expression `Rational[2, 3]`, which is not the same as 2/3. -/
theorem C20_rational_opened : ∃ q v, isMatchQ envP 60 (.rat 2 3) (plusOf [optOf (nm "x" bl), nm "y" bl]) [] = some (true, some q) ∧
    q.get "y" = some v ∧ isSameQ v (.rat 2 3) = false := by
  refine ⟨[("y", .expr [S "Rational", .int 2, .int 3]), ("x", .int 0)], .expr [S "Rational", .int 2, .int 3], by decide +kernel, by decide +kernel,
    by decide +kernel⟩

/-! ### Verbatim heads -/

/-- `Verbatim[f][...]` -/
def verbOf (s : String) (ps : List Ex) : Ex := .expr (.expr [S "Verbatim", .sym s] :: ps)

theorem pick_all (l : List Ex) : (List.range l.length).filterMap (l[·]?) = l := by
  induction l with
  | nil => rfl
  | cons a l ih =>
    rw [List.length_cons, List.range_succ_eq_map, List.filterMap_cons]
    simp only [List.getElem?_cons_zero, List.filterMap_map]
    have : ((fun i => (a :: l)[i]?) ∘ Nat.succ) = (fun i => l[i]?) := by funext i; simp
    rw [this, ih]

/-- C20. Under a head `Verbatim[f]` the attributes of `f` do not count: in `Verbatim[f][x_, y___]` the name `x` stands for the first
argument and `y` for the others in their order, even if `f` is `Orderless` or `Flat`. -/
theorem C20_verbatim (env : MEnv) [env.Exact] (n : Nat) (s x y : String) (a : Ex) (rest : List Ex) (r) (hs : s ∉ specialHeads)
    (hn : noReal (.expr (.sym s :: a :: rest)) = true) (hc : isSameQ (.sym s) (.expr [S "Verbatim", .sym s]) = false)
    (h : isMatchQ env n (.expr (.sym s :: a :: rest)) (verbOf s [nm x bl, nm y (.expr [S "BlankNullSequence"])]) [] = some (true, r)) :
    (∃ v, bindingsOf r x = some v ∧ isSameQ v a = true) ∧
    ∃ w, bindingsOf r y = some w ∧ isSameQ w (match rest with
      | [b] => if env.oneIdentity s then b else .expr [S "Sequence", b]
      | bs => .expr (S "Sequence" :: bs)) = true := by
  have hp1 : shape (env.dflt s) false s (nm x bl) = ⟨1, 1, bl, some x, true, S "Sequence", none⟩ := rfl
  have hp2 : shape (env.dflt s) false s (nm y (.expr [S "BlankNullSequence"])) = ⟨0, unlimited, bl, some y, false, S "Sequence", none⟩ := rfl
  have hm := C20_sound_partial env n _ _ r (.verb hs (by simp) (by
    intro p hp
    simp only [List.mem_cons, List.not_mem_nil, or_false] at hp
    rcases hp with rfl | rfl
    · exact .body (.elem (.named _ (by decide) (by simp)))
    · exact .body (.elem (.named _ (by decide) (by simp))))) hn h
  cases hm with
  | lit h1 => simp [isAtom] at h1
  | diff A h1 h2 h3 _ h4 h5 h6 h7 h8 =>
    simp only [partsOf, Option.some.injEq] at h2
    subst h2
    have hp0 : shape (env.dflt "Sequence") false "Sequence" (.expr [S "Verbatim", .sym s]) =
        ⟨1, 1, .expr [S "Verbatim", .sym s], none, false, S "Sequence", none⟩ := rfl
    obtain ⟨is, A', rfl⟩ : ∃ is A', A = is :: A' := by
      rcases A with _ | ⟨is, A'⟩
      · simp at h4
      · exact ⟨_, _, rfl⟩
    have k1 := h6 0 _ is rfl rfl
    rw [hp0] at k1
    obtain ⟨i, rfl⟩ := List.length_eq_one_iff.1 (show is.length = 1 by simp only at k1; omega)
    have hi : i = 0 := by
      simp only [Layout, Bool.false_eq_true, if_false, List.flatten_cons, List.length_cons, List.range_succ_eq_map, List.cons_append] at h5
      exact (List.cons.inj h5).1
    subst hi
    have k2 := h7 0 _ _ 0 (.sym s) rfl rfl (by simp) rfl
    rw [hp0] at k2
    simp only at k2
    cases k2 with
    | lit h1 => simp [isAtom] at h1
    | blank h1 => simp [blankHeads] at h1
    | same _ _ h1 => simp [partsOf] at h1
    | diff _ _ h1 => simp [partsOf] at h1
    | clash _ _ _ _ h1 => rw [hc] at h1; simp at h1
    | assumed _ h1 => simp [headOmitted, isOptional] at h1
  | clash h1 => simp [isAtom] at h1
  | verb A _ h2 h3 h4 h5 h6 h7 =>
    simp only [partsOf, Option.some.injEq, List.cons.injEq, true_and] at h2
    subst h2
    obtain ⟨is, js, rfl⟩ : ∃ is js, A = [is, js] := by
      rcases A with _ | ⟨is, _ | ⟨js, _ | _⟩⟩ <;> simp at h3 ⊢
    have k1 := h5 0 _ is rfl rfl
    rw [hp1] at k1
    obtain ⟨i, rfl⟩ := List.length_eq_one_iff.1 (show is.length = 1 by simp only at k1; omega)
    simp only [Layout, Bool.false_eq_true, if_false, List.flatten_cons, List.flatten_nil, List.append_nil, List.length_cons,
      List.range_succ_eq_map, List.cons_append, List.nil_append, List.cons.injEq] at h4
    obtain ⟨rfl, rfl⟩ := h4
    have e : (List.map Nat.succ (List.range rest.length)).filterMap ((a :: rest)[·]?) = rest := by
      rw [List.filterMap_map]
      have : ((fun i => (a :: rest)[i]?) ∘ Nat.succ) = (fun i => rest[i]?) := by funext i; simp
      rw [this]
      exact pick_all rest
    refine ⟨h7 0 _ _ x rfl rfl rfl, ?_⟩
    obtain ⟨w, hw1, hw2⟩ := h7 1 _ _ y rfl rfl rfl
    refine ⟨w, hw1, ?_⟩
    rw [e, hp2] at hw2
    rcases rest with _ | ⟨b, _ | ⟨c, rest⟩⟩
    · exact hw2
    · exact hw2
    · exact hw2
  | verbClash h1 h2 h3 =>
    simp only [partsOf, Option.some.injEq, List.cons.injEq] at h1
    exact absurd h1.1.symm h3

/-- `Verbatim[Plus][x_, y___]` against `f[1] + f[2] + f[3]`; the hypotheses of `C20_verbatim` are met. -/
example : isMatchQ envP 60 (plusOf [fOf [.int 1], fOf [.int 2], fOf [.int 3]]) (verbOf "System`Plus" [nm "x" bl, nm "y" (.expr [S "BlankNullSequence"])]) [] =
      some (true, some [("y", .expr [S "Sequence", fOf [.int 2], fOf [.int 3]]), ("x", fOf [.int 1])]) ∧
    isSameQ (S "Plus") (.expr [S "Verbatim", S "Plus"]) = false ∧ "System`Plus" ∉ specialHeads := by
  refine ⟨by decide +kernel, by decide +kernel, by decide⟩

/-- `Verbatim[Plus][2, x_]` does not match `1 + 2`, although `Plus` is `Orderless`. -/
example : isMatchQ envP 60 (plusOf [.int 1, .int 2]) (verbOf "System`Plus" [.int 2, nm "x" bl]) [] = some (false, some []) ∨
    isMatchQ envP 60 (plusOf [.int 1, .int 2]) (verbOf "System`Plus" [.int 2, nm "x" bl]) [] = some (false, none) := by
  decide +kernel

/-! ### C21 -/

/-- C21. For patterns without names a match, failed or not, leaves the bindings as they were. -/
theorem C21_no_names (env : MEnv) (n : Nat) (a b : Ex) (pm pm' : PM) (rs) (hb : EPat b) (hf : nameFree b = true)
    (h : matchF env n a b pm = some (rs, pm')) : pm'.get = pm.get ∧ ∀ r ∈ rs, ∀ q, r = some q → q.get = pm.get :=
  matchF_inert env n b hb hf a pm rs pm' h

/-- C21. A failed match of `f[p1, ..., pk]`, named or not, leaves the bindings it was given as they were: names bound on the way
are forgotten. -/
theorem C21_compound_keeps_partial (env : MEnv) (n : Nat) (as ps : List Ex) (s : String) (pm pm' : PM) (rs) (hs : s ∉ specialHeads)
    (hne : ps ≠ []) (hps : ∀ p ∈ ps, APat p) (h : matchF env n (.expr as) (.expr (.sym s :: ps)) pm = some (rs, pm')) : pm' = pm := by
  cases n with
  | zero => simp [matchF] at h
  | succ n =>
    have hP := PartsPat.app hs hne hps
    have ha : Ex.expr as ≠ .expr [] := by rintro e; rw [e, matchF_empty] at h; simp at h
    rw [matchF_parts ha hP, matchNormal_parts hP (verbatimOp_sym _)] at h
    simp only at h
    unfold partsResult at h
    split at h
    · unfold matchParts at h
      split at h
      · split at h
        · split at h <;>
          · rw [Option.map_eq_some_iff] at h
            obtain ⟨_, _, h⟩ := h
            exact (Prod.mk.inj h).2.symm
        · rw [Option.map_eq_some_iff] at h
          obtain ⟨_, _, h⟩ := h
          exact (Prod.mk.inj h).2.symm
      · simp at h
    · simp only [Option.some.injEq] at h
      split at h <;> exact (Prod.mk.inj h).2.symm

/-- C21 is false in general: in `(x_?OddQ | y_?EvenQ)` against 2 the first alternative fails its test, but `x -> 2` is left among
the bindings of the answer. -/
theorem C21_pollution : isMatchQ envP 20 (.int 2) (.expr [S "Alternatives", .expr [S "PatternTest", nm "x" bl, S "OddQ"],
    .expr [S "PatternTest", nm "y" bl, S "EvenQ"]]) [] = some (true, some [("y", .int 2), ("x", .int 2)]) := by decide +kernel

/-! ### C22 -/

theorem replacePDInternal_eq (pm : PM) : ∀ e, replacePDInternal pm e = subst pm.get e := by
  intro e
  induction e using Ex.ind with
  | hsym s => simp only [replacePDInternal, subst]; cases pm.get s <;> rfl
  | hexpr ps ih =>
    simp only [replacePDInternal, subst, Ex.expr.injEq]
    induction ps with
    | nil => rfl
    | cons p ps ih2 =>
      simp only [replacePDParts, substL]
      rw [ih p (by simp), ih2 (fun q hq => ih q (by simp [hq]))]
  | _ => simp [replacePDInternal, subst]

theorem containsSymbol_subst_none (ρ : String → Option Ex) (e : Ex) (h : ∀ x, ρ x ≠ none → containsSymbol x e = false) : subst ρ e = e := by
  induction e using Ex.ind with
  | hsym s =>
    simp only [subst]
    cases hs : ρ s with
    | none => rfl
    | some v =>
      have := h s (by simp [hs])
      simp [containsSymbol] at this
  | hexpr ps ih =>
    simp only [subst, Ex.expr.injEq]
    have h' : ∀ x, ρ x ≠ none → containsSymbolL x ps = false := fun x hx => by simpa [containsSymbol] using h x hx
    clear h
    induction ps with
    | nil => rfl
    | cons p ps ih2 =>
      simp only [containsSymbolL, Bool.or_eq_false_iff] at h'
      simp only [substL]
      rw [ih p (by simp) (fun x hx => (h' x hx).1), ih2 (fun q hq => ih q (by simp [hq])) (fun x hx => (h' x hx).2)]
  | _ => rfl

/-- C22. Inserting bindings is simultaneous substitution: every bound symbol is replaced by its value, nothing else is changed, and
the inserted values are not looked at again. -/
theorem C22_substitution (e : Ex) (pm : PM) : replacePD e (some pm) = subst pm.get e := by
  unfold replacePD
  simp only
  split
  · exact replacePDInternal_eq pm e
  · rename_i h
    refine (containsSymbol_subst_none pm.get e ?_).symm
    intro x hx
    by_contra hc
    apply h
    rw [List.any_eq_true]
    unfold PM.get at hx
    obtain ⟨v, hv⟩ := Option.ne_none_iff_exists'.1 hx
    have hmem : (x, v) ∈ pm := by
      clear h hx
      induction pm with
      | nil => simp at hv
      | cons kv pm ih =>
        obtain ⟨k, w⟩ := kv
        rw [List.lookup] at hv
        split at hv
        · rename_i e; simp at e hv; subst e; subst hv; simp
        · exact List.mem_cons_of_mem _ (ih hv)
    exact ⟨(x, v), hmem, by simpa using hc⟩

/-- C22. Expressions without bound names are returned as they are. -/
theorem C22_untouched (e : Ex) (pm : PM) (h : ∀ x v, pm.get x = some v → containsSymbol x e = false) : replacePD e (some pm) = e := by
  rw [C22_substitution]
  refine containsSymbol_subst_none _ _ (fun x hx => ?_)
  obtain ⟨v, hv⟩ := Option.ne_none_iff_exists'.1 hx
  exact h x v hv

/-- Swapping two names works at once: `f[x, y]` with `x -> y, y -> x` is `f[y, x]`. -/
example : replacePD (fOf [.sym "x", .sym "y"]) (some [("x", .sym "y"), ("y", .sym "x")]) = fOf [.sym "y", .sym "x"] := by decide +kernel

/-! ### C62 -/

/-- C62, at the level of `MatchQ`: a pattern without arguments under an ordinary head matches with any arguments. -/
theorem C62_matchq (n : Nat) (as : List Ex) (s : String) (env : MEnv) (ho : env.orderless s = false) (hs : s ∉ specialHeads)
    (h1 : env.oneIdentity s = false) : isMatchQ env (n + 1) (.expr (.sym s :: as)) (.expr [.sym s]) [] = some (true, some []) := by
  have hsp : matchSpecial env (matchF env n) (.expr (.sym s :: as)) (.expr [.sym s]) [] = .goOn [] := by
    have hn : ∀ t, t ∈ specialHeads → s ≠ t := by rintro t ht rfl; exact hs ht
    unfold matchSpecial
    simp only
    rw [if_neg (hn _ (by simp [specialHeads])), if_neg (hn _ (by simp [specialHeads])), if_neg (hn _ (by simp [specialHeads])),
      if_neg (hn _ (by simp [specialHeads])), if_neg (hn _ (by simp [specialHeads])), if_neg (hn _ (by simp [specialHeads]))]
  have hv : verbatimOp (.expr (.sym s :: as)) (.expr [.sym s]) = none := by simp [verbatimOp]
  have hk : blankKind (.expr [.sym s]) = .notBlank := by
    have h3 : ¬ (s = "System`Blank" ∨ s = "System`BlankSequence" ∨ s = "System`BlankNullSequence") := by
      rw [← mem_blankHeads]; intro h; exact hs (by simp [specialHeads, h])
    have h4 : s ≠ "System`Pattern" := by rintro rfl; simp [specialHeads] at hs
    simp [blankKind, blankArgs, h3, h4]
  unfold isMatchQ
  rw [matchF]
  simp only [reduceCtorEq, Ex.expr.injEq, List.cons_ne_nil, or_self, if_false, hsp]
  simp only [matchNormal, hv, Option.getD_none, hk, Option.isSome_none]
  simp [matchCompound, matchParts, ho, canAssumeHead, h1, seqMatch, mapO, formTable, assignments, completions, bindO, amiRun]

/-- Under an `Orderless` head the interpreter crashes. -/
theorem C62_orderless_crash : isMatchQ envP 20 (plusOf [.int 1]) (plusOf []) [] = none := by decide +kernel

end Expreduce
