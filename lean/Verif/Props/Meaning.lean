import Verif.Proofs.RuleTool
import Verif.Props.Replace

/-! Property C90: matching and rules keep the meaning. -/

namespace Expreduce
open Ex

/-- C90. If `e` matches the pattern `p`, then `p` with the values of its names put in has the value of `e`, in every interpretation that
agrees with the attributes and default values of the functions in `p`. (Covered patterns, `e` without machine reals, no fingerprints that
coincide.) -/
theorem C90_match_keeps_meaning_partial {A : Type _} (M : Meaning A) (env : MEnv) [env.Exact] (heads : List String) (hM : ∀ s ∈ heads, M.Lawful env s)
    (n : Nat) (p e : Ex) (r) (hp : EPat p) (hf : FPat env (· ∈ heads) p) (he : noReal e = true)
    (h : isMatchQ env n e p [] = some (true, r)) (hd : ClashFree env heads p e (bindingsOf r)) :
    M.val (fill (bindingsOf r) p) = M.val e :=
  (val_of_match hM hf hd (C20_sound_partial env n e p r hp he h)).1

/-- C90 for rules. If the two sides of a rule have related values for all bindings of the names, then the rule replaces an expression by
one with a related value. (The same conditions.) -/
theorem C90_rule_keeps_meaning_partial {A : Type _} (M : Meaning A) (R : A → A → Prop) (env : MEnv) [env.Exact] (locals : Ex → Option Ex)
    (heads : List String) (hM : ∀ s ∈ heads, M.Lawful env s) (P : Ex → Prop) (m n : Nat) (lhs rhs e res : Ex) (hp : EPat lhs) (hf : FPat env (· ∈ heads) lhs)
    (he : noReal e = true) (hs : SoundRule M R env P locals lhs rhs) (hP : ∀ a ∈ pieces e, P a) 
    (hd : ∀ rs pm', matchF env m e lhs [] = some (rs, pm') → ∀ r ∈ rs, ClashFree env heads lhs e (bindingsOf r))
    (h : replace env locals m n lhs rhs e = some (some res)) : R (M.val e) (M.val res) := by
  unfold replace at h
  split at h
  · simp at h
  · rename_i rs pm' hm
    obtain ⟨l, r, t, rfl, hy, _⟩ := replaceLoop_some h
    have h1 := matchF_matches hp he hm r (by simp)
    have h2 : OnlyNames (bindingsOf r) lhs := matchF_names hp hm r (by simp)
    obtain ⟨h3, h4⟩ := val_of_match hM hf (hd _ _ hm r (by simp)) h1
    rw [← h3]
    exact hs _ _ (fun t ht => (h4 t ht).mono hP) h2 hy

/-! ### An instance -/

/-- Integers and sums as usual; `f` is multiplication by 3. -/
def linear : Meaning Int where
  atom := fun e => match e with
    | .int n => n
    | _ => 0
  op := fun s xs => if s = "System`Plus" then xs.sum else if s = "Global`f" then 3 * xs.headI else 0

theorem linear_plus : linear.Lawful envP "System`Plus" where
  flat := by intro _ xs ys zs; simp [linear]
  comm := by intro _ xs ys h; simp only [linear, if_true]; exact h.sum_eq
  one := by intro _ x; simp [linear]
  dflt := by
    intro d hd xs
    simp only [envP, beq_self_eq_true, if_true, Option.some.injEq] at hd
    subst hd
    simp [linear, Meaning.argVals]

theorem linear_f : linear.Lawful envP "Global`f" where
  flat := by intro h; simp [envP] at h
  comm := by intro h; simp [envP] at h
  one := by intro h; simp [envP] at h
  dflt := by intro d hd; simp [envP] at hd

/-- `f[a_ + b_.]` -/
def sumArg : Ex := fOf [plusOf [nm "a" bl, optOf (nm "b" bl)]]
/-- `f[a] + f[b]` -/
def sumRes : Ex := plusOf [fOf [.sym "a"], fOf [.sym "b"]]

theorem bindings_mem {r : Option PM} {x : String} {v : Ex} (h : bindingsOf r x = some v) : v ∈ (r.getD []).map Prod.snd := by
  cases r with
  | none => simp [bindingsOf] at h
  | some pm =>
    simp only [bindingsOf, PM.get] at h
    simp only [Option.getD_some]
    induction pm with
    | nil => simp at h
    | cons kv pm ih =>
      obtain ⟨k, w⟩ := kv
      rw [List.lookup_cons] at h
      split at h
      · simp only [Option.some.injEq] at h; subst h; simp
      · exact List.mem_cons_of_mem _ (ih h)

/-- A check for the condition on fingerprints: all ways of matching. -/
def clashFreeAll (env : MEnv) (heads : List String) (m : Nat) (p e : Ex) : Bool :=
  match matchF env m e p [] with
  | some (rs, _) => rs.all (fun r => clashFreeB env heads p e ((r.getD []).map Prod.snd))
  | none => true

theorem clashFreeAll_sound {env : MEnv} {heads : List String} {m : Nat} {p e : Ex} (h : clashFreeAll env heads m p e = true) :
    ∀ rs pm', matchF env m e p [] = some (rs, pm') → ∀ r ∈ rs, ClashFree env heads p e (bindingsOf r) := by
  intro rs pm' hm r hr
  unfold clashFreeAll at h
  rw [hm] at h
  simp only [List.all_eq_true] at h
  exact clashFree_of_list (h r hr) (fun _ _ => bindings_mem)

/-- The hypotheses of the first theorem are met by the pattern `f[a_ + b_.]` and the expression `f[2 + x + 5]`. -/
example : EPat sumArg ∧ FPat envP (· ∈ ["Global`f", "System`Plus"]) sumArg ∧
    ∃ r, isMatchQ envP 60 (fOf [plusOf [.int 2, gx, .int 5]]) sumArg [] = some (true, r) ∧
      ClashFree envP ["Global`f", "System`Plus"] sumArg (fOf [plusOf [.int 2, gx, .int 5]]) (bindingsOf r) ∧
      linear.val (fill (bindingsOf r) sumArg) = 21 := by
  refine ⟨epatB_sound (n := 10) (by decide +kernel), fpatB_sound (n := 10) (by decide +kernel),
    some [("b", plusOf [gx, .int 5]), ("a", .int 2)], by decide +kernel, ?_, by decide +kernel⟩
  exact clashFree_of_list (vs := [plusOf [gx, .int 5], .int 2]) (by decide +kernel) (fun _ _ => bindings_mem)

/-- The rule `f[a_ + b_.] -> f[a] + f[b]` keeps the values. -/
theorem linear_sound (P : Ex → Prop) : SoundRule linear (· = ·) envP P (fun _ => none) sumArg sumRes := by
  intro ρ res ht ho hy
  have h1 := ht (false, "System`Plus", nm "a" bl) (by decide +kernel)
  have h2 := ht (false, "System`Plus", optOf (nm "b" bl)) (by decide +kernel)
  obtain ⟨wa, ha, hna, _⟩ := h1.flatArg (x := "a") rfl rfl (by decide) (by decide)
  obtain ⟨wb, hb, hnb, _⟩ := h2.optArg (x := "b") rfl (d := .int 0) rfl rfl rfl (.inl ⟨rfl, by decide⟩)
  have hf := ho.none (y := "Global`f") (by decide +kernel)
  have hp := ho.none (y := "System`Plus") (by decide +kernel)
  have hr : subst ρ sumRes = plusOf [fOf [wa], fOf [wb]] := by
    simp [sumRes, plusOf, fOf, subst, substL, ha, hb, hf, hp, S]
  rw [hr] at hy
  rw [hy.self rfl rfl]
  have hl : fill ρ sumArg = fOf [plusOf [wa, wb]] := by
    simp [sumArg, plusOf, fOf, fill, fillL, argName, testName, coreName, optOf, nm, ha, hb, S]
  rw [hl]
  simp [fOf, plusOf, S, Meaning.val_app, Meaning.vals_cons, Meaning.vals_nil, Meaning.argVals_app, Meaning.argVals_one, hna, hnb, linear]
  ring

/-- The hypotheses of the second theorem are met by this rule and the expression `f[2 + x + 5]`; the value is 21. -/
example : ∃ res, replace envP (fun _ => none) 60 60 sumArg sumRes (fOf [plusOf [.int 2, gx, .int 5]]) = some (some res) ∧ linear.val res = 21 := by
  have h : ∃ res, replace envP (fun _ => none) 60 60 sumArg sumRes (fOf [plusOf [.int 2, gx, .int 5]]) = some (some res) :=
    ⟨plusOf [fOf [.int 2], fOf [plusOf [gx, .int 5]]], by decide +kernel⟩
  obtain ⟨res, hr⟩ := h
  refine ⟨res, hr, ?_⟩
  rw [← C90_rule_keeps_meaning_partial linear (· = ·) envP (fun _ => none) ["Global`f", "System`Plus"] ?_ (fun _ => True) 60 60 sumArg sumRes
    (fOf [plusOf [.int 2, gx, .int 5]]) res (epatB_sound (n := 10) (by decide +kernel)) (fpatB_sound (n := 10) (by decide +kernel)) rfl
    (linear_sound _) (fun _ _ => trivial) (clashFreeAll_sound (by decide +kernel)) hr]
  · decide +kernel
  · intro s hs
    simp only [List.mem_cons, List.not_mem_nil, or_false] at hs
    rcases hs with rfl | rfl
    · exact linear_f
    · exact linear_plus

end Expreduce
