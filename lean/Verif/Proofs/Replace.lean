import Verif.Props.Match
import Verif.Model.Replace

/-! Lemmas about replacement. -/

namespace Expreduce
open Ex

theorem subst_nil (e : Ex) : subst (fun _ => none) e = e := containsSymbol_subst_none _ e (by simp)

theorem replacePD_bindings (e : Ex) (q : Option PM) : replacePD e q = subst (bindingsOf q) e := by
  cases q with
  | none => simp only [replacePD]; exact (subst_nil e).symm
  | some pm => exact C22_substitution e pm

theorem isMatchQ_names {env : MEnv} {n : Nat} {a b : Ex} {r} (hb : EPat b) (h : isMatchQ env n a b [] = some (true, r)) :
    OnlyNames (bindingsOf r) b := by
  intro y hy
  by_contra hc
  unfold isMatchQ at h
  split at h
  · simp at h
  · simp at h
  · rename_i r0 tl pm' hm
    simp only [Option.some.injEq, Prod.mk.injEq, true_and] at h
    subst h
    have := matchF_inertAt y env n b hb hc a [] _ _ hm
    cases r0 with
    | none => simp [bindingsOf] at hy
    | some q =>
      have := this.2 (some q) (by simp) q rfl
      simp only [bindingsOf] at hy
      rw [this] at hy
      simp [PM.get] at hy

theorem isMatchQ_false {env : MEnv} [env.Exact] {n : Nat} {a b : Ex} {r} (hb : EPat b) (hc : committed b = true)
    (hq : plainHeads b = true ∨ quotFree a = true) (ha : noReal a = true) (hw : wellFormed a = true) (hn : matchFuel a b ≤ n)
    (h : isMatchQ env n a b [] = some (false, r)) : ¬ ∃ ρ, Matches env ρ b a := by
  intro hm
  obtain ⟨r', h'⟩ := (C20_decides env n a b hb hc hq ha hw hn).2 hm
  rw [h] at h'
  simp at h'

theorem quotFreeL_mem {ps : List Ex} (h : quotFreeL ps = true) : ∀ p ∈ ps, quotFree p = true := by
  induction ps with
  | nil => simp
  | cons a as ih =>
    simp only [quotFreeL, Bool.and_eq_true] at h
    intro p hp
    rcases List.mem_cons.1 hp with rfl | hp
    · exact h.1
    · exact ih h.2 p hp

theorem matchFuel_le (a b : Ex) : matchFuel a b ≤ 2 * size b + 1 := by unfold matchFuel; split <;> omega

/-- The list version follows from the version for each part. -/
theorem replaceAllL_forall {env : MEnv} {m : Nat} {stop : String} {lhs rhs : Ex} {R : Ex → Ex → Prop} : ∀ {ps : List Ex},
    (∀ p ∈ ps, ∃ q, replaceAll env m stop lhs rhs p = some q ∧ R p q) →
    ∃ qs, replaceAllL env m stop lhs rhs ps = some qs ∧ List.Forall₂ R ps qs
  | [], _ => ⟨[], by simp [replaceAllL], .nil⟩
  | p :: ps, h => by
    obtain ⟨q, hq, hR⟩ := h p (by simp)
    obtain ⟨qs, hqs, hRs⟩ := replaceAllL_forall (ps := ps) (fun p' hp' => h p' (by simp [hp']))
    exact ⟨q :: qs, by rw [replaceAllL, hq, hqs], .cons hR hRs⟩

theorem flatCase_none {env : MEnv} {ps : List Ex} {lhs : Ex} (h : ∀ s args, lhs = .expr (.sym s :: args) → env.flat s = false) :
    flatCase env ps lhs = none := by
  unfold flatCase
  split
  · rename_i s _ t largs
    rw [if_neg]
    rintro ⟨rfl, h2⟩
    rw [h s _ rfl] at h2
    simp at h2
  · rfl

/-- The result at an atom. -/
def hitOr (rhs e : Ex) : Option (Bool × Option PM) → Option Ex
  | none => none
  | some (true, q) => some (replacePD rhs q)
  | some (false, _) => some e

theorem replaceAll_atom {env : MEnv} {m : Nat} {stop : String} {lhs rhs e : Ex} (h : isAtom e = true) :
    replaceAll env m stop lhs rhs e = hitOr rhs e (isMatchQ env m e lhs []) := by
  cases e with
  | expr ps => simp [isAtom] at h
  | _ =>
    rw [replaceAll]
    · rfl
    · simp

theorem replaceAll_hit {env : MEnv} {m : Nat} {stop : String} {lhs rhs : Ex} {ps : List Ex} {q} (hs : hasHead stop (.expr ps) = false)
    (h : isMatchQ env m (.expr ps) lhs [] = some (true, q)) : replaceAll env m stop lhs rhs (.expr ps) = some (replacePD rhs q) := by
  rw [replaceAll, if_neg (by simp [hs]), h]

theorem replaceAll_flat {env : MEnv} {m : Nat} {stop : String} {lhs rhs : Ex} {ps : List Ex} {q s largs} (hs : hasHead stop (.expr ps) = false)
    (h : isMatchQ env m (.expr ps) lhs [] = some (false, q)) (hf : flatCase env ps lhs = some (s, largs)) :
    replaceAll env m stop lhs rhs (.expr ps) = flatReplace env m (.expr ps) (.sym s) (.sym s) largs rhs (env.orderless s) := by
  rw [replaceAll, if_neg (by simp [hs]), h]
  simp only [hf]

theorem replaceAll_rewritten (env : MEnv) [env.Exact] (m : Nat) (stop : String) (lhs rhs : Ex) (hb : EPat lhs) (hc : committed lhs = true)
    (hfl : ∀ s args, lhs = .expr (.sym s :: args) → env.flat s = false) (hn : 2 * size lhs + 1 ≤ m) :
    ∀ e : Ex, (plainHeads lhs = true ∨ quotFree e = true) → noReal e = true → wellFormed e = true →
      ∃ e', replaceAll env m stop lhs rhs e = some e' ∧ Rewritten env (fun u => hasHead stop u = true) lhs rhs e e' := by
  have step : ∀ e : Ex, (plainHeads lhs = true ∨ quotFree e = true) → noReal e = true → wellFormed e = true →
      hasHead stop e = false → ∃ v q, isMatchQ env m e lhs [] = some (v, q) ∧
        (v = true → Rewritten env (fun u => hasHead stop u = true) lhs rhs e (replacePD rhs q)) ∧
        (v = false → ¬ ∃ ρ, Matches env ρ lhs e) := by
    intro e hq ha hw hs
    have hn' := le_trans (matchFuel_le e lhs) hn
    obtain ⟨v, q, h⟩ := C20_returns env m e lhs [] hb hw hn'
    refine ⟨v, q, h, ?_, ?_⟩
    · rintro rfl
      rw [replacePD_bindings]
      exact .hit (by simp [hs]) (C20_sound_partial env m e lhs q hb ha h) (isMatchQ_names hb h)
    · rintro rfl
      exact isMatchQ_false hb hc hq ha hw hn' h
  intro e
  have hatom : ∀ e : Ex, isAtom e = true → (plainHeads lhs = true ∨ quotFree e = true) → noReal e = true → wellFormed e = true →
      ∃ e', replaceAll env m stop lhs rhs e = some e' ∧ Rewritten env (fun u => hasHead stop u = true) lhs rhs e e' := by
    intro e hat hq ha hw
    have hs : hasHead stop e = false := by cases e <;> simp_all [hasHead, isAtom]
    obtain ⟨v, q, h, h1, h2⟩ := step e hq ha hw hs
    have := replaceAll_atom (env := env) (m := m) (stop := stop) (lhs := lhs) (rhs := rhs) hat
    rw [h] at this
    cases v with
    | true => exact ⟨_, this, h1 rfl⟩
    | false => exact ⟨_, this, .atom (by simp [hs]) hat (h2 rfl)⟩
  induction e using Ex.ind with
  | hexpr ps ih =>
    intro hq ha hw
    by_cases hs : hasHead stop (.expr ps) = true
    · exact ⟨_, by rw [replaceAll, if_pos hs], .skip hs⟩
    · simp only [Bool.not_eq_true] at hs
      obtain ⟨v, q, h, h1, h2⟩ := step _ hq ha hw hs
      cases v with
      | true => exact ⟨_, by rw [replaceAll, if_neg (by simp [hs]), h], h1 rfl⟩
      | false =>
        have hw' : wellFormedL ps = true := by
          simp only [wellFormed, Bool.and_eq_true] at hw; exact hw.2
        obtain ⟨qs, hqs, hR⟩ := replaceAllL_forall (env := env) (m := m) (stop := stop) (lhs := lhs) (rhs := rhs)
          (R := Rewritten env (fun u => hasHead stop u = true) lhs rhs) (ps := ps) (by
            intro p hp
            refine ih p hp ?_ (noRealL_mem (by simpa [noReal] using ha) p hp) (wellFormedL_mem hw' p hp)
            rcases hq with hq | hq
            · exact Or.inl hq
            · exact Or.inr (quotFreeL_mem (by simpa [quotFree] using hq) p hp))
        refine ⟨keepIfSame ps qs, ?_, ?_⟩
        · rw [replaceAll, if_neg (by simp [hs]), h]
          simp only [flatCase_none hfl, hqs]
        · unfold keepIfSame
          split
          · exact .parts (by simp [hs]) (h2 rfl) hR
          · rename_i hh
            exact .clash (by simp [hs]) (h2 rfl) hR (by simpa using hh)
  | hsym s => intro hq ha hw; exact hatom _ rfl hq ha hw
  | hstr s => intro hq ha hw; exact hatom _ rfl hq ha hw
  | hint s => intro hq ha hw; exact hatom _ rfl hq ha hw
  | hrat n d => intro hq ha hw; exact hatom _ rfl hq ha hw
  | hflt v => intro hq ha hw; exact hatom _ rfl hq ha hw
  | hcplx r i _ _ => intro hq ha hw; exact hatom _ rfl hq ha hw

end Expreduce
