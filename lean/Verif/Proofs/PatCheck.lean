import Verif.Spec.Meaning

/-! Decision procedures for the pattern fragments, for use on concrete patterns. -/

namespace Expreduce
open Ex

/-- `x : p`, `p ? t`, `x : p ? t` with `p` checked by `E`. -/
def opatB (E : Ex → Bool) (p : Ex) : Bool :=
  E p || match p with
  | .expr [.sym s, q, t] =>
    if s = "System`Pattern" then (match q with | .sym _ => E t | _ => false)
    else if s = "System`PatternTest" then
      E q || match q with
      | .expr [.sym s', .sym _, q'] => decide (s' = "System`Pattern") && E q'
      | _ => false
    else false
  | _ => false

/-- Argument patterns, given the check `E` for patterns for one expression. -/
def apatB (E : Ex → Bool) (p : Ex) : Bool :=
  opatB E p || match p with
  | .expr [.sym s, q] => decide (s = "System`Optional") && opatB E q
  | .expr [.sym s, q, d] => decide (s = "System`Optional") && opatB E q && noReal d
  | _ => false

/-- Patterns for one expression. -/
def epatB : Nat → Ex → Bool
  | 0, _ => false
  | n + 1, p =>
    isAtom p || match p with
    | .expr (.sym s :: args) =>
      if s ∈ blankHeads then decide (args.length ≤ 1)
      else if s ∈ specialHeads then
        match args with
        | [q] => decide (s = "System`HoldPattern") && epatB n q
        | [q, t] =>
          if s = "System`PatternTest" then epatB n q
          else if s = "System`Pattern" then
            match q, t with
            | .sym _, .expr (.sym b :: as) => decide (b ∈ blankHeads) && decide (as.length ≤ 1)
            | _, _ => false
          else false
        | _ => false
      else !args.isEmpty && args.all (apatB (epatB n))
    | .expr (.expr [.sym v, .sym s] :: ps) => decide (v = "System`Verbatim") && decide (s ∉ specialHeads) && !ps.isEmpty && ps.all (apatB (epatB n))
    | _ => false

theorem opatB_sound {E : Ex → Bool} (hE : ∀ p, E p = true → EPat p) {p : Ex} (h : opatB E p = true) : OPat p ∧ APat p := by
  unfold opatB at h
  rw [Bool.or_eq_true] at h
  rcases h with h | h
  · exact ⟨.body (hE _ h), .body (.elem (hE _ h))⟩
  · split at h
    · rename_i s q t
      split at h
      · rename_i hs
        subst hs
        split at h
        · exact ⟨.named _ (hE _ h), .named _ (.elem (hE _ h))⟩
        · simp at h
      · split at h
        · rename_i hs
          subst hs
          rw [Bool.or_eq_true] at h
          rcases h with h | h
          · exact ⟨.test _ (hE _ h), .test _ (.elem (hE _ h))⟩
          · split at h
            · simp only [Bool.and_eq_true, decide_eq_true_eq] at h
              obtain ⟨rfl, h⟩ := h
              exact ⟨.namedTest _ _ (hE _ h), .namedTest _ _ (.elem (hE _ h))⟩
            · simp at h
        · simp at h
    · simp at h

theorem apatB_sound {E : Ex → Bool} (hE : ∀ p, E p = true → EPat p) {p : Ex} (h : apatB E p = true) : APat p := by
  unfold apatB at h
  rw [Bool.or_eq_true] at h
  rcases h with h | h
  · exact (opatB_sound hE h).2
  · split at h
    · simp only [Bool.and_eq_true, decide_eq_true_eq] at h
      obtain ⟨rfl, h⟩ := h
      exact .opt (opatB_sound hE h).1
    · simp only [Bool.and_eq_true, decide_eq_true_eq] at h
      obtain ⟨⟨rfl, h⟩, h'⟩ := h
      exact .optD _ (opatB_sound hE h).1 h'
    · simp at h

theorem epatB_sound : ∀ {n : Nat} {p : Ex}, epatB n p = true → EPat p
  | 0, p, h => by simp [epatB] at h
  | n + 1, p, h => by
    unfold epatB at h
    rw [Bool.or_eq_true] at h
    rcases h with h | h
    · exact .atom h
    · split at h
      · rename_i s args
        split at h
        · exact .blank ‹_› (by simpa using h)
        · split at h
          · split at h
            · simp only [Bool.and_eq_true, decide_eq_true_eq] at h
              obtain ⟨rfl, h⟩ := h
              exact .hold (epatB_sound h)
            · split at h
              · rename_i hs
                subst hs
                exact .test _ (epatB_sound h)
              · split at h
                · rename_i hs
                  subst hs
                  split at h
                  · simp only [Bool.and_eq_true, decide_eq_true_eq] at h
                    exact .named _ h.1 h.2
                  · simp at h
                · simp at h
            · simp at h
          · rename_i hs
            simp only [Bool.and_eq_true, List.all_eq_true, Bool.not_eq_true', List.isEmpty_eq_false_iff] at h
            exact .app hs h.1 (fun p hp => apatB_sound (fun _ => epatB_sound) (h.2 p hp))
      · simp only [Bool.and_eq_true, decide_eq_true_eq, List.all_eq_true, Bool.not_eq_true', List.isEmpty_eq_false_iff] at h
        obtain ⟨⟨⟨rfl, h1⟩, h2⟩, h3⟩ := h
        exact .verb h1 h2 (fun p hp => apatB_sound (fun _ => epatB_sound) (h3 p hp))
      · simp at h

/-- The argument patterns of a call in the fragment. -/
def fargsB (F : Ex → Bool) (ps : List Ex) : Bool := ps.all (fun p => noOwnDefault p && ((argName p).isSome || F p))

/-- The patterns of `FPat`. -/
def fpatB (env : MEnv) (heads : List String) : Nat → Ex → Bool
  | 0, _ => false
  | n + 1, p =>
    isAtom p || match p with
    | .expr (.sym s :: ps) =>
      if s ∈ specialHeads then
        match ps with
        | [q] => decide (s = "System`HoldPattern") && fpatB env heads n q
        | [q, t] =>
          if s = "System`PatternTest" then fpatB env heads n q
          else if s = "System`Pattern" then
            match q, t with
            | .sym _, .expr (.sym b :: _) => decide (b ∈ blankHeads)
            | _, _ => false
          else false
        | _ => false
      else decide (s ∈ heads) && decide (s ≠ "System`Sequence") && fargsB (fpatB env heads n) ps &&
        (env.orderless s || ps.dropLast.all (fun p => !isOptional p))
    | .expr (.expr [.sym v, .sym s] :: ps) => decide (v = "System`Verbatim") && (decide (s ∉ specialHeads) && (decide (s ∈ heads) &&
        decide (s ≠ "System`Sequence") && fargsB (fpatB env heads n) ps && ps.dropLast.all (fun p => !isOptional p)))
    | _ => false

theorem fargsB_sound {env : MEnv} {heads : List String} {F : Ex → Bool} (hF : ∀ p, F p = true → FPat env (· ∈ heads) p) {ps : List Ex}
    (h : fargsB F ps = true) : (∀ p ∈ ps, noOwnDefault p = true) ∧ ∀ p ∈ ps, argName p = none → FPat env (· ∈ heads) p := by
  simp only [fargsB, List.all_eq_true, Bool.and_eq_true, Bool.or_eq_true] at h
  refine ⟨fun p hp => (h p hp).1, fun p hp hn => ?_⟩
  rcases (h p hp).2 with h | h
  · rw [hn] at h; simp at h
  · exact hF p h

theorem fpatB_sound {env : MEnv} {heads : List String} : ∀ {n : Nat} {p : Ex}, fpatB env heads n p = true → FPat env (· ∈ heads) p
  | 0, p, h => by simp [fpatB] at h
  | n + 1, p, h => by
    unfold fpatB at h
    rw [Bool.or_eq_true] at h
    rcases h with h | h
    · exact .atom h
    · split at h
      · rename_i s args
        split at h
        · split at h
          · simp only [Bool.and_eq_true, decide_eq_true_eq] at h
            obtain ⟨rfl, h⟩ := h
            exact .hold (fpatB_sound h)
          · split at h
            · rename_i hs
              subst hs
              exact .test _ (fpatB_sound h)
            · split at h
              · rename_i hs
                subst hs
                split at h
                · exact .named _ (by simpa using h)
                · simp at h
              · simp at h
          · simp at h
        · rename_i hs
          simp only [Bool.and_eq_true, decide_eq_true_eq, Bool.or_eq_true, List.all_eq_true, Bool.not_eq_true'] at h
          obtain ⟨⟨⟨h1, h2⟩, h3⟩, h4⟩ := h
          obtain ⟨h5, h6⟩ := fargsB_sound (fun _ => fpatB_sound) h3
          exact .app h1 hs h2 h5 h6 h4
      · simp only [Bool.and_eq_true, decide_eq_true_eq, List.all_eq_true, Bool.not_eq_true'] at h
        obtain ⟨rfl, h0, ⟨⟨h1, h2⟩, h3⟩, h4⟩ := h
        obtain ⟨h5, h6⟩ := fargsB_sound (fun _ => fpatB_sound) h3
        exact .verb h1 h0 h2 h5 h6 h4
      · simp at h

end Expreduce
