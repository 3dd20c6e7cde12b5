import Verif.Proofs.Clash

/-! Tools for showing that a rule keeps the meaning. -/

namespace Expreduce
open Ex

theorem Taken.mono {env : MEnv} {P Q : Ex → Prop} (h : ∀ a, P a → Q a) {ρ : String → Option Ex} {v : Bool} {s : String} {p : Ex}
    (ht : Taken env P ρ v s p) : Taken env Q ρ v s p := by
  obtain ⟨x, cs, h1, h2, h3, h4, h5⟩ := ht
  exact ⟨x, cs, h1, h2, h3, h4, fun c hc => ⟨h c (h5 c hc).1, (h5 c hc).2⟩⟩

/-- What is known about one argument. -/
structure Arg (env : MEnv) (P : Ex → Prop) (ρ : String → Option Ex) (p c : Ex) : Prop where
  prop : P c
  noSeq : hasHead "System`Sequence" c = false
  matched : Matches env ρ p c
  head : ∀ h, blankHead p = some h → headOf c = h

namespace Meaning
variable {A : Type _} (M : Meaning A)

theorem argVals_one {e : Ex} (h : hasHead "System`Sequence" e = false) : M.argVals e = [M.val e] := M.argVals_eq e h

theorem vals_map {es : List Ex} (h : ∀ e ∈ es, hasHead "System`Sequence" e = false) : M.vals es = es.map M.val := by
  induction es with
  | nil => simp [vals]
  | cons e es ih =>
    rw [vals, M.argVals_one (h e (by simp)), ih (fun e he => h e (by simp [he]))]
    rfl

theorem val_app (s : String) (as : List Ex) : M.val (.expr (.sym s :: as)) = M.op s (M.vals as) := by rw [val]
end Meaning

variable {env : MEnv} {P : Ex → Prop} {ρ : String → Option Ex} {v : Bool} {s : String} {p : Ex}

/-- A pattern for one argument: the name is bound to this argument. -/
theorem Taken.one (ht : Taken env P ρ v s p) {x : String} (hx : argName p = some x) (hlo : (callShape env v s p).lo = 1)
    (hhi : (callShape env v s p).hi = 1) (hb : ((callShape env v s p).bare || env.oneIdentity s) = true) :
    ∃ c, ρ x = some c ∧ Arg env P ρ (callShape env v s p).elem c := by
  obtain ⟨y, cs, h1, h2, h3, h4, h5⟩ := ht
  rw [hx] at h1
  cases h1
  rw [hlo] at h3
  rw [hhi] at h4
  match cs, h3, h4 with
  | [c], _, _ =>
    refine ⟨c, ?_, ?_⟩
    · rw [h2, Shape.value, if_pos hb]
    · obtain ⟨a, b, c, d⟩ := h5 c (by simp)
      exact ⟨a, b, c, d⟩
  | [], h, _ => simp at h
  | _ :: _ :: _, _, h => simp at h; omega

/-- A pattern for a sequence of arguments: the name is bound to something that stands for them. -/
theorem Taken.many (ht : Taken env P ρ v s p) {A : Type _} (M : Meaning A) {x : String} (hx : argName p = some x)
    (hw : (callShape env v s p).wrap = S "Sequence") (ha : (callShape env v s p).absent = none) :
    ∃ (w : Ex) (cs : List Ex), ρ x = some w ∧ M.argVals w = cs.map M.val ∧ (callShape env v s p).lo ≤ cs.length ∧ (cs.length : Int) ≤ (callShape env v s p).hi ∧
      ∀ c ∈ cs, Arg env P ρ (callShape env v s p).elem c := by
  obtain ⟨y, cs, h1, h2, h3, h4, h5⟩ := ht
  rw [hx] at h1
  cases h1
  refine ⟨_, cs, h2, ?_, h3, h4, ?_⟩
  · have hv := M.vals_map (fun c hc => (h5 c hc).2.1)
    rw [Shape.value.eq_def]
    split
    · rw [ha, Option.getD_none, hw, M.argVals_seq, hv]
    · rename_i c
      split
      · rw [M.argVals_one (h5 c (by simp)).2.1]; rfl
      · rw [hw, M.argVals_seq, hv]
    · rw [hw, M.argVals_seq, hv]
  · intro c hc
    obtain ⟨a, b, c, d⟩ := h5 c hc
    exact ⟨a, b, c, d⟩

/-- A blank under a `Flat` head: the name is bound to an argument or to a call of the head. -/
theorem Taken.flatArg (ht : Taken env P ρ v s p) {x : String} (hx : argName p = some x) (hw : (callShape env v s p).wrap = .sym s)
    (hs : s ≠ "System`Sequence") (hlo : 1 ≤ (callShape env v s p).lo) :
    ∃ w, ρ x = some w ∧ hasHead "System`Sequence" w = false ∧
      (Arg env P ρ (callShape env v s p).elem w ∨ ∃ cs, w = .expr (.sym s :: cs) ∧ cs ≠ [] ∧ ∀ c ∈ cs, Arg env P ρ (callShape env v s p).elem c) := by
  obtain ⟨y, cs, h1, h2, h3, h4, h5⟩ := ht
  rw [hx] at h1
  cases h1
  have h6 : ∀ c ∈ cs, Arg env P ρ (callShape env v s p).elem c := by
    intro c hc
    obtain ⟨a, b, c, d⟩ := h5 c hc
    exact ⟨a, b, c, d⟩
  refine ⟨_, h2, ?_⟩
  rw [Shape.value.eq_def]
  split
  · exfalso; simp at h3; omega
  · rename_i c
    split
    · exact ⟨(h6 c (by simp)).noSeq, .inl (h6 c (by simp))⟩
    · rw [hw]; exact ⟨by simp [hasHead, hs], .inr ⟨[c], rfl, by simp, h6⟩⟩
  · rename_i hne _
    rw [hw]
    refine ⟨by simp [hasHead, hs], .inr ⟨cs, rfl, ?_, h6⟩⟩
    rintro rfl
    exact hne rfl

/-- An optional argument: the name is bound to an argument, to a call of the head (under a `Flat` head) or to the default value. -/
theorem Taken.optArg (ht : Taken env P ρ v s p) {x : String} (hx : argName p = some x) {d : Ex} (hd : (callShape env v s p).absent = some d)
    (hdn : hasHead "System`Sequence" d = false) (hb : (callShape env v s p).bare = true)
    (hw : (callShape env v s p).wrap = .sym s ∧ s ≠ "System`Sequence" ∨ (callShape env v s p).hi = 1) :
    ∃ w, ρ x = some w ∧ hasHead "System`Sequence" w = false ∧
      (w = d ∨ Arg env P ρ (callShape env v s p).elem w ∨
        ((callShape env v s p).wrap = .sym s ∧ ∃ cs, w = .expr (.sym s :: cs) ∧ cs ≠ [] ∧ ∀ c ∈ cs, Arg env P ρ (callShape env v s p).elem c)) := by
  obtain ⟨y, cs, h1, h2, h3, h4, h5⟩ := ht
  rw [hx] at h1
  cases h1
  have h6 : ∀ c ∈ cs, Arg env P ρ (callShape env v s p).elem c := by
    intro c hc
    obtain ⟨a, b, c, d⟩ := h5 c hc
    exact ⟨a, b, c, d⟩
  refine ⟨_, h2, ?_⟩
  rw [Shape.value.eq_def]
  split
  · rw [hd]; exact ⟨hdn, .inl rfl⟩
  · rename_i c
    rw [hb]
    exact ⟨(h6 c (by simp)).noSeq, .inr (.inl (h6 c (by simp)))⟩
  · rename_i h7 h8
    rcases hw with ⟨hw, hs⟩ | hw
    · rw [hw]
      refine ⟨by simp [hasHead, hs], .inr (.inr ⟨rfl, cs, rfl, ?_, h6⟩)⟩
      rintro rfl
      exact h7 rfl
    · rw [hw] at h4
      match cs, h4 with
      | [], _ => exact absurd rfl h7
      | [c], _ => exact absurd rfl (h8 c)
      | _ :: _ :: _, h => simp at h; omega

theorem OnlyNames.none {ρ : String → Option Ex} {p : Ex} (h : OnlyNames ρ p) {y : String} (hy : y ∉ patNames p) : ρ y = none :=
  Classical.byContradiction fun hn => hy (h y hn)

theorem Yields.self {env : MEnv} {locals : Ex → Option Ex} {e res : Ex} (h : Yields env locals e res) (h1 : hasHead "System`Condition" e = false)
    (h2 : locals e = .none) : res = e := by
  cases h with
  | plain => rfl
  | cond _ _ => simp [hasHead, S] at h1
  | inner _ hl _ _ => rw [h2] at hl; cases hl

end Expreduce
