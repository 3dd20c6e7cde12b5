import Verif.Proofs.FunProg
import Verif.Props.FibProg
import Mathlib.Computability.Ackermann

/-! C124: recursive functions of integers. -/

namespace Expreduce
open Ex
open AssignProg Imp Fp

section
variable {A : AlgParams} {strLen : Ex → Nat} {fmt : Rat → String} {st : EState} {B : Int} {P : Program} {σ ρ : Store}

theorem Fp.written_none (e : Exp) : written (fun _ => none) e = e.toEx := by
  unfold written
  simpa using subst_nil e.toEx

/-- C124: An expression with calls of recursive functions of the user is evaluated to the value that the definitions give it, whatever the depth of the recursion, and without any change of
the session. -/
theorem C124_value_partial (hA : 3 ≤ A.bound) (hL : LocalsOk A.locals) (h : Installed st B P σ) {e : Exp} (hn : ∀ f ∈ e.calls, f ∉ taken) {d : Nat} {n : Int}
    (hr : run B P σ d (fun _ => none) e = some n) : Evals (ctx A strLen fmt) st e.toEx st (.int n) := by
  have := (settles (A := A) (strLen := strLen) (fmt := fmt) hA hL h d (fun _ => none) e n ⟨fun _ _ => rfl, fun g hg => ⟨hn g hg, rfl⟩⟩ hr).evals
  rwa [show subst (sub1 fun _ => none) e.toEx = e.toEx from written_none e] at this

/-- C124: The evaluation has no other result. -/
theorem C124_only (hA : 3 ≤ A.bound) (hL : LocalsOk A.locals) (h : Installed st B P σ) {e : Exp} (hn : ∀ f ∈ e.calls, f ∉ taken) {d : Nat} {n : Int}
    (hr : run B P σ d (fun _ => none) e = some n) {st' : EState} {v : Ex} (he : Evals (ctx A strLen fmt) st e.toEx st' v) : st' = st ∧ v = .int n :=
  he.unique mono (C124_value_partial hA hL h hn hr)

theorem Fp.stuck_below {n m : Nat} (hmn : m ≤ n) {e : Ex} (h : eval (ctx A strLen fmt) n st e = .stuck) : eval (ctx A strLen fmt) m st e = .stuck := by
  rcases eval_mono (c := ctx A strLen fmt) mono hmn st e with h' | h'
  · exact h'
  · rw [h', h]

theorem Fp.back {e v : Ex} (n : Nat) (h : Evals (ctx A strLen fmt) st e st v) : eval (ctx A strLen fmt) n st e = .stuck ∨ eval (ctx A strLen fmt) n st e = .ok (st, v) := by
  obtain ⟨N, hN⟩ := h.at mono
  have := eval_mono (c := ctx A strLen fmt) mono (Nat.le_max_left n N) st e
  rw [hN _ (Nat.le_max_right _ _)] at this
  exact this

/-- A call whose argument does not come back. -/
theorem Fp.call_stuck (h : Shell st) {n : Nat} {f : String} (hf : getSymDef st.toDState f = none) (hr : f ≠ "System`Return") {pre : List Ex} {p : Ex} (post : List Ex)
    (hc : conditional (attrsOf st f) (.sym f :: (pre ++ p :: post)) = none) (hh : ¬ holds (attrsOf st f) (pre.length + 1))
    (hpre : ∀ q ∈ pre, ∃ w, Evals (ctx A strLen fmt) st q st w)
    (hp : eval (ctx A strLen fmt) n st p = .stuck) :
    (∀ k ins last, unchanged (ctx A strLen fmt) last (.expr (.sym f :: (pre ++ p :: post))) = false →
      evalLoop (ctx A strLen fmt) n (eval (ctx A strLen fmt) n) k st ins last (.expr (.sym f :: (pre ++ p :: post))) = .stuck) ∧
    eval (ctx A strLen fmt) n st (.expr (.sym f :: (pre ++ p :: post))) = .stuck := by
  have key : ∀ m, m ≤ n → pass (ctx A strLen fmt) m (eval (ctx A strLen fmt) m) st (.sym f :: (pre ++ p :: post)) = .stuck := fun m hm =>
    pass_stuck h.notThrown hf post hc hh (fun q hq => by
      obtain ⟨w, hw⟩ := hpre q hq
      exact (back m hw).imp id (fun h => ⟨w, h⟩)) (stuck_below hm hp)
  refine ⟨fun k ins last hu => ?_, ?_⟩
  · cases k with
    | zero => rfl
    | succ k => exact loop_stuck k ins hu (no_return h hr _) rfl (key n (Nat.le_refl n))
  · cases n with
    | zero => rfl
    | succ m =>
      rw [eval_expr]
      exact loop_stuck m false (by simp [unchanged]) (no_return h hr _) rfl (key m (by omega))

theorem Fp.arith_no {f : String} (hf : f = "System`Plus" ∨ f = "System`Times" ∨ f = "System`Less" ∨ f = "System`LessEqual") (h : Shell st) :
    getSymDef st.toDState f = none ∧ f ≠ "System`Return" ∧ (∀ i, ¬ holds (attrsOf st f) i) := by
  rcases hf with rfl | rfl | rfl | rfl
  · have hm : ("System`Plus", ({ attrs := arithAttrs, builtin := true } : DefM)) ∈ entries := by simp [entries]
    refine ⟨by simp [getSymDef, h.entryOf hm], by decide, fun i => ?_⟩
    rw [attrs_of h hm]; simp [holds, arithAttrs]
  · have hm : ("System`Times", ({ attrs := arithAttrs, builtin := true } : DefM)) ∈ entries := by simp [entries]
    refine ⟨by simp [getSymDef, h.entryOf hm], by decide, fun i => ?_⟩
    rw [attrs_of h hm]; simp [holds, arithAttrs]
  · have hm : ("System`Less", ({ attrs := { prot := true }, builtin := true } : DefM)) ∈ entries := by simp [entries]
    refine ⟨by simp [getSymDef, h.entryOf hm], by decide, fun i => ?_⟩
    rw [attrs_of h hm]; simp [holds]
  · have hm : ("System`LessEqual", ({ attrs := { prot := true }, builtin := true } : DefM)) ∈ entries := by simp [entries]
    refine ⟨by simp [getSymDef, h.entryOf hm], by decide, fun i => ?_⟩
    rw [attrs_of h hm]; simp [holds]

theorem Fp.cond_two {f : String} (a : Attrs) {e1 e2 : Ex} (h1 : condExprArgs e1 = none) (h2 : condExprArgs e2 = none) : conditional a [.sym f, e1, e2] = none := by
  unfold conditional
  split
  · exact no_cond h1 h2
  · rfl

/-- Writing with parameters in the heads' way. -/
theorem Fp.written_call {f : String} (hf : ρ f = none) (args : List Exp) : written ρ (.call f args) = .expr (.sym f :: args.map (written ρ)) := by
  unfold written
  rw [Exp.toEx]
  exact (subst_head hf _).trans (by rw [substL_toExL]; rfl)

theorem Fp.written_two {f : String} (hf : ρ f = none) (a b : Ex) :
    subst (sub1 ρ) (.expr [.sym f, a, b]) = .expr [.sym f, subst (sub1 ρ) a, subst (sub1 ρ) b] := by
  rw [subst_head hf]; rfl

theorem Fp.written_if (hρ : ∀ g ∈ taken, ρ g = none) (less : Bool) (a b t e : Exp) : written ρ (.ite less a b t e) =
    .expr [.sym "System`If", .expr [.sym (if less then "System`Less" else "System`LessEqual"), written ρ a, written ρ b], written ρ t, written ρ e] := by
  show subst (sub1 ρ) _ = _
  rw [Exp.toEx, subst_head (hρ _ (by simp [taken]))]
  simp only [substL]
  rw [subst_head (hρ _ (by cases less <;> simp [taken]))]
  rfl

theorem Fp.user_conditional {f : String} {cs : List Clause} (hf : HasClauses st f cs) (ps : List Ex) : conditional (attrsOf st f) ps = none := by
  obtain ⟨d, hd, -, hna, -⟩ := hf.stored
  have : (attrsOf st f).noRearrange = true := by simpa [attrsOf, hd] using hna
  simp only [Attrs.noRearrange, Bool.and_eq_true, Bool.not_eq_true'] at this
  simp [conditional, this.2]

theorem Fp.mem_callsL {g : String} : ∀ {as : List Exp} {x : Exp}, x ∈ as → g ∈ x.calls → g ∈ Exp.callsL as
  | a :: as, x, hx, hg => by
    rw [Exp.callsL, List.mem_append]
    rcases List.mem_cons.1 hx with rfl | hx
    · exact .inl hg
    · exact .inr (mem_callsL hx hg)

theorem Fp.forever_stuck (hA : 3 ≤ A.bound) (hL : LocalsOk A.locals) (h : Installed st B P σ) {R : Store → Exp → Prop} (hR : ∀ ρ e, R ρ e → Ahead B P σ R ρ e) :
    ∀ (n : Nat) (ρ : Store) (e : Exp), Clear ρ e → R ρ e → eval (ctx A strLen fmt) n st (written ρ e) = .stuck := by
  intro n
  induction n with
  | zero => intros; rfl
  | succ n ih =>
    have val : ∀ {ρ e d p}, Clear ρ e → run B P σ d ρ e = some p → Evals (ctx A strLen fmt) st (written ρ e) st (.int p) :=
      fun hc hr => (settles (A := A) (strLen := strLen) (fmt := fmt) hA hL h _ _ _ _ hc hr).evals
    have key : ∀ k (ρ : Store) (e : Exp) ins last, Clear ρ e → R ρ e → unchanged (ctx A strLen fmt) last (written ρ e) = false →
        evalLoop (ctx A strLen fmt) n (eval (ctx A strLen fmt) n) k st ins last (written ρ e) = .stuck := by
      intro k
      induction k with
      | zero => intros; rfl
      | succ k ihk =>
        intro ρ e ins last hc hr hu
        have two : ∀ {f : String} {e1 e2 : Ex}, (f = "System`Plus" ∨ f = "System`Times" ∨ f = "System`Less" ∨ f = "System`LessEqual") → condExprArgs e1 = none → condExprArgs e2 = none →
            (eval (ctx A strLen fmt) n st e1 = .stuck ∨ (∃ v, Evals (ctx A strLen fmt) st e1 st v) ∧ eval (ctx A strLen fmt) n st e2 = .stuck) →
            (∀ k ins last, unchanged (ctx A strLen fmt) last (.expr [.sym f, e1, e2]) = false →
              evalLoop (ctx A strLen fmt) n (eval (ctx A strLen fmt) n) k st ins last (.expr [.sym f, e1, e2]) = .stuck) ∧
            eval (ctx A strLen fmt) n st (.expr [.sym f, e1, e2]) = .stuck := by
          intro f e1 e2 hf c1 c2 hs
          obtain ⟨g1, g2, g3⟩ := arith_no hf h.shell
          rcases hs with hs | ⟨hv, hs⟩
          · exact call_stuck h.shell g1 g2 (pre := []) [e2] (cond_two _ c1 c2) (g3 _) (by simp) hs
          · exact call_stuck h.shell g1 g2 (pre := [e1]) [] (cond_two _ c1 c2) (g3 _) (by simpa using hv) hs
        cases hR _ _ hr with
        | @addL a b hr' =>
          have ca : Clear ρ a := ⟨hc.1, fun g hg => hc.2 g (by simp [Exp.calls, hg])⟩
          have cb : Clear ρ b := ⟨hc.1, fun g hg => hc.2 g (by simp [Exp.calls, hg])⟩
          have e1 : written ρ (.add a b) = .expr [.sym "System`Plus", written ρ a, written ρ b] := written_two (hc.1 _ (by simp [taken])) _ _
          rw [e1] at hu ⊢
          exact (two (.inl rfl) (shape a ca).2.1 (shape b cb).2.1 (.inl (ih ρ a ca hr'))).1 _ _ _ hu
        | @addR a b d p hp hr' =>
          have ca : Clear ρ a := ⟨hc.1, fun g hg => hc.2 g (by simp [Exp.calls, hg])⟩
          have cb : Clear ρ b := ⟨hc.1, fun g hg => hc.2 g (by simp [Exp.calls, hg])⟩
          have e1 : written ρ (.add a b) = .expr [.sym "System`Plus", written ρ a, written ρ b] := written_two (hc.1 _ (by simp [taken])) _ _
          rw [e1] at hu ⊢
          exact (two (.inl rfl) (shape a ca).2.1 (shape b cb).2.1 (.inr ⟨⟨_, val ca hp⟩, ih ρ b cb hr'⟩)).1 _ _ _ hu
        | @mulL a b hr' =>
          have ca : Clear ρ a := ⟨hc.1, fun g hg => hc.2 g (by simp [Exp.calls, hg])⟩
          have cb : Clear ρ b := ⟨hc.1, fun g hg => hc.2 g (by simp [Exp.calls, hg])⟩
          have e1 : written ρ (.mul a b) = .expr [.sym "System`Times", written ρ a, written ρ b] := written_two (hc.1 _ (by simp [taken])) _ _
          rw [e1] at hu ⊢
          exact (two (.inr (.inl rfl)) (shape a ca).2.1 (shape b cb).2.1 (.inl (ih ρ a ca hr'))).1 _ _ _ hu
        | @mulR a b d p hp hr' =>
          have ca : Clear ρ a := ⟨hc.1, fun g hg => hc.2 g (by simp [Exp.calls, hg])⟩
          have cb : Clear ρ b := ⟨hc.1, fun g hg => hc.2 g (by simp [Exp.calls, hg])⟩
          have e1 : written ρ (.mul a b) = .expr [.sym "System`Times", written ρ a, written ρ b] := written_two (hc.1 _ (by simp [taken])) _ _
          rw [e1] at hu ⊢
          exact (two (.inr (.inl rfl)) (shape a ca).2.1 (shape b cb).2.1 (.inr ⟨⟨_, val ca hp⟩, ih ρ b cb hr'⟩)).1 _ _ _ hu
        | @subL a b hr' =>
          have ca : Clear ρ a := ⟨hc.1, fun g hg => hc.2 g (by simp [Exp.calls, hg])⟩
          have e1 : written ρ (.sub a b) = .expr [.sym "System`Plus", written ρ a, .expr [.sym "System`Times", written ρ b, .int (-1)]] := subst_minus hc.1 _ _
          rw [e1] at hu ⊢
          exact (two (.inl rfl) (shape a ca).2.1 rfl (.inl (ih ρ a ca hr'))).1 _ _ _ hu
        | @subR a b d p hp hr' =>
          have ca : Clear ρ a := ⟨hc.1, fun g hg => hc.2 g (by simp [Exp.calls, hg])⟩
          have cb : Clear ρ b := ⟨hc.1, fun g hg => hc.2 g (by simp [Exp.calls, hg])⟩
          have e1 : written ρ (.sub a b) = .expr [.sym "System`Plus", written ρ a, .expr [.sym "System`Times", written ρ b, .int (-1)]] := subst_minus hc.1 _ _
          rw [e1] at hu ⊢
          exact (two (.inl rfl) (shape a ca).2.1 rfl (.inr ⟨⟨_, val ca hp⟩,
            (two (.inr (.inl rfl)) (shape b cb).2.1 rfl (.inl (ih ρ b cb hr'))).2⟩)).1 _ _ _ hu
        | @testL less a b t e hr' =>
          have ca : Clear ρ a := ⟨hc.1, fun g hg => hc.2 g (by simp [Exp.calls, hg])⟩
          have cb : Clear ρ b := ⟨hc.1, fun g hg => hc.2 g (by simp [Exp.calls, hg])⟩
          have e1 := written_if hc.1 less a b t e
          rw [e1] at hu ⊢
          have hs := (two (f := if less then "System`Less" else "System`LessEqual") (by cases less <;> simp) (shape a ca).2.1 (shape b cb).2.1 (.inl (ih ρ a ca hr'))).2
          exact (call_stuck h.shell (f := "System`If") (by simp [getSymDef, h.cond, ifEntry]) (by decide) (pre := []) [written ρ t, written ρ e]
            (by simp [conditional, attrsOf, h.cond, ifEntry]) (by simp [holds, attrsOf, h.cond, ifEntry]) (by simp) hs).1 _ _ _ hu
        | @testR less a b t e d p hp hr' =>
          have ca : Clear ρ a := ⟨hc.1, fun g hg => hc.2 g (by simp [Exp.calls, hg])⟩
          have cb : Clear ρ b := ⟨hc.1, fun g hg => hc.2 g (by simp [Exp.calls, hg])⟩
          have e1 := written_if hc.1 less a b t e
          rw [e1] at hu ⊢
          have hs := (two (f := if less then "System`Less" else "System`LessEqual") (by cases less <;> simp) (shape a ca).2.1 (shape b cb).2.1
            (.inr ⟨⟨_, val ca hp⟩, ih ρ b cb hr'⟩)).2
          exact (call_stuck h.shell (f := "System`If") (by simp [getSymDef, h.cond, ifEntry]) (by decide) (pre := []) [written ρ t, written ρ e]
            (by simp [conditional, attrsOf, h.cond, ifEntry]) (by simp [holds, attrsOf, h.cond, ifEntry]) (by simp) hs).1 _ _ _ hu
        | @branch less a b t e d d' p q r hp hq hcmp hr' =>
          have ca : Clear ρ a := ⟨hc.1, fun g hg => hc.2 g (by simp [Exp.calls, hg])⟩
          have cb : Clear ρ b := ⟨hc.1, fun g hg => hc.2 g (by simp [Exp.calls, hg])⟩
          have e1 := written_if hc.1 less a b t e
          have ct : Clear ρ t := ⟨hc.1, fun g hg => hc.2 g (by simp [Exp.calls, hg])⟩
          have ce : Clear ρ e := ⟨hc.1, fun g hg => hc.2 g (by simp [Exp.calls, hg])⟩
          rw [e1] at hu ⊢
          obtain ⟨N, hN⟩ := pass_choice (A := A) (strLen := strLen) (fmt := fmt) h.shell h.cond (evals_cmp h.shell (val ca hp) (val cb hq) hcmp) (shape t ct).1 (shape e ce).1
          have hle := pass_mono (c := ctx A strLen fmt) mono (Nat.le_max_left n N) (eval_mono (c := ctx A strLen fmt) mono (Nat.le_max_left n N)) st
            [.sym "System`If", .expr [.sym (if less then "System`Less" else "System`LessEqual"), written ρ a, written ρ b], written ρ t, written ρ e]
          rw [show pass (ctx A strLen fmt) (max n N) _ st [.sym "System`If", .expr [.sym (if less then "System`Less" else "System`LessEqual"), written ρ a, written ρ b], written ρ t, written ρ e] = _
            from hN _ (Nat.le_max_right _ _)] at hle
          rcases hle with hs | hs
          · exact loop_stuck k ins hu (no_return h.shell (by decide) _) rfl hs
          · rw [evalLoop_next hu (fun _ => no_return h.shell (by decide) _) rfl hs]
            cases r with
            | true => exact ihk ρ t _ _ ct (by simpa using hr') (branch_changed (.inl rfl))
            | false => exact ihk ρ e _ _ ce (by simpa using hr') (branch_changed (.inr rfl))
        | @arg f qs pre a post hqs hpre hr' =>
          have hf0 := hc.2 f (by simp [Exp.calls])
          have cl : ∀ x ∈ pre ++ a :: post, Clear ρ x := fun x hx => ⟨hc.1, fun g hg => hc.2 g (by simp only [Exp.calls, List.mem_cons]; exact .inr (mem_callsL hx hg))⟩
          obtain ⟨hcs, hnh⟩ := h.stored f qs hqs
          have e1 : written ρ (.call f (pre ++ a :: post)) = .expr (.sym f :: (pre.map (written ρ) ++ written ρ a :: post.map (written ρ))) := by
            rw [written_call hf0.2]; simp
          rw [e1] at hu ⊢
          refine (call_stuck h.shell (clauses_value hcs.rules) (by rintro rfl; exact hf0.1 (by simp [taken])) _ (by rw [user_conditional hcs]) (hnh _) ?_
            (ih ρ a (cl a (by simp)) hr')).1 _ _ _ hu
          intro x hx
          obtain ⟨y, hy, rfl⟩ := List.mem_map.1 hx
          obtain ⟨d, v, hv⟩ := hpre y hy
          exact ⟨_, val (cl y (by simp [hy])) hv⟩
        | @body f qs args d vs q hvs hqs hlen hq hr' hne =>
          have hf0 := hc.2 f (by simp [Exp.calls])
          obtain ⟨N, hN⟩ := pass_user (A := A) (strLen := strLen) (fmt := fmt) hA hL h hc hvs hqs hlen hq
          have e1 := written_call hf0.2 args
          rw [e1] at hu hne ⊢
          have hc' := clear_body h hqs (find_pick (B := B) qs q (fun q hq => h.literals f qs hqs q hq) hq).1 vs
          have hle := pass_mono (c := ctx A strLen fmt) mono (Nat.le_max_left n N) (eval_mono (c := ctx A strLen fmt) mono (Nat.le_max_left n N)) st
            (.sym f :: args.map (written ρ))
          rw [hN _ (Nat.le_max_right _ _)] at hle
          have hnr := no_return h.shell (g := f) (by rintro rfl; exact hf0.1 (by simp [taken])) (args.map (written ρ))
          rcases hle with hs | hs
          · exact loop_stuck k ins hu hnr rfl hs
          · rw [evalLoop_next hu (fun _ => hnr) rfl hs]
            refine ihk _ _ _ _ hc' hr' ?_
            simp only [unchanged, ctx, Option.map_some, Option.getD_some, decide_eq_false_iff_not]
            exact fun h => hne h.symm
    intro ρ e hc hr
    have : ∃ ps, written ρ e = .expr ps := by
      cases hR _ _ hr with
      | addL | addR => exact ⟨_, written_two (hc.1 _ (by simp [taken])) _ _⟩
      | mulL | mulR => exact ⟨_, written_two (hc.1 _ (by simp [taken])) _ _⟩
      | subL | subR => exact ⟨_, subst_minus hc.1 _ _⟩
      | testL | testR | branch => exact ⟨_, written_if hc.1 _ _ _ _ _⟩
      | arg | body => exact ⟨_, written_call (hc.2 _ (by simp [Exp.calls])).2 _⟩
    obtain ⟨ps, hps⟩ := this
    have := key (n + 1) ρ e false none hc hr (by simp [unchanged])
    rw [hps] at this ⊢
    rw [eval_expr]
    exact this

/-- C124: An expression that by its definitions never gets a value is never finished. -/
theorem C124_forever (hA : 3 ≤ A.bound) (hL : LocalsOk A.locals) (h : Installed st B P σ) {e : Exp} (hn : ∀ f ∈ e.calls, f ∉ taken) (hf : Forever B P σ (fun _ => none) e) :
    Diverges (ctx A strLen fmt) st e.toEx := by
  obtain ⟨R, hR, hr⟩ := hf
  intro n
  have := forever_stuck (A := A) (strLen := strLen) (fmt := fmt) hA hL h hR n (fun _ => none) e ⟨fun _ _ => rfl, fun g hg => ⟨hn g hg, rfl⟩⟩ hr
  rwa [written_none] at this

/-- C124: A call of which the body is literally the same call is given back. -/
theorem C124_given_back (hA : 3 ≤ A.bound) (hL : LocalsOk A.locals) (h : Installed st B P σ) {f : String} (hn : f ∉ taken) {vs : List Int} {qs : List Eqn} (hP : P f = some qs)
    (hl : ∀ q ∈ qs, q.args.length = vs.length) {q : Eqn} (hq : Fp.pick B vs qs = some q) (hsame : written (params q.args vs) q.body = app f (vs.map Ex.int)) :
    Evals (ctx A strLen fmt) st (app f (vs.map Ex.int)) st (app f (vs.map Ex.int)) := by
  have hc : Clear (fun _ => none) (.call f (vs.map Exp.lit)) := by
    refine ⟨fun _ _ => rfl, fun g hg => ⟨?_, rfl⟩⟩
    have : ∀ vs : List Int, Exp.callsL (vs.map Exp.lit) = [] := by
      intro vs; induction vs with
      | nil => rfl
      | cons v vs ih => simp [Exp.callsL, Exp.calls, ih]
    rw [Exp.calls, this, List.mem_singleton] at hg
    subst hg; exact hn
  have hargs : (vs.map Exp.lit).mapM (run B P σ 1 (fun _ => none)) = some vs := by
    clear hl hq hsame hc
    induction vs with
    | nil => rfl
    | cons v vs ih => rw [List.map_cons, List.mapM_cons, ih]; rfl
  obtain ⟨N, hN⟩ := pass_user (A := A) (strLen := strLen) (fmt := fmt) hA hL h hc hargs hP hl hq
  have e1 : (vs.map Exp.lit).map (written fun _ => none) = vs.map Ex.int := by
    rw [List.map_map]
    exact List.map_congr_left (fun v _ => rfl)
  rw [e1, hsame] at hN
  refine ⟨N + 2, ?_⟩
  rw [app, eval_expr, evalLoop_next (by simp [unchanged]) (by simp) rfl (hN _ (by omega))]
  exact evalLoop_same (by simp [unchanged, app, same_refl'])

/-! ### Values of programs, without depths -/

theorem Fp.run_succ : ∀ (d : Nat) (ρ : Store) (e : Exp) (n : Int), run B P σ d ρ e = some n → run B P σ (d + 1) ρ e = some n := by
  intro d
  induction d with
  | zero => intro ρ e n h; simp [run] at h
  | succ d ih =>
    intro ρ e n h
    have list : ∀ (as : List Exp) (vs : List Int), as.mapM (run B P σ d ρ) = some vs → as.mapM (run B P σ (d + 1) ρ) = some vs := by
      intro as
      induction as with
      | nil => intro vs hv; simpa using hv
      | cons a as ih' =>
        intro vs hv
        simp only [List.mapM_cons, Option.pure_def, Option.bind_eq_bind, Option.bind_eq_some_iff, Option.some.injEq] at hv ⊢
        obtain ⟨w, hw, ws, hws, rfl⟩ := hv
        exact ⟨w, ih _ _ _ hw, ws, ih' _ hws, rfl⟩
    cases e with
    | lit m => simpa [run] using h
    | var x => simpa [run] using h
    | add a b | mul a b | sub a b =>
      rw [run] at h ⊢
      simp only [Option.pure_def, Option.bind_eq_bind, Option.bind_eq_some_iff, Option.some.injEq] at h ⊢
      obtain ⟨p, hp, q, hq, rfl⟩ := h
      exact ⟨p, ih _ _ _ hp, q, ih _ _ _ hq, rfl⟩
    | ite less a b t e =>
      rw [run] at h ⊢
      simp only [Option.bind_eq_bind, Option.bind_eq_some_iff] at h ⊢
      obtain ⟨p, hp, q, hq, r, hr, hb⟩ := h
      refine ⟨p, ih _ _ _ hp, q, ih _ _ _ hq, r, hr, ?_⟩
      cases r with
      | true => simpa using ih _ _ _ (by simpa using hb)
      | false => simpa using ih _ _ _ (by simpa using hb)
    | call f args =>
      rw [run] at h ⊢
      simp only [Option.bind_eq_bind, Option.bind_eq_some_iff] at h ⊢
      obtain ⟨vs, hvs, qs, hqs, hb⟩ := h
      refine ⟨vs, list _ _ hvs, qs, hqs, ?_⟩
      split at hb
      case isFalse => cases hb
      case isTrue hl =>
      rw [if_pos hl]
      obtain ⟨q, hq, hb⟩ := Option.bind_eq_some_iff.1 hb
      exact Option.bind_eq_some_iff.2 ⟨q, hq, ih _ _ _ hb⟩

theorem Fp.run_mono {d d' : Nat} (hd : d ≤ d') {ρ : Store} {e : Exp} {n : Int} (h : run B P σ d ρ e = some n) : run B P σ d' ρ e = some n := by
  induction hd with
  | refl => exact h
  | step _ ih => exact run_succ _ _ _ _ ih

/-- The expression has this value. -/
def Fp.Val (B : Int) (P : Program) (σ ρ : Store) (e : Exp) (n : Int) : Prop := ∃ d, run B P σ d ρ e = some n

theorem Fp.val_lit (n : Int) : Val B P σ ρ (.lit n) n := ⟨1, rfl⟩
theorem Fp.val_var {x : String} {n : Int} (h : over ρ σ x = some n) : Val B P σ ρ (.var x) n := ⟨1, h⟩
theorem Fp.val_add {a b : Exp} {p q : Int} (h1 : Val B P σ ρ a p) (h2 : Val B P σ ρ b q) : Val B P σ ρ (.add a b) (p + q) := by
  obtain ⟨d1, h1⟩ := h1; obtain ⟨d2, h2⟩ := h2
  exact ⟨max d1 d2 + 1, by simp [run, run_mono (Nat.le_max_left d1 d2) h1, run_mono (Nat.le_max_right d1 d2) h2]⟩
theorem Fp.val_mul {a b : Exp} {p q : Int} (h1 : Val B P σ ρ a p) (h2 : Val B P σ ρ b q) : Val B P σ ρ (.mul a b) (p * q) := by
  obtain ⟨d1, h1⟩ := h1; obtain ⟨d2, h2⟩ := h2
  exact ⟨max d1 d2 + 1, by simp [run, run_mono (Nat.le_max_left d1 d2) h1, run_mono (Nat.le_max_right d1 d2) h2]⟩
theorem Fp.val_sub {a b : Exp} {p q : Int} (h1 : Val B P σ ρ a p) (h2 : Val B P σ ρ b q) : Val B P σ ρ (.sub a b) (p - q) := by
  obtain ⟨d1, h1⟩ := h1; obtain ⟨d2, h2⟩ := h2
  exact ⟨max d1 d2 + 1, by simp [run, run_mono (Nat.le_max_left d1 d2) h1, run_mono (Nat.le_max_right d1 d2) h2]⟩
theorem Fp.val_if {less : Bool} {a b t e : Exp} {p q n : Int} {r : Bool} (h1 : Val B P σ ρ a p) (h2 : Val B P σ ρ b q) (hc : compare less p q = some r)
    (h3 : Val B P σ ρ (if r then t else e) n) : Val B P σ ρ (.ite less a b t e) n := by
  obtain ⟨d1, h1⟩ := h1; obtain ⟨d2, h2⟩ := h2; obtain ⟨d3, h3⟩ := h3
  refine ⟨max (max d1 d2) d3 + 1, ?_⟩
  rw [run, run_mono (by omega) h1, run_mono (by omega) h2]
  have := run_mono (d' := max (max d1 d2) d3) (by omega) h3
  cases r <;> simpa [hc] using this
theorem Fp.val_call {f : String} {args : List Exp} {vs : List Int} {qs : List Eqn} {q : Eqn} {n : Int} (ha : List.Forall₂ (Val B P σ ρ) args vs) (hf : P f = some qs)
    (hl : ∀ q ∈ qs, q.args.length = vs.length) (hq : pick B vs qs = some q) (hb : Val B P σ (params q.args vs) q.body n) : Val B P σ ρ (.call f args) n := by
  have : ∃ d, args.mapM (run B P σ d ρ) = some vs := by
    clear hl hq hb
    induction ha with
    | nil => exact ⟨0, rfl⟩
    | @cons a v as vs h1 _ ih =>
      obtain ⟨d1, h1⟩ := h1
      obtain ⟨d2, h2⟩ := ih
      have up : ∀ (as : List Exp) (vs : List Int), as.mapM (run B P σ d2 ρ) = some vs → as.mapM (run B P σ (max d1 d2) ρ) = some vs := by
        intro as
        induction as with
        | nil => intro vs hv; simpa using hv
        | cons a as ih' =>
          intro vs hv
          simp only [List.mapM_cons, Option.pure_def, Option.bind_eq_bind, Option.bind_eq_some_iff, Option.some.injEq] at hv ⊢
          obtain ⟨w, hw, ws, hws, rfl⟩ := hv
          exact ⟨w, run_mono (Nat.le_max_right d1 d2) hw, ws, ih' _ hws, rfl⟩
      exact ⟨max d1 d2, by simp [List.mapM_cons, run_mono (Nat.le_max_left d1 d2) h1, up _ _ h2]⟩
  obtain ⟨d1, h1⟩ := this
  obtain ⟨d2, h2⟩ := hb
  refine ⟨max d1 d2 + 1, ?_⟩
  have up : ∀ (as : List Exp) (vs : List Int), as.mapM (run B P σ d1 ρ) = some vs → as.mapM (run B P σ (max d1 d2) ρ) = some vs := by
    intro as
    induction as with
    | nil => intro vs hv; simpa using hv
    | cons a as ih' =>
      intro vs hv
      simp only [List.mapM_cons, Option.pure_def, Option.bind_eq_bind, Option.bind_eq_some_iff, Option.some.injEq] at hv ⊢
      obtain ⟨w, hw, ws, hws, rfl⟩ := hv
      exact ⟨w, run_mono (Nat.le_max_left d1 d2) hw, ws, ih' _ hws, rfl⟩
  have hl' : (qs.all (fun q => decide (q.args.length = vs.length))) = true := by simpa using hl
  rw [run, up _ _ h1, hf]
  simp only [Option.bind_eq_bind, Option.bind_some, hl', if_true, hq]
  exact run_mono (Nat.le_max_right d1 d2) h2

/-- A function of one argument with one definition. -/
theorem Fp.val_call1 {f x : String} {body : Exp} (hf : P f = some [⟨[.any x], body⟩]) {a : Exp} {v n : Int} (ha : Val B P σ ρ a v)
    (hb : Val B P σ (params [.any x] [v]) body n) : Val B P σ ρ (.call f [a]) n :=
  val_call (.cons ha .nil) hf (by simp) (q := ⟨[.any x], body⟩) (by simp [pick, fitAll, fits]) hb

/-! ### Ackermann's function, McCarthy's function, and functions that call each other -/

/-- `f[0, n_] := n + 1; f[m_, 0] := f[m - 1, 1]; f[m_, n_] := f[m - 1, f[m, n - 1]]`. -/
def Fp.ackEqns (f m n : String) : List Eqn :=
  [⟨[.lit 0, .any n], .add (.var n) (.lit 1)⟩,
   ⟨[.any m, .lit 0], .call f [.sub (.var m) (.lit 1), .lit 1]⟩,
   ⟨[.any m, .any n], .call f [.sub (.var m) (.lit 1), .call f [.var m, .sub (.var n) (.lit 1)]]⟩]

theorem Fp.ack_val {f x y : String} (hxy : x ≠ y) (hP : P f = some (ackEqns f x y)) : ∀ (m n : Nat) (ρ : Store) (a b : Exp), (ack m n : Int) ≤ B → Val B P σ ρ a m → Val B P σ ρ b n →
    Val B P σ ρ (.call f [a, b]) (ack m n)
  | 0, n, ρ, a, b, hB, ha, hb => by
    refine val_call (.cons ha (.cons hb .nil)) hP (by simp [ackEqns]) (q := ⟨[.lit 0, .any y], .add (.var y) (.lit 1)⟩) (by simp [ackEqns, pick, fitAll, fits]) ?_
    rw [ack_zero]
    exact val_add (val_var (n := n) (by simp [over, params])) (val_lit 1)
  | m + 1, 0, ρ, a, b, hB, ha, hb => by
    have hm : |((m + 1 : Nat) : Int)| ≤ B := by
      have : m + 1 < ack (m + 1) 0 := lt_ack_left _ _
      rw [abs_of_nonneg (by omega)]; omega
    refine val_call (.cons ha (.cons hb .nil)) hP (by simp [ackEqns]) (q := ⟨[.any x, .lit 0], .call f [.sub (.var x) (.lit 1), .lit 1]⟩) ?_ ?_
    · have : ((m + 1 : Nat) : Int) ≠ 0 := by omega
      simp only [ackEqns, pick, fitAll, fits, if_neg this, if_pos hm]
      simp
    rw [ack_succ_zero] at hB ⊢
    refine ack_val hxy hP m 1 _ _ _ hB ?_ (val_lit 1)
    have := val_sub (B := B) (P := P) (σ := σ) (ρ := params [.any x, .lit 0] [((m + 1 : Nat) : Int), ((0 : Nat) : Int)]) (val_var (x := x) (n := ((m + 1 : Nat) : Int)) (by simp [over, params])) (val_lit 1)
    rwa [show ((m + 1 : Nat) : Int) - 1 = m by omega] at this
  | m + 1, n + 1, ρ, a, b, hB, ha, hb => by
    have hm : |((m + 1 : Nat) : Int)| ≤ B := by
      have : m + 1 < ack (m + 1) (n + 1) := lt_ack_left _ _
      rw [abs_of_nonneg (by omega)]; omega
    have hn : |((n + 1 : Nat) : Int)| ≤ B := by
      have : n + 1 < ack (m + 1) (n + 1) := lt_ack_right _ _
      rw [abs_of_nonneg (by omega)]; omega
    refine val_call (.cons ha (.cons hb .nil)) hP (by simp [ackEqns]) (q := ⟨[.any x, .any y], .call f [.sub (.var x) (.lit 1), .call f [.var x, .sub (.var y) (.lit 1)]]⟩) ?_ ?_
    · have h1 : ((m + 1 : Nat) : Int) ≠ 0 := by omega
      have h2 : ((n + 1 : Nat) : Int) ≠ 0 := by omega
      simp only [ackEqns, pick, fitAll, fits, if_neg h1, if_neg h2, if_pos hm, if_pos hn]
    have vx : Val B P σ (params [.any x, .any y] [((m + 1 : Nat) : Int), ((n + 1 : Nat) : Int)]) (.var x) ((m + 1 : Nat) : Int) := val_var (by simp [over, params])
    have vy : Val B P σ (params [.any x, .any y] [((m + 1 : Nat) : Int), ((n + 1 : Nat) : Int)]) (.var y) ((n + 1 : Nat) : Int) := val_var (by simp [over, params, hxy.symm])
    rw [ack_succ_succ] at hB ⊢
    have hB' : ((ack (m + 1) n : Nat) : Int) ≤ B := by
      have : ack (m + 1) n < ack m (ack (m + 1) n) := lt_ack_right _ _
      omega
    refine ack_val hxy hP m (ack (m + 1) n) _ _ _ hB ?_ (ack_val hxy hP (m + 1) n _ _ _ hB' vx ?_)
    · have := val_sub vx (val_lit 1)
      rwa [show ((m + 1 : Nat) : Int) - 1 = m by omega] at this
    · have := val_sub vy (val_lit 1)
      rwa [show ((n + 1 : Nat) : Int) - 1 = n by omega] at this

/-- C124: The usual definition of Ackermann's function computes it. -/
theorem C124_ackermann_partial (hA : 3 ≤ A.bound) (hL : LocalsOk A.locals) (h : Installed st B P σ) {f x y : String} (hf : f ∉ taken) (hxy : x ≠ y) (hP : P f = some (ackEqns f x y)) (m n : Nat)
    (hB : (ack m n : Int) ≤ B) : Evals (ctx A strLen fmt) st (app f [.int m, .int n]) st (.int (ack m n)) := by
  obtain ⟨d, hd⟩ := ack_val (B := B) (P := P) (σ := σ) hxy hP m n (fun _ => none) (.lit m) (.lit n) hB (val_lit _) (val_lit _)
  exact C124_value_partial hA hL h (e := .call f [.lit m, .lit n]) (by simp [Exp.calls, Exp.callsL, hf]) hd

/-- `f[n_] := If[100 < n, n - 10, f[f[n + 11]]]`. -/
def Fp.mccarthy (f n : String) : List Eqn := [⟨[.any n], .ite true (.lit 100) (.var n) (.sub (.var n) (.lit 10)) (.call f [.call f [.add (.var n) (.lit 11)]])⟩]

theorem Fp.mccarthy_val {f x : String} (hP : P f = some (mccarthy f x)) : ∀ (k : Nat) (n : Int), n = 101 - k → -2 ^ 53 ≤ n → ∀ (ρ : Store) (a : Exp), Val B P σ ρ a n →
    Val B P σ ρ (.call f [a]) 91 := by
  have above : ∀ (n : Int), 100 < n → n ≤ 2 ^ 53 → ∀ (ρ : Store) (a : Exp), Val B P σ ρ a n → Val B P σ ρ (.call f [a]) (n - 10) := by
    intro n hn hn' ρ a ha
    refine val_call1 hP ha ?_
    refine val_if (r := true) (val_lit 100) (val_var (n := n) (by simp [over, params])) ?_ (val_sub (val_var (by simp [over, params])) (val_lit 10))
    have h1 : |(100 : Int)| ≤ 2 ^ 53 := by norm_num
    have h2 : |n| ≤ 2 ^ 53 := by rw [abs_of_nonneg (by omega)]; exact hn'
    rw [compare, if_pos ⟨h1, h2⟩]
    simp [hn]
  intro k
  induction k using Nat.strong_induction_on with
  | _ k ih =>
  intro n hk hlow ρ a ha
  by_cases hz : k = 0
  · subst hz
    have := above n (by omega) (by omega) ρ a ha
    rwa [show n - 10 = 91 by omega] at this
  refine val_call1 hP ha ?_
  have vx : Val B P σ (params [.any x] [n]) (.var x) n := val_var (by simp [over, params])
  refine val_if (r := false) (val_lit 100) vx ?_ ?_
  · have h1 : |(100 : Int)| ≤ 2 ^ 53 := by norm_num
    have h2 : |n| ≤ 2 ^ 53 := by rw [abs_le]; constructor <;> omega
    have h3 : ¬ (100 < n) := by omega
    rw [compare, if_pos ⟨h1, h2⟩]
    simp [h3]
  by_cases h90 : 90 ≤ n
  · refine ih (k - 1) (by omega) (n + 1) (by omega) (by omega) _ _ ?_
    have := above (n + 11) (by omega) (by omega) _ _ (val_add vx (val_lit 11))
    rwa [show n + 11 - 10 = n + 1 by omega] at this
  · exact ih 10 (by omega) 91 (by norm_num) (by norm_num) _ _ (ih (k - 11) (by omega) (n + 11) (by omega) (by omega) _ _ (val_add vx (val_lit 11)))

/-- C124: McCarthy's function gives 91 for every integer up to 101 (down to -2^53). -/
theorem C124_mccarthy_partial (hA : 3 ≤ A.bound) (hL : LocalsOk A.locals) (h : Installed st B P σ) {f x : String} (hf : f ∉ taken) (hP : P f = some (mccarthy f x)) {n : Int}
    (hn : n ≤ 101) (hlow : -2 ^ 53 ≤ n) : Evals (ctx A strLen fmt) st (app f [.int n]) st (.int 91) := by
  obtain ⟨d, hd⟩ := mccarthy_val (B := B) (P := P) (σ := σ) hP (101 - n).toNat n (by omega) hlow (fun _ => none) (.lit n) (val_lit _)
  exact C124_value_partial hA hL h (e := .call f [.lit n]) (by simp [Exp.calls, Exp.callsL, hf]) hd

/-- `f[n_] := If[n <= 0, c, g[n - 1]]`. -/
def Fp.turn (c : Int) (g n : String) : List Eqn := [⟨[.any n], .ite false (.var n) (.lit 0) (.lit c) (.call g [.sub (.var n) (.lit 1)])⟩]

theorem Fp.turn_val {f g x : String} (hf : P f = some (turn 1 g x)) (hg : P g = some (turn 0 f x)) : ∀ (n : Nat), n ≤ 2 ^ 53 → ∀ (ρ : Store) (a : Exp), Val B P σ ρ a n →
    Val B P σ ρ (.call f [a]) (if Even n then 1 else 0) ∧ Val B P σ ρ (.call g [a]) (if Even n then 0 else 1) := by
  have h0 : |(0 : Int)| ≤ 2 ^ 53 := by norm_num
  intro n
  induction n with
  | zero =>
    intro _ ρ a ha
    constructor
    · refine val_call1 hf ha ?_
      exact val_if (r := true) (val_var (n := 0) (by simp [over, params])) (val_lit 0) (by simp [compare]) (val_lit 1)
    · refine val_call1 hg ha ?_
      exact val_if (r := true) (val_var (n := 0) (by simp [over, params])) (val_lit 0) (by simp [compare]) (val_lit 0)
  | succ n ih =>
    intro hn ρ a ha
    have hx : |((n + 1 : Nat) : Int)| ≤ 2 ^ 53 := by rw [abs_of_nonneg (by omega)]; exact_mod_cast hn
    have hc : compare false ((n + 1 : Nat) : Int) 0 = some false := by
      have : ¬ (((n + 1 : Nat) : Int) ≤ 0) := by omega
      simp only [compare, if_pos (And.intro hx h0)]
      simp [this]
    have hsub : Val B P σ (params [.any x] [((n + 1 : Nat) : Int)]) (.sub (.var x) (.lit 1)) n := by
      have := val_sub (B := B) (P := P) (σ := σ) (ρ := params [.any x] [((n + 1 : Nat) : Int)]) (val_var (x := x) (n := ((n + 1 : Nat) : Int)) (by simp [over, params])) (val_lit 1)
      rwa [show ((n + 1 : Nat) : Int) - 1 = n by omega] at this
    obtain ⟨i1, i2⟩ := ih (by omega) _ _ hsub
    have even : ∀ a b : Int, (if Even (n + 1) then a else b) = if Even n then b else a := by
      intro a b
      simp only [Nat.even_add_one]
      by_cases h : Even n <;> simp [h]
    rw [even, even]
    constructor
    · refine val_call1 hf ha ?_
      exact val_if (r := false) (val_var (by simp [over, params])) (val_lit 0) hc i2
    · refine val_call1 hg ha ?_
      exact val_if (r := false) (val_var (by simp [over, params])) (val_lit 0) hc i1

/-- C124: `f[n_] := If[n <= 0, 1, g[n - 1]]; g[n_] := If[n <= 0, 0, f[n - 1]]` tell even from odd numbers. -/
theorem C124_mutual_partial (hA : 3 ≤ A.bound) (hL : LocalsOk A.locals) (h : Installed st B P σ) {f g x : String} (hn1 : f ∉ taken) (hn2 : g ∉ taken) (hf : P f = some (turn 1 g x))
    (hg : P g = some (turn 0 f x)) {n : Nat} (hn : n ≤ 2 ^ 53) :
    Evals (ctx A strLen fmt) st (app f [.int n]) st (.int (if Even n then 1 else 0)) ∧ Evals (ctx A strLen fmt) st (app g [.int n]) st (.int (if Even n then 0 else 1)) := by
  obtain ⟨⟨d1, h1⟩, ⟨d2, h2⟩⟩ := turn_val (B := B) (P := P) (σ := σ) hf hg n hn (fun _ => none) (.lit n) (val_lit _)
  exact ⟨C124_value_partial hA hL h (e := .call f [.lit n]) (by simp [Exp.calls, Exp.callsL, hn1]) h1,
    C124_value_partial hA hL h (e := .call g [.lit n]) (by simp [Exp.calls, Exp.callsL, hn2]) h2⟩

/-- C124: with `f[n_] := f[n + 1]` the call `f[n]` is never finished. -/
theorem C124_climbing (hA : 3 ≤ A.bound) (hL : LocalsOk A.locals) (h : Installed st B P σ) {f x : String} (hf : f ∉ taken)
    (hP : P f = some [⟨[.any x], .call f [.add (.var x) (.lit 1)]⟩]) (n : Int) : Diverges (ctx A strLen fmt) st (app f [.int n]) := by
  have hx := h.names f _ hP ⟨[.any x], .call f [.add (.var x) (.lit 1)]⟩ (by simp) x (by simp)
  have hxf : x ≠ f := by rintro rfl; exact hx.2 (by simp [Exp.calls])
  have hxp : x ≠ "System`Plus" := by rintro rfl; exact hx.1 (by simp [taken])
  refine C124_forever hA hL h (e := .call f [.lit n]) (by simp [Exp.calls, Exp.callsL, hf])
    ⟨fun ρ e => ∃ a m, e = .call f [a] ∧ Val B P σ ρ a m ∧ (a = .lit m ∨ a = .add (.var x) (.lit 1) ∧ ∃ k, ρ = params [.any x] [k]), ?_, .lit n, n, rfl, val_lit n, .inl rfl⟩
  rintro ρ e ⟨a, m, rfl, ⟨d, hd⟩, hform⟩
  have hargs : [a].mapM (run B P σ d ρ) = some [m] := by simp [List.mapM_cons, hd]
  refine .body hargs hP (q := ⟨[.any x], .call f [.add (.var x) (.lit 1)]⟩) (fun q hq => by rw [List.mem_singleton] at hq; subst hq; rfl) ?_ ?_ ?_
  · show Fp.pick B [m] [_] = _
    simp [Fp.pick, fitAll, fits]
  · exact ⟨_, m + 1, rfl, val_add (val_var (n := m) (by simp [over, params])) (val_lit 1), .inr ⟨rfl, m, rfl⟩⟩
  · rcases hform with rfl | ⟨rfl, k, rfl⟩
    · simp [written, Exp.toEx, Exp.toExL, subst, substL, params, hxf.symm, hxp.symm]
    · simp only [written, Exp.toEx, Exp.toExL, subst, substL, params, hxf.symm, hxp.symm, if_false, if_true, Option.map_some, Option.map_none]
      intro he
      simp at he
      subst he
      have : run B P σ d (params [.any x] [m]) (.add (.var x) (.lit 1)) = some (m + 1) := by
        obtain ⟨d', hd'⟩ := val_add (B := B) (P := P) (σ := σ) (ρ := params [.any x] [m]) (val_var (x := x) (n := m) (by simp [over, params])) (val_lit 1)
        have h1 := run_mono (Nat.le_max_left d d') hd
        rw [run_mono (Nat.le_max_right d d') hd'] at h1
        obtain h1 := Option.some.inj h1
        omega
      rw [hd] at this
      have := Option.some.inj this
      omega

/-! ### A session -/

/-- The program with these functions. -/
def Fp.table (fs : List (String × List Eqn)) : Program := fun f => (fs.find? (fun p => p.1 = f)).map Prod.snd

/-- The definitions as they are stored. -/
def Fp.defOf (f : String) (qs : List Eqn) : DefM := { downvalues := qs.map (fun q => { lhs := held (.expr (.sym f :: q.args.map ArgPat.toEx)), rhs := q.body.toEx }) }

/-- A session with these functions. -/
def Fp.sessionOf (fs : List (String × List Eqn)) : EState :=
  { sessionIf [] [] [] with defs := fun s => match table fs s with
      | some qs => some (defOf s qs)
      | none => (sessionIf [] [] []).defs s }

/-- The functions have names of their own, and so have their parameters. -/
def Fp.Named (fs : List (String × List Eqn)) : Prop :=
  ∀ p ∈ fs, p.1 ∉ taken ∧ p.1 ∉ CallMatch.specialHeads ∧ (∀ q ∈ entries, p.1 ≠ q.1) ∧ p.1 ∉ ["System`True", "System`False", "System`Null", "System`List", "System`If"] ∧
    ∀ q ∈ p.2, (∀ g ∈ q.body.calls, g ∉ taken) ∧ (q.args.filterMap ArgPat.name?).Nodup ∧ ∀ x ∈ q.args.filterMap ArgPat.name?, x ∉ taken ∧ x ∉ q.body.calls

theorem Fp.table_mem {fs : List (String × List Eqn)} {f : String} {qs : List Eqn} (h : table fs f = some qs) : (f, qs) ∈ fs := by
  obtain ⟨p, hp, rfl⟩ := Option.map_eq_some_iff.1 h
  have h1 := List.mem_of_find?_eq_some hp
  have h2 := List.find?_some hp
  simp only [decide_eq_true_eq] at h2
  rw [← h2]
  exact h1

theorem Fp.sessionOf_installed {fs : List (String × List Eqn)} (hn : Named fs)
    (hl : ∀ p ∈ fs, ∀ q ∈ p.2, ∀ c, ArgPat.lit c ∈ q.args → ∀ v : Int, |v| ≤ B → v ≠ c → isSameQ (.int v) (.int c) = false) :
    Installed (sessionOf fs) B (table fs) (fun _ => none) := by
  have other : ∀ s, (∀ p ∈ fs, p.1 ≠ s) → (sessionOf fs).defs s = (sessionIf [] [] []).defs s := by
    intro s hs
    have : table fs s = none := by
      cases ht : table fs s with
      | none => rfl
      | some qs => exact absurd rfl (hs _ (table_mem ht))
    simp [sessionOf, this]
  have base := sessionIf_shell [] [] []
  have noval : ∀ s ∈ ["System`True", "System`False", "System`Null", "System`List", "System`If"], ∀ p ∈ fs, p.1 ≠ s := by
    rintro s hs p hp rfl
    exact (hn p hp).2.2.2.1 hs
  have hlist := other "System`List" (noval _ (by simp))
  refine ⟨⟨?_, ?_, ?_, rfl, rfl, rfl⟩, ?_, by simp, ?_, ?_, ?_, ?_⟩
  · intro e he
    rw [other e.1 (fun p hp h => (hn p hp).2.2.1 e he h)]
    exact base.entry e he
  · intro s hs
    have := base.noValue s hs
    simp only [getSymDef] at this ⊢
    rwa [other s (noval s (by simp at hs ⊢; tauto))]
  · refine ⟨?_, ?_, ?_⟩
    · have := base.list.1; simp only [hasBuiltin] at this ⊢; rwa [hlist]
    · have := base.list.2.1; simp only [attrsOf] at this ⊢; rwa [hlist]
    · have := base.list.2.2; simp only [rulesFor] at this ⊢; rwa [hlist]
  · rw [other _ (noval _ (by simp))]; simp [sessionIf, Table.set]
  · intro f qs hf
    have hm := table_mem hf
    have hd : (sessionOf fs).defs f = some (defOf f qs) := by simp [sessionOf, hf]
    refine ⟨⟨⟨_, hd, rfl, rfl, ?_⟩, (hn _ hm).2.1, ?_⟩, ?_⟩
    · simp [defOf, Eqn.toClause, held]
    · intro cl hcl
      obtain ⟨q, hq, rfl⟩ := List.mem_map.1 hcl
      exact ((hn _ hm).2.2.2.2 q hq).2.1
    · intro i; simp [holds, attrsOf, hd, defOf]
  · exact fun f qs hf q hq => ((hn _ (table_mem hf)).2.2.2.2 q hq).1
  · intro f qs hf q hq x hx
    exact ((hn _ (table_mem hf)).2.2.2.2 q hq).2.2 x (List.mem_filterMap.2 ⟨_, hx, rfl⟩)
  · exact fun f qs hf q hq => hl _ (table_mem hf) q hq

/-- C124, concrete: a session with Ackermann's function; `a[2, 3]` is 9. -/
example (hA : 3 ≤ A.bound) (hL : LocalsOk A.locals) : Evals (ctx A strLen fmt) (sessionOf [("Global`a", ackEqns "Global`a" "Global`m" "Global`n")])
    (app "Global`a" [.int 2, .int 3]) (sessionOf [("Global`a", ackEqns "Global`a" "Global`m" "Global`n")]) (.int 9) := by
  have hI : Installed (sessionOf [("Global`a", ackEqns "Global`a" "Global`m" "Global`n")]) 10 (table [("Global`a", ackEqns "Global`a" "Global`m" "Global`n")]) (fun _ => none) := by
    refine sessionOf_installed ?_ ?_
    · intro p hp
      rw [List.mem_singleton] at hp
      subst hp
      refine ⟨by decide, by decide, by decide, by decide, ?_⟩
      intro q hq
      simp only [ackEqns, List.mem_cons, List.not_mem_nil, or_false] at hq
      rcases hq with rfl | rfl | rfl
      · exact ⟨by simp [Exp.calls], by decide, by simp [ArgPat.name?, Exp.calls, taken]⟩
      · exact ⟨by simp [Exp.calls, Exp.callsL, taken], by decide, by simp [ArgPat.name?, Exp.calls, Exp.callsL, taken]⟩
      · exact ⟨by simp [Exp.calls, Exp.callsL, taken], by decide, by simp [ArgPat.name?, Exp.calls, Exp.callsL, taken]⟩
    · intro p hp q hq c hc v hv hne
      rw [List.mem_singleton] at hp
      subst hp
      have : c = 0 := by
        simp only [ackEqns, List.mem_cons, List.not_mem_nil, or_false] at hq
        rcases hq with rfl | rfl | rfl <;> simpa using hc
      subst this
      rw [abs_le] at hv
      obtain ⟨h1, h2⟩ := hv
      have all : ∀ k ∈ List.range 21, (k : Int) - 10 ≠ 0 → isSameQ (.int ((k : Int) - 10)) (.int 0) = false := by decide +kernel
      have := all (v + 10).toNat (by simp; omega)
      rw [show (((v + 10).toNat : Nat) : Int) - 10 = v by omega] at this
      exact this hne
  have hack : ack 2 3 = 9 := by simp
  have := C124_ackermann_partial (strLen := strLen) (fmt := fmt) hA hL hI (f := "Global`a") (x := "Global`m") (y := "Global`n") (by decide) (by decide) (by simp [table]) 2 3 (by rw [hack]; norm_num)
  rw [hack] at this
  exact this

end
end Expreduce
