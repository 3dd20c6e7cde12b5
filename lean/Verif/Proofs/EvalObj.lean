import Verif.Spec.EvalObj
import Verif.Proofs.EvalIdem

namespace Expreduce
open Ex

theorem readF_modify_mark (h : List Node) (a : Nat) (c : Ex) (n : Nat) : ∀ v, readF (setMark h a c) n v = readF h n v := by
  induction n with
  | zero => intro v; cases v <;> rfl
  | succ n ih =>
    intro v
    cases v with
    | atom e => rfl
    | ref b =>
      unfold readF
      have hfun : readF (setMark h a c) n = readF h n := funext ih
      rw [hfun]
      unfold setMark
      rw [List.getElem?_modify]
      cases h[b]? with
      | none => rfl
      | some nd => by_cases hb : a = b <;> simp [hb]

theorem content_setMark (h : List Node) (a : Nat) (c : Ex) (v : Val) : content (setMark h a c) v = content h v := by
  unfold content
  rw [readF_modify_mark]
  simp [setMark]

theorem content_ref_lt {h : List Node} {a : Nat} {c : Ex} (hc : content h (.ref a) = some c) : ∃ nd, h[a]? = some nd := by
  unfold content readF at hc
  cases hh : h[a]? with
  | none => simp [hh] at hc
  | some nd => exact ⟨nd, rfl⟩

theorem markOf_setMark {h : List Node} {a : Nat} {c : Ex} {nd : Node} (hn : h[a]? = some nd) : markOf (setMark h a c) a = some c := by
  unfold markOf setMark
  rw [List.getElem?_modify, hn]
  simp

/-- What holds of a finished value: it carries a valid mark. -/
def Finished (s : OState) (v : Val) : Prop := ∀ b, v = .ref b → ∃ c, content s.heap (.ref b) = some c ∧ markOf s.heap b = some c

theorem objLoop_finished {ev : OEval} (hev : ∀ s v s' w, ev s v = .ok (s', w) → Finished s' w) (k : Nat) :
    ∀ s last v s' w, objLoop ev k s last v = .ok (s', w) → Finished s' w := by
  induction k with
  | zero => intro s last v s' w h; cases h
  | succ k ih =>
    intro s last v s' w h
    cases v with
    | atom e => unfold objLoop at h; exact hev _ _ _ _ h
    | ref a =>
      unfold objLoop at h
      cases hc : content s.heap (.ref a) with
      | none => rw [hc] at h; cases h
      | some c =>
        rw [hc] at h
        simp only at h
        split at h
        · simp only [Res.ok.injEq, Prod.mk.injEq] at h
          obtain ⟨rfl, rfl⟩ := h
          rintro b hb
          simp only [Val.ref.injEq] at hb
          subst hb
          obtain ⟨nd, hn⟩ := content_ref_lt hc
          exact ⟨c, by rw [content_setMark]; exact hc, markOf_setMark hn⟩
        · split at h
          · rename_i hm
            simp only [Res.ok.injEq, Prod.mk.injEq] at h
            obtain ⟨rfl, rfl⟩ := h
            rintro b hb
            simp only [Val.ref.injEq] at hb
            subst hb
            exact ⟨c, hc, hm⟩
          · replace h := Res.bind_ok h
            obtain ⟨s1, _, h⟩ := h
            split at h
            · exact ih _ _ _ _ _ h
            · split at h
              · cases h
              · exact ih _ _ _ _ _ h

theorem evalO_finished (n : Nat) : ∀ s v s' w, evalO n s v = .ok (s', w) → Finished s' w := by
  induction n with
  | zero => intro s v s' w h; cases h
  | succ n ih =>
    intro s v s' w h
    cases v with
    | ref a => exact objLoop_finished ih _ _ _ _ _ _ h
    | atom e =>
      cases e with
      | sym x =>
        unfold evalO at h
        cases ho : s.own x with
        | none =>
          simp only [ho, Res.ok.injEq, Prod.mk.injEq] at h
          obtain ⟨rfl, rfl⟩ := h
          rintro b hb; cases hb
        | some d =>
          simp only [ho] at h
          split at h
          · rename_i hd
            simp only [Res.ok.injEq, Prod.mk.injEq] at h
            obtain ⟨rfl, rfl⟩ := h
            rintro b hb; rw [hd] at hb; cases hb
          · exact ih _ _ _ _ h
      | _ =>
        simp only [evalO, Res.ok.injEq, Prod.mk.injEq] at h
        obtain ⟨rfl, rfl⟩ := h
        rintro b hb; cases hb

/-- A value with a valid mark is not looked into. -/
theorem evalO_marked {s : OState} {b : Nat} {c : Ex} (h1 : content s.heap (.ref b) = some c) (h2 : markOf s.heap b = some c) (n : Nat) :
    evalO (n + 1) s (.ref b) = .ok (s, .ref b) := by
  show objLoop (evalO n) (n + 1) s none (.ref b) = _
  unfold objLoop
  rw [h1]
  simp [h2]

/-! ### Frame -/

/-- The objects in `P` are as before, and definitions too. -/
structure HeapKept (P : Nat → Prop) (s s' : OState) : Prop where
  nodes : ∀ a, P a → s'.heap[a]? = s.heap[a]?
  grows : s.heap.length ≤ s'.heap.length
  own : s'.own = s.own
  rules : s'.rules = s.rules

theorem HeapKept.refl (P : Nat → Prop) (s : OState) : HeapKept P s s := ⟨fun _ _ => rfl, le_rfl, rfl, rfl⟩
theorem HeapKept.trans {P : Nat → Prop} {s1 s2 s3 : OState} (h1 : HeapKept P s1 s2) (h2 : HeapKept P s2 s3) : HeapKept P s1 s3 :=
  ⟨fun a ha => (h2.nodes a ha).trans (h1.nodes a ha), h1.grows.trans h2.grows, h2.own.trans h1.own, h2.rules.trans h1.rules⟩

/-- The value does not lead into `P`. -/
def Outside (P : Nat → Prop) (v : Val) : Prop := ∀ b, v = .ref b → ¬ P b

theorem mapM_mono {f g : Val → Option Ex} (l : List Val) (h : ∀ v ∈ l, ∀ c, f v = some c → g v = some c) : ∀ r, l.mapM f = some r → l.mapM g = some r := by
  induction l with
  | nil => intro r hr; simpa using hr
  | cons v l ih =>
    intro r hr
    rw [List.mapM_cons] at hr ⊢
    simp only [Option.bind_eq_bind, Option.bind_eq_some_iff, Option.pure_def] at hr ⊢
    obtain ⟨c, hc, cs, hcs, hr⟩ := hr
    exact ⟨c, h v (by simp) c hc, cs, ih (fun w hw => h w (by simp [hw])) _ hcs, hr⟩

/-- Content depends only on the objects that are reached. -/
theorem readF_kept {P : Nat → Prop} {h h' : List Node} (hp : ∀ a nd, h[a]? = some nd → P a → ∀ b, Val.ref b ∈ nd.parts → P b)
    (hk : ∀ a, P a → h'[a]? = h[a]?) (n : Nat) : ∀ m, n ≤ m → ∀ v, (∀ b, v = .ref b → P b) → ∀ c, readF h n v = some c → readF h' m v = some c := by
  induction n with
  | zero =>
    intro m _ v _ c hc
    cases v with
    | atom e => unfold readF at hc ⊢; exact hc
    | ref a => cases hc
  | succ n ih =>
    intro m hm v hv c hc
    obtain ⟨m, rfl⟩ : ∃ j, m = j + 1 := ⟨m - 1, by omega⟩
    cases v with
    | atom e => unfold readF at hc ⊢; exact hc
    | ref a =>
      have hPa := hv a rfl
      unfold readF at hc ⊢
      rw [hk a hPa]
      cases hh : h[a]? with
      | none => rw [hh] at hc; cases hc
      | some nd =>
        rw [hh] at hc
        simp only [Option.bind_some, Option.map_eq_some_iff] at hc ⊢
        obtain ⟨r, hr, rfl⟩ := hc
        refine ⟨r, mapM_mono _ ?_ _ hr, rfl⟩
        intro w hw c hc
        exact ih m (by omega) w (fun b hb => hp a nd hh hPa b (hb ▸ hw)) c hc

theorem mentionsAny_kept {P : Nat → Prop} {h h' : List Node} (hp : ∀ a nd, h[a]? = some nd → P a → ∀ b, Val.ref b ∈ nd.parts → P b)
    (hk : ∀ a, P a → h'[a]? = h[a]?) (hl : h.length ≤ h'.length) (names : List String) (v : Val) (hv : ∀ b, v = .ref b → P b)
    (hm : mentionsAny h names v = true) : mentionsAny h' names v = true := by
  unfold mentionsAny at hm ⊢
  cases hc : content h v with
  | none => rw [hc] at hm; cases hm
  | some c =>
    rw [hc] at hm
    have : content h' v = some c := readF_kept hp hk _ _ (by omega) v hv c hc
    rw [this]
    exact hm

theorem getElem?_modify_ne {h : List Node} {a b : Nat} (f : Node → Node) (hab : a ≠ b) : (h.modify a f)[b]? = h[b]? := by
  rw [List.getElem?_modify]
  cases h[b]? <;> simp [hab]

/-- Changing an object outside `P`. -/
theorem isolated_modify {P : Nat → Prop} {s : OState} (hi : Isolated P s) {a : Nat} (ha : ¬ P a) (f : Node → Node)
    (hf : ∀ nd, ∀ b, Val.ref b ∈ (f nd).parts → Val.ref b ∈ nd.parts ∨ ¬ P b) :
    Isolated P { s with heap := s.heap.modify a f } ∧ HeapKept P s { s with heap := s.heap.modify a f } := by
  have hk : ∀ b, P b → (s.heap.modify a f)[b]? = s.heap[b]? := fun b hb => getElem?_modify_ne f (by rintro rfl; exact ha hb)
  refine ⟨⟨?_, ?_, hi.own, ?_, ?_⟩, ⟨hk, by simp, rfl, rfl⟩⟩
  · intro b hb; simpa using hi.old b hb
  · intro b nd hnd hb c hc
    rw [List.getElem?_modify] at hnd
    cases hh : s.heap[b]? with
    | none => rw [hh] at hnd; cases hnd
    | some nd0 =>
      rw [hh] at hnd
      by_cases hab : a = b
      · simp only [hab, if_true, Option.map_eq_map, Option.map_some, Option.some.injEq] at hnd
        subst hnd
        rcases hf nd0 c hc with h | h
        · exact hi.parts b nd0 hh hb c h
        · exact h
      · simp only [hab, if_false, Option.map_eq_map, Option.map_some, Option.some.injEq, id] at hnd
        subst hnd
        exact hi.parts b nd0 hh hb c hc
  · intro g r hr b hb hP
    exact mentionsAny_kept hi.inside hk (by simp) _ _ (fun b' hb' => by rw [hb] at hb'; cases hb'; exact hP) (hi.rules g r hr b hb hP)
  · intro b nd hnd hb
    rw [hk b hb] at hnd
    exact hi.inside b nd hnd hb

/-- Adding an object. -/
theorem isolated_append {P : Nat → Prop} {s : OState} (hi : Isolated P s) (nd : Node) (hnd : ∀ b, Val.ref b ∈ nd.parts → ¬ P b) :
    Isolated P { s with heap := s.heap ++ [nd] } ∧ HeapKept P s { s with heap := s.heap ++ [nd] } := by
  have hk : ∀ b, P b → (s.heap ++ [nd])[b]? = s.heap[b]? := fun b hb => List.getElem?_append_left (hi.old b hb)
  refine ⟨⟨?_, ?_, hi.own, ?_, ?_⟩, ⟨hk, by simp, rfl, rfl⟩⟩
  · intro b hb; have := hi.old b hb; simp; omega
  · intro b nd' hn hb c hc
    simp only at hn
    by_cases hlt : b < s.heap.length
    · rw [List.getElem?_append_left hlt] at hn
      exact hi.parts b nd' hn hb c hc
    · rw [List.getElem?_append_right (by omega)] at hn
      cases hh : b - s.heap.length with
      | zero => rw [hh] at hn; simp at hn; subst hn; exact hnd c hc
      | succ k => rw [hh] at hn; simp at hn
  · intro g r hr b hb hP
    exact mentionsAny_kept hi.inside hk (by simp) _ _ (fun b' hb' => by rw [hb] at hb'; cases hb'; exact hP) (hi.rules g r hr b hb hP)
  · intro b nd' hn hb
    have hn' : s.heap[b]? = some nd' := by rw [← hk b hb]; exact hn
    exact hi.inside b nd' hn' hb

theorem mapHeap_frame {P : Nat → Prop} {own rules} {f : List Node → Val → Option (List Node × Val)}
    (hf : ∀ h v h' w, Isolated P ⟨h, own, rules⟩ → f h v = some (h', w) →
      Isolated P ⟨h', own, rules⟩ ∧ HeapKept P ⟨h, own, rules⟩ ⟨h', own, rules⟩ ∧ Outside P w) (vs : List Val) :
    ∀ h h' ws, Isolated P ⟨h, own, rules⟩ → mapHeap f h vs = some (h', ws) →
      Isolated P ⟨h', own, rules⟩ ∧ HeapKept P ⟨h, own, rules⟩ ⟨h', own, rules⟩ ∧ ∀ w ∈ ws, Outside P w := by
  induction vs with
  | nil =>
    intro h h' ws hi hm
    simp only [mapHeap, Option.some.injEq, Prod.mk.injEq] at hm
    obtain ⟨rfl, rfl⟩ := hm
    exact ⟨hi, .refl _ _, by simp⟩
  | cons v vs ih =>
    intro h h' ws hi hm
    simp only [mapHeap, Option.bind_eq_some_iff, Option.map_eq_some_iff, Prod.mk.injEq] at hm
    obtain ⟨⟨h1, w⟩, hw, ⟨h2, ws'⟩, hws, rfl, rfl⟩ := hm
    obtain ⟨i1, k1, o1⟩ := hf _ _ _ _ hi hw
    obtain ⟨i2, k2, o2⟩ := ih _ _ _ i1 hws
    refine ⟨i2, k1.trans k2, ?_⟩
    intro x hx
    rcases List.mem_cons.1 hx with rfl | hx
    · exact o1
    · exact o2 x hx

theorem substCopy_frame {P : Nat → Prop} {own rules} (b : List (String × Val)) (hb : ∀ x v, (x, v) ∈ b → Outside P v) (n : Nat) :
    ∀ h v h' w, Isolated P ⟨h, own, rules⟩ → substCopy b n h v = some (h', w) →
      Isolated P ⟨h', own, rules⟩ ∧ HeapKept P ⟨h, own, rules⟩ ⟨h', own, rules⟩ ∧ Outside P w := by
  have atom : ∀ n h (e : Ex) h' w, Isolated P ⟨h, own, rules⟩ → substCopy b n h (.atom e) = some (h', w) →
      Isolated P ⟨h', own, rules⟩ ∧ HeapKept P ⟨h, own, rules⟩ ⟨h', own, rules⟩ ∧ Outside P w := by
    intro n h e h' w hi hs
    cases e with
    | sym x =>
      simp only [substCopy, Option.some.injEq, Prod.mk.injEq] at hs
      obtain ⟨rfl, rfl⟩ := hs
      refine ⟨hi, .refl _ _, ?_⟩
      cases hx : bound b x with
      | none => intro c hc; cases hc
      | some v =>
        have : (x, v) ∈ b := by
          unfold bound at hx
          clear hb hi
          induction b with
          | nil => cases hx
          | cons p b ih =>
            obtain ⟨y, u⟩ := p
            rw [List.lookup_cons] at hx
            by_cases hxy : x = y
            · simp [hxy] at hx; subst hx; subst hxy; simp
            · have : (x == y) = false := by simpa using hxy
              rw [this] at hx
              exact List.mem_cons_of_mem _ (ih hx)
        exact hb x v this
    | _ =>
      simp only [substCopy, Option.some.injEq, Prod.mk.injEq] at hs
      obtain ⟨rfl, rfl⟩ := hs
      exact ⟨hi, .refl _ _, fun c hc => by cases hc⟩
  induction n with
  | zero =>
    intro h v h' w hi hs
    cases v with
    | atom e => exact atom _ _ _ _ _ hi hs
    | ref a => cases hs
  | succ n ih =>
    intro h v h' w hi hs
    cases v with
    | atom e => exact atom _ _ _ _ _ hi hs
    | ref a =>
      simp only [substCopy, Option.bind_eq_some_iff, Option.map_eq_some_iff, Prod.mk.injEq] at hs
      obtain ⟨nd, hnd, ⟨h1, ws⟩, hws, rfl, rfl⟩ := hs
      obtain ⟨i1, k1, o1⟩ := mapHeap_frame ih nd.parts _ _ _ hi hws
      obtain ⟨i2, k2⟩ := isolated_append i1 { parts := ws } (fun c hc hP => o1 _ hc c rfl hP)
      refine ⟨i2, k1.trans k2, ?_⟩
      intro c hc hP
      cases hc
      exact absurd (i1.old _ hP) (by simp)

/-- What every evaluator keeps. -/
def Frame (P : Nat → Prop) (ev : OEval) : Prop :=
  ∀ s v s' w, Isolated P s → Outside P v → ev s v = .ok (s', w) → Isolated P s' ∧ HeapKept P s s' ∧ Outside P w

theorem evalPartsO_frame {P : Nat → Prop} {ev : OEval} (hf : Frame P ev) (a : Nat) (ha : ¬ P a) (is : List Nat) :
    ∀ s s', Isolated P s → evalPartsO ev a is s = .ok s' → Isolated P s' ∧ HeapKept P s s' := by
  induction is with
  | nil =>
    intro s s' hi h
    simp only [evalPartsO, Res.ok.injEq] at h
    subst h
    exact ⟨hi, .refl _ _⟩
  | cons i is ih =>
    intro s s' hi h
    unfold evalPartsO at h
    cases hp : partOf s.heap a i with
    | none => rw [hp] at h; cases h
    | some v =>
      rw [hp] at h
      simp only at h
      replace h := Res.bind_ok h
      obtain ⟨⟨s1, w⟩, hv, h⟩ := h
      have hov : Outside P v := by
        intro b hb
        subst hb
        unfold partOf at hp
        cases hh : s.heap[a]? with
        | none => rw [hh] at hp; cases hp
        | some nd =>
          rw [hh] at hp
          exact hi.parts a nd hh ha b (List.mem_of_getElem? hp)
      obtain ⟨i1, k1, o1⟩ := hf _ _ _ _ hi hov hv
      obtain ⟨i2, k2⟩ := isolated_modify i1 ha (fun nd => { nd with parts := nd.parts.set i w }) (by
        intro nd b hb
        rcases List.mem_or_eq_of_mem_set hb with hb | hb
        · exact .inl hb
        · exact .inr (o1 b hb.symm))
      obtain ⟨i3, k3⟩ := ih _ _ i2 h
      exact ⟨i3, k1.trans (k2.trans k3)⟩

theorem objLoop_frame {P : Nat → Prop} {ev : OEval} (hf : Frame P ev) (k : Nat) :
    ∀ s last v s' w, Isolated P s → Outside P v → objLoop ev k s last v = .ok (s', w) → Isolated P s' ∧ HeapKept P s s' ∧ Outside P w := by
  induction k with
  | zero => intro s last v s' w _ _ h; cases h
  | succ k ih =>
    intro s last v s' w hi hv h
    cases v with
    | atom e => unfold objLoop at h; exact hf _ _ _ _ hi hv h
    | ref a =>
      have ha := hv a rfl
      unfold objLoop at h
      cases hc : content s.heap (.ref a) with
      | none => rw [hc] at h; cases h
      | some c =>
        rw [hc] at h
        simp only at h
        split at h
        · simp only [Res.ok.injEq, Prod.mk.injEq] at h
          obtain ⟨rfl, rfl⟩ := h
          obtain ⟨i1, k1⟩ := isolated_modify hi ha (fun nd => { nd with mark := some c }) (fun nd b hb => .inl hb)
          exact ⟨i1, k1, hv⟩
        · split at h
          · simp only [Res.ok.injEq, Prod.mk.injEq] at h
            obtain ⟨rfl, rfl⟩ := h
            exact ⟨hi, .refl _ _, hv⟩
          · replace h := Res.bind_ok h
            obtain ⟨s1, h1, h⟩ := h
            obtain ⟨i1, k1⟩ := evalPartsO_frame hf a ha _ _ _ hi h1
            cases hr : ruleFor s1 a with
            | none =>
              rw [hr] at h
              obtain ⟨i2, k2, o2⟩ := ih _ _ _ _ _ i1 hv h
              exact ⟨i2, k1.trans k2, o2⟩
            | some ra =>
              obtain ⟨r, args⟩ := ra
              rw [hr] at h
              simp only at h
              have hrule : ∃ f nd, s1.heap[a]? = some nd ∧ nd.parts = .atom (.sym f) :: args ∧ s1.rules f = some r ∧ r.params.length = args.length := by
                unfold ruleFor at hr
                split at hr
                · rename_i f args' _ hnd
                  split at hr
                  · rename_i r' hr'
                    split at hr
                    · rename_i hlen
                      simp only [Option.some.injEq, Prod.mk.injEq] at hr
                      obtain ⟨rfl, rfl⟩ := hr
                      exact ⟨f, _, hnd, rfl, hr', hlen⟩
                    · cases hr
                  · cases hr
                · cases hr
              obtain ⟨f, nd, hnd, hparts, hrf, hlen⟩ := hrule
              have hbind : ∀ x u, (x, u) ∈ r.params.zip args → Outside P u := by
                intro x u hu b hb
                have : u ∈ nd.parts := by rw [hparts]; exact List.mem_cons_of_mem _ (List.of_mem_zip hu).2
                exact i1.parts a nd hnd ha b (hb ▸ this)
              cases hin : instantiate s1.heap (r.params.zip args) r.rhs with
              | none => rw [hin] at h; cases h
              | some hv' =>
                obtain ⟨h', v'⟩ := hv'
                rw [hin] at h
                simp only at h
                unfold instantiate at hin
                have hfst : (r.params.zip args).map Prod.fst = r.params := List.map_fst_zip (by omega)
                rw [hfst] at hin
                split at hin
                · obtain ⟨i2, k2, o2⟩ := substCopy_frame (own := s1.own) (rules := s1.rules) _ hbind _ _ _ _ _ i1 hin
                  obtain ⟨i3, k3, o3⟩ := ih _ _ _ _ _ i2 o2 h
                  exact ⟨i3, k1.trans (k2.trans k3), o3⟩
                · rename_i hno
                  simp only [Option.some.injEq, Prod.mk.injEq] at hin
                  obtain ⟨rfl, rfl⟩ := hin
                  have o2 : Outside P r.rhs := fun b hb hP => hno (i1.rules f r hrf b hb hP)
                  obtain ⟨i3, k3, o3⟩ := ih _ _ _ _ _ i1 o2 h
                  exact ⟨i3, k1.trans k3, o3⟩

theorem evalO_frame (P : Nat → Prop) (n : Nat) : Frame P (evalO n) := by
  induction n with
  | zero => intro s v s' w _ _ h; cases h
  | succ n ih =>
    intro s v s' w hi hv h
    cases v with
    | ref a => exact objLoop_frame ih _ _ _ _ _ _ hi hv h
    | atom e =>
      cases e with
      | sym x =>
        unfold evalO at h
        cases ho : s.own x with
        | none =>
          simp only [ho, Res.ok.injEq, Prod.mk.injEq] at h
          obtain ⟨rfl, rfl⟩ := h
          exact ⟨hi, .refl _ _, hv⟩
        | some d =>
          simp only [ho] at h
          have hd : Outside P d := fun b hb => hi.own x b (hb ▸ ho)
          split at h
          · simp only [Res.ok.injEq, Prod.mk.injEq] at h
            obtain ⟨rfl, rfl⟩ := h
            exact ⟨hi, .refl _ _, hd⟩
          · exact ih _ _ _ _ hi hd h
      | _ =>
        simp only [evalO, Res.ok.injEq, Prod.mk.injEq] at h
        obtain ⟨rfl, rfl⟩ := h
        exact ⟨hi, .refl _ _, hv⟩

/-! ### Calls of a symbol without value and rule -/

/-- What every evaluator does with free calls. -/
def KeepsCall (f : String) (a : Nat) (ev : OEval) : Prop :=
  ∀ s v s' w, FreeCall f a s → ev s v = .ok (s', w) → FreeCall f a s' ∧ (v = .atom (.sym f) → w = .atom (.sym f))

theorem partOf_append {h : List Node} {a i : Nat} {v : Val} (hp : partOf h a i = some v) (l : List Node) : partOf (h ++ l) a i = some v := by
  unfold partOf at hp ⊢
  cases hh : h[a]? with
  | none => rw [hh] at hp; cases hp
  | some nd =>
    rw [hh] at hp
    have hlt : a < h.length := (List.getElem?_eq_some_iff.1 hh).1
    rw [List.getElem?_append_left hlt, hh]
    exact hp

theorem substCopy_partOf (b : List (String × Val)) (n : Nat) : ∀ h v h' w, substCopy b n h v = some (h', w) →
    ∀ a i u, partOf h a i = some u → partOf h' a i = some u := by
  induction n with
  | zero =>
    intro h v h' w hs
    cases v with
    | atom e =>
      cases e <;> (simp only [substCopy, Option.some.injEq, Prod.mk.injEq] at hs; obtain ⟨rfl, rfl⟩ := hs; exact fun _ _ _ h => h)
    | ref a => cases hs
  | succ n ih =>
    intro h v h' w hs
    cases v with
    | atom e =>
      cases e <;> (simp only [substCopy, Option.some.injEq, Prod.mk.injEq] at hs; obtain ⟨rfl, rfl⟩ := hs; exact fun _ _ _ h => h)
    | ref a =>
      simp only [substCopy, Option.bind_eq_some_iff, Option.map_eq_some_iff, Prod.mk.injEq] at hs
      obtain ⟨nd, hnd, ⟨h1, ws⟩, hws, rfl, rfl⟩ := hs
      have key : ∀ (vs : List Val) h h1 ws, mapHeap (substCopy b n) h vs = some (h1, ws) → ∀ a i u, partOf h a i = some u → partOf h1 a i = some u := by
        intro vs
        induction vs with
        | nil =>
          intro h h1 ws hm
          simp only [mapHeap, Option.some.injEq, Prod.mk.injEq] at hm
          obtain ⟨rfl, rfl⟩ := hm
          exact fun _ _ _ h => h
        | cons v vs ihv =>
          intro h h1 ws hm a i u hu
          simp only [mapHeap, Option.bind_eq_some_iff, Option.map_eq_some_iff, Prod.mk.injEq] at hm
          obtain ⟨⟨h2, w⟩, hw, ⟨h3, ws'⟩, hws, rfl, rfl⟩ := hm
          exact ihv _ _ _ hws a i u (ih _ _ _ _ hw a i u hu)
      intro a' i u hu
      exact partOf_append (key _ _ _ _ hws a' i u hu) _

theorem evalPartsO_call {f : String} {a : Nat} {ev : OEval} (hf : KeepsCall f a ev) (b : Nat) (is : List Nat) :
    ∀ s s', FreeCall f a s → evalPartsO ev b is s = .ok s' → FreeCall f a s' := by
  induction is with
  | nil =>
    intro s s' hi h
    simp only [evalPartsO, Res.ok.injEq] at h
    subst h
    exact hi
  | cons i is ih =>
    intro s s' hi h
    unfold evalPartsO at h
    cases hp : partOf s.heap b i with
    | none => rw [hp] at h; cases h
    | some v =>
      rw [hp] at h
      simp only at h
      replace h := Res.bind_ok h
      obtain ⟨⟨s1, w⟩, hv, h⟩ := h
      obtain ⟨c1, hw⟩ := hf _ _ _ _ hi hv
      refine ih { s1 with heap := setPart s1.heap b i w } _ ⟨?_, c1.own, c1.rules⟩ h
      have hh := c1.head
      simp only [setPart]
      unfold partOf at hh ⊢
      cases hn : s1.heap[a]? with
      | none => rw [hn] at hh; cases hh
      | some nd =>
        rw [hn] at hh
        simp only [Option.bind_some] at hh
        rw [List.getElem?_modify, hn]
        by_cases hab : b = a
        · subst hab
          simp only [if_true, Option.map_eq_map, Option.map_some, Option.bind_some]
          by_cases hi0 : i = 0
          · subst hi0
            have : v = .atom (.sym f) := by
              have := hi.head
              rw [hp] at this
              exact Option.some.inj this
            rw [hw this]
            have hlt : 0 < nd.parts.length := (List.getElem?_eq_some_iff.1 hh).1
            simp [hlt]
          · rw [List.getElem?_set_ne hi0]
            exact hh
        · simpa [hab] using hh

theorem objLoop_call {f : String} {a : Nat} {ev : OEval} (hf : KeepsCall f a ev) (k : Nat) :
    ∀ s last v s' w, FreeCall f a s → objLoop ev k s last v = .ok (s', w) → FreeCall f a s' ∧ (v = .atom (.sym f) → w = .atom (.sym f)) ∧
      (v = .ref a → w = .ref a) := by
  induction k with
  | zero => intro s last v s' w _ h; cases h
  | succ k ih =>
    intro s last v s' w hi h
    cases v with
    | atom e =>
      unfold objLoop at h
      obtain ⟨h1, h2⟩ := hf _ _ _ _ hi h
      exact ⟨h1, h2, fun h => by cases h⟩
    | ref b =>
      unfold objLoop at h
      cases hc : content s.heap (.ref b) with
      | none => rw [hc] at h; cases h
      | some c =>
        rw [hc] at h
        simp only at h
        split at h
        · simp only [Res.ok.injEq, Prod.mk.injEq] at h
          obtain ⟨rfl, rfl⟩ := h
          refine ⟨⟨?_, hi.own, hi.rules⟩, fun h => by (cases h), fun h => h⟩
          have hh := hi.head
          simp only [setMark]
          unfold partOf at hh ⊢
          rw [List.getElem?_modify]
          cases hn : s.heap[a]? with
          | none => rw [hn] at hh; cases hh
          | some nd =>
            rw [hn] at hh
            by_cases hab : b = a <;> simpa [hab] using hh
        · split at h
          · simp only [Res.ok.injEq, Prod.mk.injEq] at h
            obtain ⟨rfl, rfl⟩ := h
            exact ⟨hi, fun h => by (cases h), fun h => h⟩
          · replace h := Res.bind_ok h
            obtain ⟨s1, h1, h⟩ := h
            have c1 := evalPartsO_call hf b _ _ _ hi h1
            cases hr : ruleFor s1 b with
            | none =>
              rw [hr] at h
              obtain ⟨h1, h2, h3⟩ := ih _ _ _ _ _ c1 h
              exact ⟨h1, fun h => by (cases h), fun h => h3 h⟩
            | some ra =>
              obtain ⟨r, args⟩ := ra
              rw [hr] at h
              simp only at h
              have hba : b ≠ a := by
                rintro rfl
                have hh := c1.head
                unfold ruleFor at hr
                split at hr
                · rename_i g args' _ hnd
                  unfold partOf at hh
                  rw [hnd] at hh
                  simp only [Option.bind_some, List.getElem?_cons_zero, Option.some.injEq, Val.atom.injEq, Ex.sym.injEq] at hh
                  subst hh
                  rw [c1.rules] at hr
                  cases hr
                · cases hr
              cases hin : instantiate s1.heap (r.params.zip args) r.rhs with
              | none => rw [hin] at h; cases h
              | some hv' =>
                obtain ⟨h', v'⟩ := hv'
                rw [hin] at h
                simp only at h
                have c2 : FreeCall f a { s1 with heap := h' } := by
                  refine ⟨?_, c1.own, c1.rules⟩
                  unfold instantiate at hin
                  split at hin
                  · exact substCopy_partOf _ _ _ _ _ _ hin _ _ _ c1.head
                  · simp only [Option.some.injEq, Prod.mk.injEq] at hin
                    rw [← hin.1]; exact c1.head
                obtain ⟨h1, -, -⟩ := ih _ _ _ _ _ c2 h
                exact ⟨h1, fun h => by (cases h), fun h => by simp only [Val.ref.injEq] at h; exact absurd h hba⟩

theorem evalO_call (f : String) (a : Nat) (n : Nat) : KeepsCall f a (evalO n) := by
  induction n with
  | zero => intro s v s' w _ h; cases h
  | succ n ih =>
    intro s v s' w hi h
    cases v with
    | ref b =>
      obtain ⟨h1, h2, -⟩ := objLoop_call ih _ _ _ _ _ _ hi h
      exact ⟨h1, h2⟩
    | atom e =>
      cases e with
      | sym x =>
        unfold evalO at h
        cases ho : s.own x with
        | none =>
          simp only [ho, Res.ok.injEq, Prod.mk.injEq] at h
          obtain ⟨rfl, rfl⟩ := h
          exact ⟨hi, fun h => h⟩
        | some d =>
          simp only [ho] at h
          have hxf : x ≠ f := by rintro rfl; rw [hi.own] at ho; cases ho
          split at h
          · simp only [Res.ok.injEq, Prod.mk.injEq] at h
            obtain ⟨rfl, rfl⟩ := h
            exact ⟨hi, fun h => by simp only [Val.atom.injEq, Ex.sym.injEq] at h; exact absurd h hxf⟩
          · obtain ⟨h1, -⟩ := ih _ _ _ _ hi h
            exact ⟨h1, fun h => by simp only [Val.atom.injEq, Ex.sym.injEq] at h; exact absurd h hxf⟩
      | _ =>
        simp only [evalO, Res.ok.injEq, Prod.mk.injEq] at h
        obtain ⟨rfl, rfl⟩ := h
        exact ⟨hi, fun h => h⟩

end Expreduce
