import Verif.Proofs.HashSubst

/-!
# C125: stored fingerprints

`Hash` answers with the fingerprint stored in an object, if there is one. The answer is right as long as objects are changed only while
no object that contains them has a fingerprint stored; and this is needed. `Min` breaks the rule.
-/

namespace Expreduce
open Ex Fc

namespace Fc

theorem swap_mem {ps : List V} {i j : Nat} {v : V}
    (hv : v ∈ (match ps[i + 1]?, ps[j + 1]? with
      | some a, some b => (ps.set (j + 1) a).set (i + 1) b
      | _, _ => ps)) : v ∈ ps := by
  split at hv
  · rename_i a b ha hb
    rcases List.mem_or_eq_of_mem_set hv with h1 | rfl
    · rcases List.mem_or_eq_of_mem_set h1 with h2 | rfl
      · exact h2
      · exact List.mem_of_getElem? ha
    · exact List.mem_of_getElem? hb
  · exact hv

theorem same_effect {f : Nat} {h : Heap} {a b : V} {x : Bool} {h' : Heap} (ra : Below h a) (rb : Below h b)
    (hh : same f h a b = some (x, h')) : Fills (fun m => Leads h m a ∨ Leads h m b) h h' := by
  have main : ∀ {c d : UInt64} {h1 h2 : Heap}, hashOf f h a = some (c, h1) → hashOf f h1 b = some (d, h2) →
      Fills (fun m => Leads h m a ∨ Leads h m b) h h2 := by
    intro c d h1 h2 e1 e2
    obtain ⟨f1, _, _⟩ := hash_effect f h a c h1 ra e1
    obtain ⟨f2, _, _⟩ := hash_effect f h1 b d h2 (f1.below rb) e2
    exact (f1.weaken (fun m hm => .inl hm)).trans (f2.weaken (fun m hm => .inr (hm.grow f1.1.symm.grows)))
  unfold same at hh
  split at hh
  · simp only [Option.some.injEq, Prod.mk.injEq] at hh
    obtain ⟨_, rfl⟩ := hh
    exact Fills.refl _ _
  · cases h1 : hashOf f h a with
    | none => rw [h1] at hh; simp at hh
    | some p =>
      obtain ⟨c, h1'⟩ := p
      rw [h1] at hh
      simp only at hh
      cases h2 : hashOf f h1' b with
      | none => rw [h2] at hh; simp at hh
      | some q =>
        obtain ⟨d, h2'⟩ := q
        rw [h2] at hh
        simp only [Option.some.injEq, Prod.mk.injEq] at hh
        obtain ⟨_, rfl⟩ := hh
        exact main h1 h2

theorem exists_low {h : Heap} {v : V} : Exists h v ↔ Low h.length v := by
  cases v <;> exact Iff.rfl

/-- What `ReplacePD` does. -/
theorem replace_effect {f : Nat} {h h' : Heap} {env : String → Option V} {v w : V} (r : Right h) (c : Closed h)
    (he : ∀ s d, env s = some d → Exists h d) (hh : replacePD f env h v = some (w, h')) :
    Right h' ∧ Closed h' ∧ (∀ m, m < h.length → h'[m]? = h[m]?) ∧
      ∀ σ, Values h env σ → ∀ e, Content h v e → Content h' w (replaced σ e) := by
  unfold replacePD at hh
  cases h1 : deepCopy f h v with
  | none => rw [h1] at hh; simp at hh
  | some p =>
    obtain ⟨v', g⟩ := p
    rw [h1] at hh
    simp only [Option.map_eq_some_iff, Prod.mk.injEq] at hh
    obtain ⟨⟨⟨x, d⟩, g'⟩, hs, hx, hg'⟩ := hh
    simp only at hx hg'
    subst hx
    subst hg'
    obtain ⟨t, l, a, dn⟩ := copy_tree f h v v' g h1
    obtain ⟨rg, gg, cg⟩ := copy_sound f h v v' g r h1
    have down : Down g h.length := by
      intro m o ho u hu
      by_cases hm : m < h.length
      · rw [a m hm] at ho
        exact (exists_low.mp (c m o ho u hu)).le (by omega)
      · exact (dn m o (by omega) ho u hu).le (by omega)
    have low : ∀ s d, env s = some d → Low h.length d := fun s d hd => exists_low.mp (he s d hd)
    have key := fun σ => subst_main (σ := σ) low f g h.length v' g.length x d g' down (Nat.le_refl _) t (rg.below v') hs
    obtain ⟨a', l', d', R', _, _, _⟩ := key (fun _ => none)
    refine ⟨?_, ?_, fun m hm => (a' m (.inl hm)).trans (a m hm), ?_⟩
    · intro m o ho hp
      by_cases hm : m < h.length
      · rw [a' m (.inl hm)] at ho
        obtain ⟨e, he, h2⟩ := rg m o ho hp
        exact ⟨e, (low_same down (Nat.le_refl _) (fun k hk => a' k (.inl hk)) (show Low h.length (.ref m) from hm)).Content he, h2⟩
      · exact R' m o (by omega) (by rw [← l']; exact (List.getElem?_eq_some_iff.mp ho).1) ho hp
    · intro m o ho u hu
      have hm := (List.getElem?_eq_some_iff.mp ho).1
      exact exists_low.mpr ((d' m o ho u hu).le (by omega))
    · intro σ hv e hc
      obtain ⟨_, _, _, _, _, _, c'⟩ := key σ
      refine c' ?_ e (cg e hc)
      intro s
      rcases hv s with h2 | ⟨y, e', h2, h3, h4⟩
      · exact .inl h2
      · exact .inr ⟨y, e', h2, h3, h4.grow gg⟩

theorem reached_right {h : Heap} (r : Reached h) : Right h ∧ Closed h := by
  induction r with
  | start => exact ⟨fun _ _ ho => by simp at ho, fun _ _ ho => by simp at ho⟩
  | @step h h' op f _ hc hp ih =>
    obtain ⟨r, c⟩ := ih
    cases op with
    | new vs =>
      simp only [perform, Fc.new, Option.some.injEq] at hp
      subst hp
      exact ⟨right_append r (fun hx => absurd rfl hx), closed_append c hc⟩
    | hash v =>
      simp only [perform, Option.map_eq_some_iff] at hp
      obtain ⟨⟨x, h1⟩, hh, rfl⟩ := hp
      obtain ⟨r1, a1, _⟩ := hash_sound f h v x h1 r hh
      exact ⟨r1, a1.closed c⟩
    | same a b =>
      simp only [perform, Option.map_eq_some_iff] at hp
      obtain ⟨⟨x, h1⟩, hh, rfl⟩ := hp
      have f1 := same_effect (r.below a) (r.below b) hh
      exact ⟨f1.right r, f1.1.closed c⟩
    | append n v =>
      simp only [perform, Option.some.injEq] at hp
      subst hp
      refine ⟨right_edit r hc.1 _, closed_edit c ?_⟩
      intro ps hps w hw
      rcases List.mem_append.mp hw with h1 | h1
      · exact hps w h1
      · rw [List.mem_singleton.mp h1]; exact hc.2
    | appendAll n vs =>
      simp only [perform, Option.some.injEq] at hp
      subst hp
      refine ⟨right_edit r hc.1 _, closed_edit c ?_⟩
      intro ps hps w hw
      rcases List.mem_append.mp hw with h1 | h1
      · exact hps w h1
      · exact hc.2 w h1
    | setParts n vs =>
      simp only [perform, Option.some.injEq] at hp
      subst hp
      exact ⟨right_edit r hc.1 _, closed_edit c (fun _ _ w hw => hc.2 w hw)⟩
    | setPart n i v =>
      simp only [perform, Option.some.injEq] at hp
      subst hp
      refine ⟨right_edit r hc.1 _, closed_edit c ?_⟩
      intro ps hps w hw
      rcases List.mem_or_eq_of_mem_set hw with h1 | rfl
      · exact hps w h1
      · exact hc.2
    | swap n i j =>
      simp only [perform, Option.some.injEq] at hp
      subst hp
      exact ⟨right_edit r hc _, closed_edit c (fun ps hps w hw => hps w (swap_mem hw))⟩
    | clear n =>
      simp only [perform, Option.some.injEq] at hp
      subst hp
      exact ⟨right_clear r n, (store_alike h n 0).closed c⟩
    | deepCopy v =>
      simp only [perform, Option.map_eq_some_iff] at hp
      obtain ⟨⟨x, h1⟩, hh, rfl⟩ := hp
      have hv : Exists h v := by
        cases v with
        | atom _ => trivial
        | ref n =>
          cases f with
          | zero => simp [deepCopy] at hh
          | succ f =>
            cases ho : h[n]? with
            | none => simp [deepCopy, ho] at hh
            | some o => exact (List.getElem?_eq_some_iff.mp ho).1
      exact ⟨(copy_sound f h v x h1 r hh).1, (copy_closed f h v x h1 c hv hh).1⟩
    | shallowCopy n =>
      simp only [perform, shallowCopy, Option.map_eq_some_iff] at hp
      obtain ⟨⟨x, h1⟩, hh, rfl⟩ := hp
      cases ho : h[n]? with
      | none => rw [ho] at hh; simp at hh
      | some o =>
        rw [ho] at hh
        simp only [Option.some.injEq, Prod.mk.injEq] at hh
        obtain ⟨_, rfl⟩ := hh
        refine ⟨right_append r ?_, closed_append c (c n o ho)⟩
        intro hx
        obtain ⟨e, he, hp⟩ := r n o ho hx
        refine ⟨e, ?_, hp⟩
        obtain ⟨es, rfl, hes⟩ := (content_ref ho).mp he
        exact (content_ref (o := o) (by simp)).mpr ⟨es, rfl, hes.imp (fun _ _ hx => hx.grow (grows_append _ _))⟩
    | replacePD env v =>
      simp only [perform, Option.map_eq_some_iff] at hp
      obtain ⟨⟨x, h1⟩, hh, rfl⟩ := hp
      obtain ⟨r1, c1, _⟩ := replace_effect r c hc hh
      exact ⟨r1, c1⟩

end Fc

/-- **C125, `Hash` is right.** After any sequence of calls made with care, what `Hash` answers for a value is the fingerprint of its content. -/
theorem C125_right_partial {h h' : Heap} (r : Reached h) {f : Nat} {v : V} {c : UInt64} (hh : hashOf f h v = some (c, h')) :
    ∃ e, Content h v e ∧ c = hash e :=
  (hash_sound f h v c h' (reached_right r).1 hh).2.2

/-- **C125, `Hash` answers.** For every value with a content. -/
theorem C125_answers {h : Heap} (r : Reached h) {v : V} {e : Ex} (he : Content h v e) :
    ∃ f h', hashOf f h v = some (hash e, h') := by
  obtain ⟨f, hf⟩ := he
  obtain ⟨h', hh⟩ := hash_total f h v e ((reached_right r).1.below v) hf
  exact ⟨f, h', hh⟩

/-- **C125, `SameQ`.** Whatever was copied, compared and built before, `IsSameQ` says of two values what it says of their contents. -/
theorem C125_same_partial {h : Heap} (r : Reached h) {a b : V} {x y : Ex} (ha : Content h a x) (hb : Content h b y) :
    ∃ f h', same f h a b = some (isSameQ x y, h') := by
  obtain ⟨R, _⟩ := reached_right r
  have main : ∃ f h', (match hashOf f h a with
      | none => none
      | some (c, h1) =>
        match hashOf f h1 b with
        | none => none
        | some (d, h2) => some (c == d, h2)) = some (hash x == hash y, h') := by
    obtain ⟨f, hf⟩ := ha
    obtain ⟨g, hg⟩ := hb
    have hf := content_mono (Grows.refl h) (Nat.le_max_left f g) hf
    have hg := content_mono (Grows.refl h) (Nat.le_max_right f g) hg
    obtain ⟨h1, e1⟩ := hash_total _ h a x (R.below a) hf
    obtain ⟨R1, A1, _⟩ := hash_sound _ h a _ h1 R e1
    obtain ⟨h2, e2⟩ := hash_total _ h1 b y (R1.below b) (content_mono A1.grows (Nat.le_refl _) hg)
    exact ⟨max f g, h2, by rw [e1]; simp only; rw [e2]⟩
  cases a with
  | atom p =>
    have := content_atom_eq ha
    subst this
    cases b with
    | atom q =>
      have := content_atom_eq hb
      subst this
      exact ⟨0, h, rfl⟩
    | ref m =>
      obtain ⟨f, h', hm⟩ := main
      have hq : isSameQ x y = (hash x == hash y) := by
        obtain ⟨g, hg⟩ := hb
        cases g with
        | zero => simp [content] at hg
        | succ g =>
          simp only [content] at hg
          cases ho : h[m]? with
          | none => rw [ho] at hg; simp at hg
          | some o =>
            rw [ho] at hg
            simp only [Option.map_eq_some_iff] at hg
            obtain ⟨es, _, rfl⟩ := hg
            cases x <;> rfl
      exact ⟨f, h', by rw [hq]; exact hm⟩
  | ref n =>
    obtain ⟨f, h', hm⟩ := main
    have hq : isSameQ x y = (hash x == hash y) := by
      obtain ⟨g, hg⟩ := ha
      cases g with
      | zero => simp [content] at hg
      | succ g =>
        simp only [content] at hg
        cases ho : h[n]? with
        | none => rw [ho] at hg; simp at hg
        | some o =>
          rw [ho] at hg
          simp only [Option.map_eq_some_iff] at hg
          obtain ⟨es, _, rfl⟩ := hg
          cases y <;> rfl
    exact ⟨f, h', by rw [hq]; exact hm⟩

/-- **C125, looking changes nothing.** `Hash` leaves the contents of all values as they were. -/
theorem C125_unchanged {h h' : Heap} (r : Reached h) {f : Nat} {v : V} {c : UInt64} (hh : hashOf f h v = some (c, h'))
    (w : V) (e : Ex) : Content h w e ↔ Content h' w e := by
  obtain ⟨_, a, _⟩ := hash_sound f h v c h' (reached_right r).1 hh
  exact ⟨fun x => x.grow a.grows, fun x => x.grow a.symm.grows⟩

/-- **C125, a copy has the content of the original**, and the original keeps its own. -/
theorem C125_copy {h h' : Heap} (r : Reached h) {f : Nat} {v v' : V} (hh : deepCopy f h v = some (v', h')) {e : Ex}
    (he : Content h v e) : Content h' v' e ∧ Content h' v e := by
  obtain ⟨_, g, c⟩ := copy_sound f h v v' h' (reached_right r).1 hh
  exact ⟨c e he, he.grow g⟩

/-- **C125, `ReplacePD`.** The names in the copy are replaced by their values, and everything that was there before is as it was. (That
what is stored in the result is right, although the parts of the copy are changed while fingerprints of the whole are stored, is part of C125_right_partial: `ReplacePD`
is one of the calls.) -/
theorem C125_replace {h h' : Heap} (r : Reached h) {f : Nat} {env : String → Option V} {σ : String → Option Ex} {v w : V} {e : Ex}
    (he : ∀ s d, env s = some d → Exists h d) (hv : Values h env σ) (hh : replacePD f env h v = some (w, h'))
    (hc : Content h v e) :
    Reached h' ∧ Content h' w (replaced σ e) ∧ (∀ n, n < h.length → h'[n]? = h[n]?) ∧
      ∀ {g : Nat} {c : UInt64} {h'' : Heap}, hashOf g h' w = some (c, h'') → c = hash (replaced σ e) := by
  obtain ⟨R, C⟩ := reached_right r
  obtain ⟨_, _, a, k⟩ := replace_effect R C he hh
  have r' : Reached h' := .step (op := .replacePD env v) f r he (by simp only [perform, hh, Option.map_some])
  refine ⟨r', k σ hv e hc, a, ?_⟩
  intro g c h'' hx
  obtain ⟨x, hx1, rfl⟩ := C125_right_partial r' hx
  rw [hx1.unique (k σ hv e hc)]

namespace Fc

/-- Several swaps one after the other, as `sort.Sort` makes them. -/
def swaps (h : Heap) (n : Nat) : List (Nat × Nat) → Heap
  | [] => h
  | (i, j) :: l => swaps (swap h n i j) n l

theorem leads_swap {h : Heap} {n m i j : Nat} {v : V} (l : Leads (swap h m i j) n v) : Leads h n v := by
  induction l with
  | here => exact .here
  | @into k o w ho hw _ ih =>
    unfold swap at ho
    rw [edit_get] at ho
    cases hq : h[k]? with
    | none => rw [hq] at ho; simp at ho
    | some q =>
      rw [hq] at ho
      simp only [Option.map_some, Option.some.injEq] at ho
      refine .into hq ?_ ih
      subst ho
      by_cases hmk : m = k
      · rw [if_pos hmk] at hw
        exact swap_mem hw
      · rw [if_neg hmk] at hw
        exact hw

theorem free_swap {h : Heap} {n i j : Nat} (fr : Free h n) : Free (swap h n i j) n := by
  intro m o hl ho
  unfold swap at ho
  rw [edit_get] at ho
  cases hq : h[m]? with
  | none => rw [hq] at ho; simp at ho
  | some q =>
    rw [hq] at ho
    simp only [Option.map_some, Option.some.injEq] at ho
    have := fr m q (leads_swap hl) hq
    subst ho
    by_cases hmk : n = m <;> simp [hmk, this]

end Fc

/-- **C125, `Sort`.** A copy is made, its fingerprint is cleared, and then its arguments are moved about (`builtin_sort.go:20-24`): the
rule is kept, whatever is moved. -/
theorem C125_sort {h h1 : Heap} (r : Reached h) {f n m : Nat} (hh : deepCopy f h (.ref n) = some (.ref m, h1))
    (l : List (Nat × Nat)) : Reached (swaps (clear h1 m) m l) := by
  have r1 : Reached h1 := .step (op := .deepCopy (.ref n)) f r trivial (by simp only [perform, hh, Option.map_some])
  have r2 : Reached (clear h1 m) := .step (op := .clear m) 0 r1 trivial rfl
  have fr : Free (clear h1 m) m := by
    cases f with
    | zero => simp [deepCopy] at hh
    | succ f =>
      simp only [deepCopy] at hh
      cases ho : h[n]? with
      | none => rw [ho] at hh; simp at hh
      | some o =>
        rw [ho] at hh
        simp only at hh
        cases h2 : each (deepCopy f) h o.parts with
        | none => rw [h2] at hh; simp at hh
        | some p =>
          obtain ⟨ws, h2'⟩ := p
          rw [h2] at hh
          simp only [Option.some.injEq, Prod.mk.injEq, V.ref.injEq] at hh
          obtain ⟨rfl, rfl⟩ := hh
          obtain ⟨c2, e2⟩ : Closed h2' ∧ ∀ v ∈ ws, Exists h2' v := by
            have main : ∀ (vs : List V) (h : Heap) (ws : List V) (h' : Heap), Closed h → (∀ v ∈ vs, Exists h v) →
                each (deepCopy f) h vs = some (ws, h') → Closed h' ∧ h.length ≤ h'.length ∧ ∀ v ∈ ws, Exists h' v := by
              intro vs
              induction vs with
              | nil =>
                intro h ws h' c _ hh
                simp only [each, Option.some.injEq, Prod.mk.injEq] at hh
                obtain ⟨rfl, rfl⟩ := hh
                exact ⟨c, Nat.le_refl _, by simp⟩
              | cons v vs ih =>
                intro h ws h' c he hh
                simp only [each] at hh
                cases h1 : deepCopy f h v with
                | none => rw [h1] at hh; simp at hh
                | some p =>
                  obtain ⟨a, h1'⟩ := p
                  rw [h1] at hh
                  simp only at hh
                  cases h2 : each (deepCopy f) h1' vs with
                  | none => rw [h2] at hh; simp at hh
                  | some q =>
                    obtain ⟨as, h2'⟩ := q
                    rw [h2] at hh
                    simp only [Option.some.injEq, Prod.mk.injEq] at hh
                    obtain ⟨rfl, rfl⟩ := hh
                    obtain ⟨c1, l1, e1⟩ := copy_closed f h v a h1' c (he v (by simp)) h1
                    obtain ⟨c2, l2, e2⟩ := ih h1' as h2' c1 (fun x hx => (he x (by simp [hx])).le l1) h2
                    refine ⟨c2, l1.trans l2, ?_⟩
                    intro x hx
                    rcases List.mem_cons.mp hx with rfl | hx
                    · exact e1.le l2
                    · exact e2 x hx
            obtain ⟨c2, _, e2⟩ := main _ _ _ _ (reached_right r).2 ((reached_right r).2 n o ho) h2
            exact ⟨c2, e2⟩
          intro k ok hl hk
          have hkm := leads_last c2 e2 (hl.grow (store_alike _ _ _).symm.grows)
          simp only [V.ref.injEq] at hkm
          subst hkm
          unfold clear at hk
          rw [store_get] at hk
          simp at hk
          rw [← hk]
  have main : ∀ (l : List (Nat × Nat)) (g : Heap), Reached g → Free g m → Reached (swaps g m l) := by
    intro l
    induction l with
    | nil => exact fun g rg _ => rg
    | cons p l ih =>
      intro g rg fg
      exact ih _ (.step (op := .swap m p.1 p.2) 0 rg fg rfl) (free_swap fg)
  exact main l _ r2 fr

/-- **C125, the rule is needed.** If an object with a fingerprint stored is changed, directly or by way of something it contains, so
that the fingerprint of its content is now another one, `Hash` does not notice. -/
theorem C125_needed {h : Heap} (r : Right h) {m n : Nat} {o : Obj} (ho : h[m]? = some o) (hp : o.print ≠ 0)
    (g : List V → List V) {e' : Ex} (he : Content (edit h n g) (.ref m) e') (hne : hash e' ≠ o.print) (f : Nat) :
    ∃ e, Content h (.ref m) e ∧ hashOf (f + 1) (edit h n g) (.ref m) = some (hash e, edit h n g) ∧ hash e ≠ hash e' := by
  obtain ⟨e, h1, h2⟩ := r m o ho hp
  refine ⟨e, h1, ?_, fun hx => hne (by rw [← hx, h2])⟩
  simp only [hashOf, edit_get, ho, Option.map_some]
  by_cases hn : n = m
  · simp [hn, hp, h2]
    rw [← h2]
    exact fun hx => absurd hx hp
  · simp [hn, hp, h2]
    rw [← h2]
    exact fun hx => absurd hx hp

/-- **C125, evaluating the arguments.** One turn of the loop over the parts: `h1` is the heap before the part `i` of the object `n` is
evaluated, `h` the one after, with the value `v`. The evaluation may do anything to the rest of the heap, as long as the fingerprints
reached from the value are right and the other parts of `n` have the contents they had. If what was stored in `n` was right before, it is right afterwards: either it is
cleared or the fingerprint of the new content is the same. -/
theorem C125_argument {h1 h : Heap} {n i : Nat} {o : Obj} {es : List Ex} {e' : Ex} {v : V}
    (_h1n : h1[n]? = some o) (hn : h[n]? = some o)
    (hes : List.Forall₂ (Content h1) o.parts es) (hi : i < es.length)
    (hright : o.print ≠ 0 → o.print = hash (.expr es))
    (hsame : ∀ j w, j ≠ i → o.parts[j]? = some w → ∀ e, Content h1 w e → Content h w e)
    (hfar : ∀ w, (w = v ∨ ∃ j, j ≠ i ∧ o.parts[j]? = some w) → ¬ Leads h n w)
    (hv : Content h v e') (hb : Below h v) :
    ∃ f h', argStep f h n i (hash es[i]) v = some h' ∧ Content h' (.ref n) (.expr (es.set i e')) ∧
      ∃ o' : Obj, h'[n]? = some o' ∧ (o'.print ≠ 0 → o'.print = hash (.expr (es.set i e'))) := by
  obtain ⟨f, hf⟩ := hv
  have hlv : ¬ Leads h n v := hfar v (.inl rfl)
  have hv1 : content f (setPart h n i v) v = some e' := content_edit hlv hf
  have hbw : ∀ {w : V}, ¬ Leads h n w → Leads (setPart h n i v) n w → False := by
    intro w hw hl
    induction hl with
    | here => exact hw .here
    | @into k q u hk hu _ ih =>
      unfold setPart at hk
      rw [edit_get] at hk
      cases hq : h[k]? with
      | none => rw [hq] at hk; simp at hk
      | some q' =>
        rw [hq] at hk
        simp only [Option.map_some, Option.some.injEq] at hk
        have hnk : n ≠ k := by
          rintro rfl
          exact hw .here
        rw [if_neg hnk] at hk
        subst hk
        exact ih (fun hl => hw (.into hq hu hl))
  have hb1 : Below (setPart h n i v) v := by
    have back : ∀ {m : Nat} {w : V}, Leads (setPart h n i v) m w → ¬ Leads h n w → Leads h m w := by
      intro m w hl
      induction hl with
      | here => exact fun _ => .here
      | @into k q u hk hu _ ih =>
        intro hw
        unfold setPart at hk
        rw [edit_get] at hk
        cases hq : h[k]? with
        | none => rw [hq] at hk; simp at hk
        | some q' =>
          rw [hq] at hk
          simp only [Option.map_some, Option.some.injEq] at hk
          have hnk : n ≠ k := by
            rintro rfl
            exact hw .here
          rw [if_neg hnk] at hk
          subst hk
          exact .into hq hu (ih (fun hl => hw (.into hq hu hl)))
    intro m om hl hm hp
    have hl' := back hl hlv
    have hnm : n ≠ m := by
      rintro rfl
      exact hlv hl'
    unfold setPart at hm
    rw [edit_get] at hm
    cases hq : h[m]? with
    | none => rw [hq] at hm; simp at hm
    | some q =>
      rw [hq] at hm
      simp only [Option.map_some, if_neg hnm, Option.some.injEq] at hm
      subst hm
      obtain ⟨e, ⟨g, hg⟩, h2⟩ := hb m q hl' hq hp
      exact ⟨e, ⟨g, content_edit (fun hx => hlv (hl'.trans hx)) hg⟩, h2⟩
  obtain ⟨h2, hh2⟩ := hash_total f _ v e' hb1 hv1
  obtain ⟨f2, _, _⟩ := hash_effect f _ v _ h2 hb1 hh2
  have hget : (setPart h n i v)[n]? = some { o with parts := o.parts.set i v } := by
    unfold setPart
    rw [edit_get, hn]
    simp
  have hlen := hes.length_eq
  have hcon : Content (setPart h n i v) (.ref n) (.expr (es.set i e')) := by
    refine (content_ref hget).mpr ⟨_, rfl, ?_⟩
    rw [List.forall₂_iff_get] at hes ⊢
    refine ⟨by simp [hlen], ?_⟩
    intro j hj1 hj2
    simp only [List.length_set] at hj1 hj2
    simp only [List.get_eq_getElem, List.getElem_set]
    by_cases hij : i = j
    · simp only [if_pos hij]
      exact ⟨f, hv1⟩
    · simp only [if_neg hij]
      have hw : o.parts[j]? = some o.parts[j] := List.getElem?_eq_getElem hj1
      have hc := hsame j o.parts[j] (Ne.symm hij) hw es[j] (hes.2 j hj1 hj2)
      obtain ⟨g, hg⟩ := hc
      exact ⟨g, content_edit (hfar _ (.inr ⟨j, Ne.symm hij, hw⟩)) hg⟩
  have h2n : h2[n]? = some { o with parts := o.parts.set i v } := by
    obtain ⟨q, hq, _⟩ := f2.1.grows n _ hget
    rcases f2.2 n q hq with hx | ⟨hx, _, _⟩
    · rw [hx] at hget
      rw [hq, hget]
    · exact absurd hx (fun hl => hbw hlv hl)
  refine ⟨f, if hash es[i] ≠ hash e' then clear h2 n else h2, by unfold argStep; simp only [hh2], ?_, ?_⟩
  · by_cases hc : hash es[i] = hash e'
    · rw [if_neg (by simpa using hc)]
      exact hcon.grow f2.1.grows
    · rw [if_pos hc]
      exact (hcon.grow f2.1.grows).grow (store_alike h2 n 0).grows
  · by_cases hc : hash es[i] = hash e'
    · rw [if_neg (by simpa using hc)]
      refine ⟨_, h2n, ?_⟩
      intro hp
      rw [hright hp, hash_expr, hash_expr, List.map_set, ← hc]
      have hset : List.map hash es = (List.map hash es).set i (hash es[i]) := by
        apply List.ext_getElem?
        intro j
        rw [List.getElem?_set]
        by_cases hij : i = j
        · subst hij
          simp [hi]
        · simp [hij]
      rw [← hset]
    · rw [if_pos hc]
      refine ⟨{ o with parts := o.parts.set i v, print := 0 }, ?_, fun hp => absurd rfl hp⟩
      unfold clear
      rw [store_get, h2n]
      simp

end Expreduce
