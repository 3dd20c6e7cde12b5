import Verif.Props.HashCache
import Verif.Model.Compare

/-!
# C125, continued: objects under construction, and `Min`
-/

namespace Expreduce
open Ex Fc

namespace Fc

theorem append_last {h : Heap} {o : Obj} {w : V} :
    appendEx (h ++ [o]) h.length w = h ++ [{ o with parts := o.parts ++ [w] }] := by
  apply List.ext_getElem?
  intro i
  unfold appendEx
  rw [edit_get]
  rcases Nat.lt_trichotomy i h.length with hlt | heq | hgt
  · rw [List.getElem?_append_left hlt, List.getElem?_append_left hlt]
    cases h[i]? with
    | none => rfl
    | some q => simp [Nat.ne_of_gt hlt]
  · subst heq
    simp
  · rw [List.getElem?_eq_none (by simp; omega), List.getElem?_eq_none (by simp; omega)]
    rfl

end Fc

/-- **C125, building an expression.** A new object, to which parts that exist already are appended one after the other, as most of
the built-in functions make their results: the rule is kept. -/
theorem C125_built {h : Heap} (r : Reached h) (vs ws : List V) (hv : ∀ v ∈ vs, Exists h v) (hw : ∀ w ∈ ws, Exists h w) :
    Reached (ws.foldl (fun g w => appendEx g h.length w) (new h vs).2) := by
  have c := (reached_right r).2
  have main : ∀ (ws ps : List V), (∀ v ∈ ps, Exists h v) → (∀ w ∈ ws, Exists h w) →
      Reached (h ++ [{ parts := ps }]) → Reached (ws.foldl (fun g w => appendEx g h.length w) (h ++ [{ parts := ps }])) := by
    intro ws
    induction ws with
    | nil => exact fun _ _ _ hr => hr
    | cons w ws ih =>
      intro ps hps hws hr
      simp only [List.foldl_cons]
      have hstep : Reached (appendEx (h ++ [{ parts := ps }]) h.length w) := by
        refine .step (op := .append h.length w) 0 hr ⟨?_, (hws w (by simp)).le (by simp)⟩ rfl
        intro m o hl ho
        have := leads_last c (o := { parts := ps }) hps hl
        simp only [V.ref.injEq] at this
        subst this
        have : o = { parts := ps } := by simpa using ho.symm
        subst this
        rfl
      rw [append_last] at hstep ⊢
      refine ih (ps ++ [w]) ?_ (fun x hx => hws x (by simp [hx])) hstep
      intro v hv
      rcases List.mem_append.mp hv with h1 | h1
      · exact hps v h1
      · rw [List.mem_singleton.mp h1]
        exact hws w (by simp)
  exact main ws vs hv hw (.step (op := .new vs) 0 r hv rfl)

namespace Fc

/-- The object `n` is `Min[es]`, its arguments are stored right and do not contain it. -/
structure IsMin (f : Nat) (h : Heap) (n : Nat) (args : List V) (es : List Ex) : Prop where
  obj : ∃ c, h[n]? = some { parts := .atom (S "Min") :: args, print := c }
  far : ∀ v ∈ args, ¬ Leads h n v
  below : ∀ v ∈ args, Below h v
  cont : List.Forall₂ (fun v e => content (f + 1) h v = some e) args es

theorem IsMin.fill {f n : Nat} {args : List V} {es : List Ex} {h h' : Heap} {P : Nat → Prop} (i : IsMin f h n args es)
    (x : Fills P h h') : IsMin f h' n args es := by
  obtain ⟨c, hc⟩ := i.obj
  obtain ⟨o, ho, hp⟩ := x.1.grows n _ hc
  exact ⟨⟨o.print, by obtain ⟨q, r⟩ := o; simp only at hp; subst hp; exact ho⟩, fun v hv hl => i.far v hv (hl.grow x.1.symm.grows),
    fun v hv => x.below (i.below v hv), i.cont.imp (fun _ _ hx => content_mono x.1.grows (Nat.le_refl _) hx)⟩

/-- One call of `Min`: the object is given back as it was, with the fingerprint of the list of its arguments. -/
theorem min_round {f n : Nat} {args : List V} {es : List Ex} {h : Heap} (i : IsMin f h n args es) :
    ∃ h', minFn (f + 2) h n = some (.ref n, h') ∧ IsMin f h' n args es ∧
      h'[n]? = some { parts := .atom (S "Min") :: args, print := hash (.expr (S "List" :: es)) } := by
  obtain ⟨c, hn⟩ := i.obj
  have hnlen : n < h.length := (List.getElem?_eq_some_iff.mp hn).1
  let h1 : Heap := setPart (store h n 0) n 0 (.atom (S "List"))
  let D : Obj := { parts := .atom (S "List") :: args }
  let h2 : Heap := h1 ++ [D]
  have hl1 : h1.length = h.length := by simp [h1, setPart, edit, store]
  have g1 : ∀ m, h1[m]? = (h[m]?).map (fun o => if n = m then { parts := o.parts.set 0 (.atom (S "List")), print := 0 } else o) := by
    intro m
    simp only [h1, setPart]
    rw [edit_get, store_get]
    cases h[m]? with
    | none => rfl
    | some o => by_cases hm : n = m <;> simp [hm]
  have h2n : h2[n]? = some { parts := .atom (S "List") :: args, print := 0 } := by
    simp only [h2]
    rw [List.getElem?_append_left (by omega), g1, hn]
    simp
  have h2d : h2[h1.length]? = some D := by simp [h2]
  have hsame : ∀ v ∈ args, Same h h2 v := by
    intro v hv m hm
    obtain ⟨e, he⟩ := forall2_exists i.cont v hv
    obtain ⟨o, ho⟩ := leads_exists hm he
    have hlt := (List.getElem?_eq_some_iff.mp ho).1
    have hnm : n ≠ m := by
      rintro rfl
      exact i.far v hv hm
    simp only [h2]
    rw [List.getElem?_append_left (by omega), g1, ho]
    simp [hnm]
  have far2 : ∀ v ∈ args, ¬ Leads h2 n v := fun v hv hl => i.far v hv (Same.leads hl (hsame v hv))
  have below2 : ∀ v ∈ args, Below h2 v := fun v hv => (hsame v hv).below (i.below v hv)
  have cont2 : List.Forall₂ (fun v e => content (f + 1) h2 v = some e) args es :=
    forall2_mem i.cont (fun v hv e he => (hsame v hv).content he)
  have both : ∀ k, h2[k]? = some { parts := .atom (S "List") :: args, print := 0 } →
      Below h2 (.ref k) ∧ content (f + 2) h2 (.ref k) = some (.expr (S "List" :: es)) := by
    intro k hk
    constructor
    · intro m o hl ho hp
      cases hl with
      | here =>
        rw [hk] at ho
        simp only [Option.some.injEq] at ho
        subst ho
        exact absurd rfl hp
      | into hq hw hl =>
        rw [hk] at hq
        simp only [Option.some.injEq] at hq
        subst hq
        rcases List.mem_cons.mp hw with rfl | hw
        · cases hl
        · exact below2 _ hw m o hl ho hp
    · have : (V.atom (S "List") :: args).mapM (content (f + 1) h2) = some (S "List" :: es) :=
        mapM_of_forall2 (.cons rfl cont2)
      rw [show f + 2 = (f + 1) + 1 from rfl, Fc.content, hk]
      simp only [this, Option.map_some]
  obtain ⟨bn, cn⟩ := both n h2n
  obtain ⟨bd, cd⟩ := both h1.length h2d
  obtain ⟨h3, e3⟩ := hash_total (f + 2) h2 (.ref n) _ bn cn
  obtain ⟨f3, _, st3⟩ := hash_effect (f + 2) h2 (.ref n) _ h3 bn e3
  obtain ⟨h4, e4⟩ := hash_total (f + 2) h3 (.ref h1.length) _ (f3.below bd) (content_mono f3.1.grows (Nat.le_refl _) cd)
  obtain ⟨f4, _, _⟩ := hash_effect (f + 2) h3 (.ref h1.length) _ h4 (f3.below bd) e4
  have h4n : h4[n]? = some { parts := .atom (S "List") :: args, print := hash (.expr (S "List" :: es)) } := by
    obtain ⟨o3, ho3, hp3⟩ := st3 n rfl
    obtain ⟨o2, ho2, hq3⟩ := f3.1.symm.grows n o3 ho3
    rw [h2n] at ho2
    simp only [Option.some.injEq] at ho2
    subst ho2
    obtain ⟨o4, ho4, hq4⟩ := f4.1.grows n o3 ho3
    have hp4 : o4.print = hash (.expr (S "List" :: es)) := by
      rcases f4.2 n o4 ho4 with hx | ⟨_, _, e, he, hx⟩
      · rw [ho3] at hx
        rw [← show o3 = o4 by simpa using hx, hp3]
      · rw [hx, he.unique ⟨f + 2, content_mono f3.1.grows (Nat.le_refl _) cn⟩]
    rw [ho4, ← hp4]
    have : o4.parts = .atom (S "List") :: args := by rw [hq4, ← hq3]
    rw [← this]
  let h5 : Heap := setPart h4 n 0 (.atom (S "Min"))
  have h5n : h5[n]? = some { parts := .atom (S "Min") :: args, print := hash (.expr (S "List" :: es)) } := by
    simp only [h5, setPart]
    rw [edit_get, h4n]
    simp
  refine ⟨h5, ?_, ?_, h5n⟩
  · unfold minFn
    rw [hn]
    have hs : same (f + 2) h2 (.ref n) (.ref h1.length) = some (true, h4) := by
      simp only [same, e3, e4, beq_self_eq_true]
    simp only [new, List.drop_one, List.tail_cons]
    show (match same (f + 2) h2 (.ref n) (.ref h1.length) with
      | none => none
      | some (true, h3) => some (V.ref n, setPart h3 n 0 (.atom (S "Min")))
      | some (false, h3) => some (V.ref h1.length, setPart h3 h1.length 0 (.atom (S "Min")))) = _
    rw [hs]
  · have f24 : Fills (fun m => Leads h2 m (.ref n) ∨ Leads h2 m (.ref h1.length)) h2 h4 :=
      (f3.weaken (fun m hm => .inl hm)).trans (f4.weaken (fun m hm => .inr (hm.grow f3.1.symm.grows)))
    have far4 : ∀ v ∈ args, ¬ Leads h4 n v := fun v hv hl => far2 v hv (hl.grow f24.1.symm.grows)
    have s5 : ∀ v ∈ args, Same h4 h5 v := by
      intro v hv m hm
      have hnm : n ≠ m := by
        rintro rfl
        exact far4 v hv hm
      simp only [h5, setPart]
      rw [edit_get]
      simp [hnm]
    exact ⟨⟨_, h5n⟩, fun v hv hl => far4 v hv (Same.leads hl (s5 v hv)),
      fun v hv => (s5 v hv).below (f24.below (below2 v hv)),
      forall2_mem cont2 (fun v hv e he => (s5 v hv).content (content_mono f24.1.grows (Nat.le_refl _) he))⟩

/-- Arguments on which `Min` comes back as it is: at least two, no list among them, in order, the first no number. -/
def Symbolic (es : List Ex) : Prop :=
  2 ≤ es.length ∧ (∀ e ∈ es, ∀ ps, e ≠ .expr (S "List" :: ps)) ∧ es.Pairwise (fun a b => exOrder a b ≠ -1) ∧
    firstNonNumber es = 1

end Fc

/-- **C125, `Min` confuses itself with a list.** Let the object `n` be `Min[e1, ..., ek]` with such arguments and with the right fingerprints
stored in it. Evaluating it gives the same object with the same content, but the fingerprint stored in it is now that of the list
`{e1, ..., ek}`; and `SameQ` finds it to be the same as any list with that content. -/
theorem C125_min {f n : Nat} {h : Heap} {args : List V} {es : List Ex} (i : IsMin f h n args es) (hb : Below h (.ref n))
    (_hs : Symbolic es) (hz : hash (.expr (S "Min" :: es)) ≠ 0) (hz' : hash (.expr (S "List" :: es)) ≠ 0) :
    ∃ h', minLoop (f + 2) 3 0 h (.ref n) = some (.ref n, h') ∧ Content h' (.ref n) (.expr (S "Min" :: es)) ∧
      (∀ g, hashOf (g + 1) h' (.ref n) = some (hash (.expr (S "List" :: es)), h')) ∧
      ∀ w, Content h' w (.expr (S "List" :: es)) → Below h' w → ∃ g h'', same g h' (.ref n) w = some (true, h'') := by
  have content_of : ∀ {h : Heap}, IsMin f h n args es → content (f + 2) h (.ref n) = some (.expr (S "Min" :: es)) := by
    intro h i
    obtain ⟨c, hc⟩ := i.obj
    have : (V.atom (S "Min") :: args).mapM (content (f + 1) h) = some (S "Min" :: es) := mapM_of_forall2 (.cons rfl i.cont)
    rw [show f + 2 = (f + 1) + 1 from rfl, Fc.content, hc]
    simp only [this, Option.map_some]
  have printed : ∀ {h : Heap}, h[n]? = some { parts := .atom (S "Min") :: args, print := hash (.expr (S "List" :: es)) } →
      ∀ g, hashOf (g + 1) h (.ref n) = some (hash (.expr (S "List" :: es)), h) := by
    intro h hn g
    simp only [hashOf, hn]
    rw [if_pos hz']
  have final : ∀ {h' : Heap}, IsMin f h' n args es →
      h'[n]? = some { parts := .atom (S "Min") :: args, print := hash (.expr (S "List" :: es)) } →
      Content h' (.ref n) (.expr (S "Min" :: es)) ∧
      (∀ g, hashOf (g + 1) h' (.ref n) = some (hash (.expr (S "List" :: es)), h')) ∧
      ∀ w, Content h' w (.expr (S "List" :: es)) → Below h' w → ∃ g h'', same g h' (.ref n) w = some (true, h'') := by
    intro h' i' hn'
    refine ⟨⟨f + 2, content_of i'⟩, printed hn', ?_⟩
    rintro w ⟨g, hg⟩ hw
    obtain ⟨h'', he⟩ := hash_total (g + 1) h' w _ hw (content_mono (Grows.refl _) (Nat.le_succ g) hg)
    exact ⟨g + 1, h'', by simp only [same, printed hn' g, he, beq_self_eq_true]⟩
  obtain ⟨h1, e1⟩ := hash_total (f + 2) h (.ref n) _ hb (content_of i)
  obtain ⟨f1, _, _⟩ := hash_effect (f + 2) h (.ref n) _ h1 hb e1
  obtain ⟨h2, m2, i2, n2⟩ := min_round (i.fill f1)
  obtain ⟨h3, m3, i3, n3⟩ := min_round i2
  by_cases hc : hash (.expr (S "List" :: es)) = hash (.expr (S "Min" :: es))
  · refine ⟨h2, ?_, final i2 n2⟩
    rw [minLoop, e1]
    simp only [if_neg hz, m2]
    rw [minLoop, printed n2 (f + 1)]
    simp only [if_pos hc]
  · refine ⟨h3, ?_, final i3 n3⟩
    rw [minLoop, e1]
    simp only [if_neg hz, m2]
    rw [minLoop, printed n2 (f + 1)]
    simp only [if_neg hc, m3]
    rw [minLoop, printed n3 (f + 1)]
    simp only [if_true]

/-! The hypotheses can be met, and the wrong answers occur. -/

namespace Fc

/-- `a` and `b`. -/
def exA : Ex := .sym "Global`a"
/-- See above. -/
def exB : Ex := .sym "Global`b"

/-- One object, `Min[a, b]`, without a fingerprint. -/
def minHeap : Heap := [{ parts := [.atom (S "Min"), .atom exA, .atom exB] }]

theorem minHeap_isMin : IsMin 0 minHeap 0 [.atom exA, .atom exB] [exA, exB] := by
  refine ⟨⟨0, rfl⟩, ?_, ?_, ?_⟩
  · intro v hv hl
    simp only [List.mem_cons, List.not_mem_nil, or_false] at hv
    rcases hv with rfl | rfl <;> cases hl
  · intro v hv m o hl
    simp only [List.mem_cons, List.not_mem_nil, or_false] at hv
    rcases hv with rfl | rfl <;> cases hl
  · exact .cons rfl (.cons rfl .nil)

theorem minHeap_below : Below minHeap (.ref 0) := by
  intro m o _ ho hp
  cases m with
  | zero =>
    simp only [minHeap, List.getElem?_cons_zero, Option.some.injEq] at ho
    subst ho
    exact absurd rfl hp
  | succ m => simp [minHeap] at ho

theorem exA_symbolic : Symbolic [exA, exB] := by
  refine ⟨by decide, ?_, ?_, by decide +kernel⟩
  · intro e he ps
    simp only [List.mem_cons, List.not_mem_nil, or_false] at he
    rcases he with rfl | rfl <;> simp [exA, exB]
  · simp only [List.pairwise_cons, List.not_mem_nil, false_implies, implies_true, List.mem_singleton, forall_eq,
      List.Pairwise.nil, and_true]
    decide +kernel

end Fc

example : ∃ h', minLoop 2 3 0 minHeap (.ref 0) = some (.ref 0, h') ∧ Content h' (.ref 0) (.expr [S "Min", exA, exB]) ∧
    (∀ g, hashOf (g + 1) h' (.ref 0) = some (hash (.expr [S "List", exA, exB]), h')) ∧
    ∀ w, Content h' w (.expr [S "List", exA, exB]) → Below h' w → ∃ g h'', same g h' (.ref 0) w = some (true, h'') :=
  C125_min minHeap_isMin minHeap_below exA_symbolic (by decide +kernel) (by decide +kernel)

/-- `x = f[a]; x === f[a]; AppendEx(x, b); x === f[a]`: the last answer is `True`, and `x === f[a, b]` would be `False`. -/
example :
    let h : Heap := [{ parts := [.atom (S "f"), .atom exA] }, { parts := [.atom (S "f"), .atom exA] },
      { parts := [.atom (S "f"), .atom exA, .atom exB] }]
    ∃ h1, same 2 h (.ref 0) (.ref 1) = some (true, h1) ∧
      content 2 (appendEx h1 0 (.atom exB)) (.ref 0) = some (.expr [S "f", exA, exB]) ∧
      (same 2 (appendEx h1 0 (.atom exB)) (.ref 0) (.ref 1)).map (·.1) = some true ∧
      (same 2 (appendEx h1 0 (.atom exB)) (.ref 0) (.ref 2)).map (·.1) = some false := by
  refine ⟨[{ parts := [.atom (S "f"), .atom exA], print := hash (.expr [S "f", exA]) },
    { parts := [.atom (S "f"), .atom exA], print := hash (.expr [S "f", exA]) },
    { parts := [.atom (S "f"), .atom exA, .atom exB] }], ?_, rfl, ?_, ?_⟩ <;> decide +kernel

/-- A copy of a hashed expression, put together, is a reached heap with stored fingerprints. -/
example : ∃ h, Reached h ∧ (∃ o : Obj, h[1]? = some o ∧ o.print ≠ 0) ∧ Content h (.ref 1) (.expr [S "f", exA]) := by
  have r1 : Reached [{ parts := [.atom (S "f"), .atom exA] }] :=
    .step (op := .new [.atom (S "f"), .atom exA]) 0 .start (by intro v hv; simp at hv; rcases hv with rfl | rfl <;> trivial) rfl
  have r2 : Reached [{ parts := [.atom (S "f"), .atom exA], print := hash (.expr [S "f", exA]) }] :=
    .step (op := .hash (.ref 0)) 2 r1 trivial (by decide +kernel)
  have r3 : Reached [{ parts := [.atom (S "f"), .atom exA], print := hash (.expr [S "f", exA]) },
      { parts := [.atom (S "f"), .atom exA], print := hash (.expr [S "f", exA]) }] :=
    .step (op := .deepCopy (.ref 0)) 2 r2 trivial rfl
  exact ⟨_, r3, ⟨_, rfl, by decide +kernel⟩, 2, rfl⟩

/-- `f[g[a], g[b]]` with all fingerprints stored, and `b` replaced by `a`: the whole and the second part lose theirs, the first keeps it, and
what `Hash` then answers is the fingerprint of `f[g[a], g[a]]`. -/
example :
    let h : Heap := [{ parts := [.atom (S "g"), .atom exA] }, { parts := [.atom (S "g"), .atom exB] },
      { parts := [.atom (S "f"), .ref 0, .ref 1] }]
    let env : String → Option V := fun s => if s = "Global`b" then some (.atom exA) else none
    ((hashOf 3 h (.ref 2)).bind fun p => (replacePD 3 env p.2 (.ref 2)).map fun q =>
      (q.1, (q.2.drop 3).map fun o => decide (o.print = 0), (hashOf 3 q.2 q.1).map (·.1))) =
    some (.ref 5, [false, true, true], some (hash (.expr [S "f", .expr [S "g", exA], .expr [S "g", exA]]))) := by
  decide +kernel

end Expreduce
