import Verif.Proofs.HashCache

/-!
# Substitution in a fresh copy
-/

namespace Expreduce
namespace Fc
open Ex

/-- The pointer, if the value is one, is below `k`. -/
def Low (k : Nat) : V → Prop
  | .atom _ => True
  | .ref m => m < k

theorem Low.le {a b : Nat} (h : a ≤ b) {v : V} (l : Low a v) : Low b v := by
  cases v with
  | atom _ => trivial
  | ref m => exact Nat.lt_of_lt_of_le l h

/-- The values lie one after the other from `lo` to `hi`. -/
def Forest (T : Nat → V → Nat → Prop) : Nat → List V → Nat → Prop
  | lo, [], hi => lo = hi
  | lo, v :: vs, hi => ∃ mid, T lo v mid ∧ Forest T mid vs hi

/-- A value without shared parts, made of the objects from `lo` to `hi`, the parts before the whole. -/
def Tree (h : Heap) : Nat → Nat → V → Nat → Prop
  | 0, _, _, _ => False
  | _ + 1, lo, .atom _, hi => lo = hi
  | f + 1, lo, .ref n, hi => hi = n + 1 ∧ ∃ o : Obj, h[n]? = some o ∧ Forest (Tree h f) lo o.parts n

theorem forest_le {T : Nat → V → Nat → Prop} (ht : ∀ lo v hi, T lo v hi → lo ≤ hi) : ∀ {vs : List V} {lo hi : Nat},
    Forest T lo vs hi → lo ≤ hi
  | [], _, _, h => Nat.le_of_eq h
  | _ :: _, _, _, ⟨_, h1, h2⟩ => (ht _ _ _ h1).trans (forest_le ht h2)

theorem tree_le {h : Heap} : ∀ {f lo : Nat} {v : V} {hi : Nat}, Tree h f lo v hi → lo ≤ hi
  | 0, _, _, _, t => t.elim
  | _ + 1, _, .atom _, _, t => Nat.le_of_eq t
  | f + 1, lo, .ref n, hi, t => by
    obtain ⟨rfl, o, _, ht⟩ := t
    exact (forest_le (fun _ _ _ => tree_le) ht).trans (Nat.le_succ n)

theorem tree_low {h : Heap} {f lo : Nat} {v : V} {hi : Nat} (t : Tree h f lo v hi) : Low hi v := by
  cases v with
  | atom _ => trivial
  | ref n =>
    cases f with
    | zero => exact t.elim
    | succ f =>
      obtain ⟨rfl, _⟩ := t
      exact Nat.lt_succ_self n

theorem forest_mem {T : Nat → V → Nat → Prop} (ht : ∀ lo v hi, T lo v hi → lo ≤ hi) : ∀ {vs : List V} {lo hi : Nat} {v : V},
    Forest T lo vs hi → v ∈ vs → ∃ a b, lo ≤ a ∧ T a v b ∧ b ≤ hi
  | [], _, _, _, _, hv => by simp at hv
  | w :: ws, lo, hi, v, ⟨mid, h1, h2⟩, hv => by
    rcases List.mem_cons.mp hv with rfl | hv
    · exact ⟨lo, mid, Nat.le_refl _, h1, forest_le ht h2⟩
    · obtain ⟨a, b, ha, hT, hb⟩ := forest_mem ht h2 hv
      exact ⟨a, b, (ht _ _ _ h1).trans ha, hT, hb⟩

theorem tree_leads {h : Heap} : ∀ {f lo : Nat} {v : V} {hi m : Nat}, Tree h f lo v hi → Leads h m v → lo ≤ m ∧ m < hi
  | 0, _, _, _, _, t, _ => t.elim
  | _ + 1, _, .atom _, _, _, _, l => by cases l
  | f + 1, lo, .ref n, hi, m, t, l => by
    obtain ⟨rfl, o, ho, ht⟩ := t
    have hle := forest_le (fun _ _ _ => tree_le) ht
    cases l with
    | here => exact ⟨hle, Nat.lt_succ_self _⟩
    | into ho' hw l =>
      rw [ho] at ho'
      simp only [Option.some.injEq] at ho'
      subst ho'
      obtain ⟨a, b, ha, hT, hb⟩ := forest_mem (fun _ _ _ => tree_le) ht hw
      have := tree_leads hT l
      omega

theorem forest_imp {T T' : Nat → V → Nat → Prop} (hle : ∀ lo v hi, T lo v hi → lo ≤ hi) : ∀ {vs : List V} {lo hi : Nat},
    (∀ a v b, lo ≤ a → b ≤ hi → T a v b → T' a v b) → Forest T lo vs hi → Forest T' lo vs hi
  | [], _, _, _, h => h
  | v :: vs, lo, hi, ht, ⟨mid, h1, h2⟩ =>
    ⟨mid, ht _ _ _ (Nat.le_refl _) (forest_le hle h2) h1,
      forest_imp hle (fun a v b ha hb => ht a v b ((hle _ _ _ h1).trans ha) hb) h2⟩

theorem tree_agree {h h' : Heap} : ∀ {f lo : Nat} {v : V} {hi : Nat}, (∀ m, lo ≤ m → m < hi → h'[m]? = h[m]?) →
    Tree h f lo v hi → Tree h' f lo v hi
  | 0, _, _, _, _, t => t.elim
  | _ + 1, _, .atom _, _, _, t => t
  | f + 1, lo, .ref n, hi, ha, t => by
    obtain ⟨rfl, o, ho, ht⟩ := t
    have hle := forest_le (fun _ _ _ => tree_le) ht
    refine ⟨rfl, o, by rw [ha n hle (Nat.lt_succ_self n)]; exact ho, ?_⟩
    exact forest_imp (fun _ _ _ => tree_le)
      (fun a v b hla hb hT => tree_agree (fun m h1 h2 => ha m (by omega) (by omega)) hT) ht

/-- Pointers go down, except below `B`, where they stay. -/
def Down (h : Heap) (B : Nat) : Prop := ∀ (m : Nat) (o : Obj), h[m]? = some o → ∀ w ∈ o.parts, Low (max B m) w

theorem low_leads {h : Heap} {B k m : Nat} (d : Down h B) (hB : B ≤ k) {v : V} (l : Leads h m v) : Low k v → m < k := by
  induction l with
  | here => exact fun hl => hl
  | @into x o w ho hw _ ih =>
    intro hl
    have hx : x < k := hl
    exact ih ((d x o ho w hw).le (by omega))

theorem low_same {h h' : Heap} {B k : Nat} (d : Down h B) (hB : B ≤ k) (ha : ∀ m, m < k → h'[m]? = h[m]?) {v : V} (hl : Low k v) :
    Same h h' v := fun m hm => ha m (low_leads d hB hm hl)

theorem each_copy_tree {f : Nat}
    (ih : ∀ (h : Heap) (v v' : V) (h' : Heap), deepCopy f h v = some (v', h') →
      Tree h' f h.length v' h'.length ∧ h.length ≤ h'.length ∧ (∀ m, m < h.length → h'[m]? = h[m]?) ∧
      ∀ (m : Nat) (o : Obj), h.length ≤ m → h'[m]? = some o → ∀ w ∈ o.parts, Low m w) :
    ∀ (vs : List V) (h : Heap) (ws : List V) (h' : Heap), each (deepCopy f) h vs = some (ws, h') →
      Forest (Tree h' f) h.length ws h'.length ∧ h.length ≤ h'.length ∧ (∀ m, m < h.length → h'[m]? = h[m]?) ∧
      ∀ (m : Nat) (o : Obj), h.length ≤ m → h'[m]? = some o → ∀ w ∈ o.parts, Low m w := by
  intro vs
  induction vs with
  | nil =>
    intro h ws h' hh
    simp only [each, Option.some.injEq, Prod.mk.injEq] at hh
    obtain ⟨rfl, rfl⟩ := hh
    refine ⟨rfl, Nat.le_refl _, fun _ _ => rfl, ?_⟩
    intro m o hm ho
    rw [List.getElem?_eq_none (by omega)] at ho
    simp at ho
  | cons v vs ihv =>
    intro h ws h' hh
    simp only [each] at hh
    cases h1 : deepCopy f h v with
    | none => rw [h1] at hh; simp at hh
    | some p =>
      obtain ⟨a, h1'⟩ := p
      rw [h1] at hh
      simp only at hh
      cases h2 : each (deepCopy f) h1' vs with
      | none => rw [h2] at hh; simp at hh
      | some q =>
        obtain ⟨as, h2'⟩ := q
        rw [h2] at hh
        simp only [Option.some.injEq, Prod.mk.injEq] at hh
        obtain ⟨rfl, rfl⟩ := hh
        obtain ⟨t1, l1, s1, d1⟩ := ih h v a h1' h1
        obtain ⟨t2, l2, s2, d2⟩ := ihv h1' as h2' h2
        refine ⟨⟨h1'.length, tree_agree (fun m _ hm => s2 m hm) t1, t2⟩, l1.trans l2,
          fun m hm => (s2 m (by omega)).trans (s1 m hm), ?_⟩
        intro m o hm ho
        by_cases hlt : m < h1'.length
        · rw [s2 m hlt] at ho
          exact d1 m o hm ho
        · exact d2 m o (by omega) ho

theorem copy_tree : ∀ (f : Nat) (h : Heap) (v v' : V) (h' : Heap), deepCopy f h v = some (v', h') →
    Tree h' f h.length v' h'.length ∧ h.length ≤ h'.length ∧ (∀ m, m < h.length → h'[m]? = h[m]?) ∧
    ∀ (m : Nat) (o : Obj), h.length ≤ m → h'[m]? = some o → ∀ w ∈ o.parts, Low m w
  | 0, _, _, _, _, hh => by simp [deepCopy] at hh
  | f + 1, h, .atom e, v', h', hh => by
    simp only [deepCopy, Option.some.injEq, Prod.mk.injEq] at hh
    obtain ⟨rfl, rfl⟩ := hh
    refine ⟨rfl, Nat.le_refl _, fun _ _ => rfl, ?_⟩
    intro m o hm ho
    rw [List.getElem?_eq_none (by omega)] at ho
    simp at ho
  | f + 1, h, .ref n, v', h', hh => by
    simp only [deepCopy] at hh
    cases ho : h[n]? with
    | none => rw [ho] at hh; simp at hh
    | some o =>
      rw [ho] at hh
      simp only at hh
      cases h1 : each (deepCopy f) h o.parts with
      | none => rw [h1] at hh; simp at hh
      | some p =>
        obtain ⟨ws, h1'⟩ := p
        rw [h1] at hh
        simp only [Option.some.injEq, Prod.mk.injEq] at hh
        obtain ⟨rfl, rfl⟩ := hh
        obtain ⟨t1, l1, s1, d1⟩ := each_copy_tree (copy_tree f) _ _ _ _ h1
        have s2 : ∀ m, m < h1'.length → (h1' ++ [{ parts := ws, print := o.print }])[m]? = h1'[m]? :=
          fun m hm => List.getElem?_append_left hm
        refine ⟨⟨by simp, { parts := ws, print := o.print }, by simp, ?_⟩, by simp; omega, fun m hm => (s2 m (by omega)).trans (s1 m hm), ?_⟩
        · exact forest_imp (fun _ _ _ => tree_le)
            (fun a v b _ hb hT => tree_agree (fun m _ hm => s2 m (by omega)) hT) t1
        · intro m om hm hom w hw
          rcases Nat.lt_trichotomy m h1'.length with hlt | heq | hgt
          · rw [s2 m hlt] at hom
            exact d1 m om hm hom w hw
          · subst heq
            have : om = { parts := ws, print := o.print } := by simpa using hom.symm
            subst this
            obtain ⟨a, b, _, hT, hb⟩ := forest_mem (fun _ _ _ => tree_le) t1 hw
            exact (tree_low hT).le hb
          · rw [List.getElem?_eq_none (by simp; omega)] at hom
            simp at hom

/-- The stored fingerprints of the objects from `lo` to `hi` are right. -/
def RightIn (h : Heap) (lo hi : Nat) : Prop :=
  ∀ (m : Nat) (o : Obj), lo ≤ m → m < hi → h[m]? = some o → o.print ≠ 0 → ∃ e, Content h (.ref m) e ∧ o.print = hash e

theorem Same.Content {h h' : Heap} {v : V} {e : Ex} (s : Same h h' v) (c : Fc.Content h v e) : Fc.Content h' v e := by
  obtain ⟨f, hf⟩ := c
  exact ⟨f, s.content hf⟩

theorem RightIn.low {h h' : Heap} {B lo k : Nat} (r : RightIn h lo k) (d : Down h B) (hB : B ≤ lo)
    (ha : ∀ m, m < k → h'[m]? = h[m]?) : RightIn h' lo k := by
  intro m o hlo hm ho hp
  rw [ha m hm] at ho
  obtain ⟨e, he, h2⟩ := r m o hlo hm ho hp
  exact ⟨e, (low_same d (by omega) ha (show Low k (.ref m) from hm)).Content he, h2⟩

theorem Values.low {h h' : Heap} {B k : Nat} {env : String → Option V} {σ : String → Option Ex} (vs : Values h env σ) (d : Down h B)
    (hB : B ≤ k) (ha : ∀ m, m < k → h'[m]? = h[m]?) (hl : ∀ s x, env s = some x → Low B x) : Values h' env σ := by
  intro s
  rcases vs s with h1 | ⟨x, e, h1, h2, h3⟩
  · exact .inl h1
  · exact .inr ⟨x, e, h1, h2, (low_same d hB ha ((hl s x h1).le hB)).Content h3⟩

/-- What substitution does in a tree of objects. -/
theorem subst_main {env : String → Option V} {σ : String → Option Ex} {B : Nat} (hl : ∀ s x, env s = some x → Low B x) :
    ∀ (f : Nat) (h : Heap) (lo : Nat) (v : V) (hi : Nat) (w : V) (d : Bool) (h' : Heap), Down h B → B ≤ lo → Tree h f lo v hi →
      Below h v → substIn env f h v = some ((w, d), h') →
      (∀ m, m < lo ∨ hi ≤ m → h'[m]? = h[m]?) ∧ h'.length = h.length ∧ Down h' B ∧ RightIn h' lo hi ∧ Low hi w ∧
      (d = false → h' = h ∧ w = v) ∧ (Values h env σ → ∀ e, Content h v e → Content h' w (replaced σ e))
  | 0, _, _, _, _, _, _, _, _, _, t, _, _ => t.elim
  | f + 1, h, lo, .atom a, hi, w, d, h', hd, hB, t, hb, hh => by
    have hlo : lo = hi := t
    subst hlo
    have same : ∀ {e : Ex}, a = e → replaced σ e = e → substIn env (f + 1) h (.atom a) = some ((.atom a, false), h) →
        (∀ m, m < lo ∨ lo ≤ m → h'[m]? = h[m]?) ∧ h'.length = h.length ∧ Down h' B ∧ RightIn h' lo lo ∧ Low lo w ∧
        (d = false → h' = h ∧ w = .atom a) ∧ (Values h env σ → ∀ e, Content h (.atom a) e → Content h' w (replaced σ e)) := by
      intro e hae hr hs
      rw [hs] at hh
      simp only [Option.some.injEq, Prod.mk.injEq] at hh
      obtain ⟨⟨rfl, rfl⟩, rfl⟩ := hh
      refine ⟨fun _ _ => rfl, rfl, hd, fun m _ h1 h2 => by omega, trivial, fun _ => ⟨rfl, rfl⟩, ?_⟩
      intro _ e' he'
      rw [content_atom_eq he', hae, hr]
      exact content_atom h e
    cases a with
    | sym s =>
      cases hs : env s with
      | none =>
        by_cases hv : Values h env σ
        · have hσ : σ s = none := by
            rcases hv s with h1 | ⟨x, e, h1, _⟩
            · exact h1.2
            · rw [hs] at h1; simp at h1
          exact same rfl (by simp [replaced, hσ]) (by simp [substIn, hs])
        · simp only [substIn, hs, Option.some.injEq, Prod.mk.injEq] at hh
          obtain ⟨⟨rfl, rfl⟩, rfl⟩ := hh
          exact ⟨fun _ _ => rfl, rfl, hd, fun m _ h1 h2 => by omega, trivial, fun _ => ⟨rfl, rfl⟩, fun h1 => absurd h1 hv⟩
      | some x =>
        simp only [substIn, hs, Option.some.injEq, Prod.mk.injEq] at hh
        obtain ⟨⟨rfl, rfl⟩, rfl⟩ := hh
        refine ⟨fun _ _ => rfl, rfl, hd, fun m _ h1 h2 => by omega, (hl s x hs).le hB, fun hx => by simp at hx, ?_⟩
        intro hv e he
        rcases hv s with h1 | ⟨y, e', h1, h2, h3⟩
        · rw [hs] at h1; simp at h1
        · rw [hs] at h1
          simp only [Option.some.injEq] at h1
          subst h1
          rw [content_atom_eq he]
          simpa [replaced, h2] using h3
    | expr ps => simp [substIn] at hh
    | str s => exact same rfl (by simp [replaced]) (by simp [substIn])
    | int n => exact same rfl (by simp [replaced]) (by simp [substIn])
    | rat n d => exact same rfl (by simp [replaced]) (by simp [substIn])
    | flt x => exact same rfl (by simp [replaced]) (by simp [substIn])
    | cplx x y => exact same rfl (by simp [replaced]) (by simp [substIn])
  | f + 1, h, lo, .ref n, hi, w, d, h', hd, hB, t, hb, hh => by
    obtain ⟨rfl, o, ho, hF⟩ := t
    have ih := subst_main hl (σ := σ) f
    have main : ∀ (rest don : List V) (mid : Nat) (g : Heap) (d : Bool) (p : UInt64) (d' : Bool) (g' : Heap),
        g[n]? = some { parts := don ++ rest, print := p } → Forest (Tree g f) mid rest n → Down g B → lo ≤ mid →
        (∀ v ∈ rest, Below g v) → RightIn g lo mid → (d = true → p = 0) →
        substParts (substIn env f) n g d (List.range' don.length rest.length) = some (d', g') →
        (∀ m, m < mid ∨ n < m → g'[m]? = g[m]?) ∧ g'.length = g.length ∧ Down g' B ∧ RightIn g' lo n ∧
        (d = true → d' = true) ∧ (d' = false → g' = g) ∧
        ∃ don' p', g'[n]? = some { parts := don ++ don', print := p' } ∧ (d' = true → p' = 0) ∧
          (Values g env σ → ∀ es, List.Forall₂ (Content g) rest es → List.Forall₂ (Content g') don' (replacedParts σ es)) := by
      intro rest
      induction rest with
      | nil =>
        intro don mid g d p d' g' hn hF hd _ _ hR hp hh
        simp only [List.length_nil, List.range'_zero, substParts, Option.some.injEq, Prod.mk.injEq] at hh
        obtain ⟨rfl, rfl⟩ := hh
        have : mid = n := hF
        subst this
        refine ⟨fun _ _ => rfl, rfl, hd, hR, id, fun _ => rfl, [], p, by simpa using hn, hp, ?_⟩
        intro _ es hes
        cases hes
        exact .nil
      | cons v rest ihr =>
        intro don mid g d p d' g' hn hF hd hlo hBv hR hp hh
        obtain ⟨mid1, hT, hF1⟩ := hF
        have hm1 := tree_le hT
        have hmn := forest_le (fun _ _ _ => tree_le) hF1
        rw [List.length_cons, List.range'_succ] at hh
        simp only [substParts, hn, Option.bind_some] at hh
        have hget : (don ++ v :: rest)[don.length]? = some v := by simp
        rw [hget] at hh
        simp only at hh
        cases h1 : substIn env f g v with
        | none => rw [h1] at hh; simp at hh
        | some q =>
          obtain ⟨⟨w, dv⟩, g1⟩ := q
          rw [h1] at hh
          simp only at hh
          obtain ⟨a1, l1, d1, r1, w1, z1, c1⟩ := ih g mid v mid1 w dv g1 hd (by omega) hT (hBv v (by simp)) h1
          have g1n : g1[n]? = some { parts := don ++ v :: rest, print := p } := by
            rw [a1 n (.inr hmn)]
            exact hn
          obtain ⟨g3, hg3⟩ : ∃ g3, g3 = setPart (if dv then clear g1 n else g1) n don.length w := ⟨_, rfl⟩
          rw [← hg3] at hh
          have hset : (don ++ v :: rest).set don.length w = (don ++ [w]) ++ rest := by simp
          have g3n : g3[n]? = some { parts := (don ++ [w]) ++ rest, print := if dv then 0 else p } := by
            rw [hg3]
            unfold setPart
            rw [edit_get]
            cases dv with
            | false => simp only [Bool.false_eq_true, if_false, g1n, Option.map_some, if_true, hset]
            | true =>
              simp only [if_true]
              unfold clear
              rw [store_get, g1n]
              simp only [Option.map_some, if_true, hset]
          have g3m : ∀ m, m ≠ n → g3[m]? = g1[m]? := by
            intro m hm
            rw [hg3]
            unfold setPart
            rw [edit_get]
            cases dv with
            | false =>
              simp only [Bool.false_eq_true, if_false]
              cases g1[m]? <;> simp [Ne.symm hm]
            | true =>
              simp only [if_true]
              unfold clear
              rw [store_get]
              cases g1[m]? <;> simp [Ne.symm hm]
          have l3 : g3.length = g1.length := by
            rw [hg3]
            cases dv <;> simp [setPart, edit, clear, store]
          have d3 : Down g3 B := by
            intro m om hom x hx
            by_cases hmn' : m = n
            · subst hmn'
              rw [g3n] at hom
              simp only [Option.some.injEq] at hom
              subst hom
              simp only [List.append_assoc, List.cons_append, List.nil_append, List.mem_append, List.mem_cons] at hx
              rcases hx with hx | rfl | hx
              · exact d1 m _ g1n x (by simp [hx])
              · exact w1.le (by omega)
              · exact d1 m _ g1n x (by simp [hx])
            · rw [g3m m hmn'] at hom
              exact d1 m om hom x hx
          have a3 : ∀ m, mid1 ≤ m → m < n → g3[m]? = g[m]? := by
            intro m hm1 hm2
            rw [g3m m (by omega), a1 m (.inr hm1)]
          have sr : ∀ x ∈ rest, Same g g3 x := by
            intro x hx m hm
            obtain ⟨a, b, ha, hTx, hb⟩ := forest_mem (fun _ _ _ => tree_le) hF1 hx
            have := tree_leads hTx hm
            exact a3 m (by omega) (by omega)
          have R1 : RightIn g1 lo mid1 := by
            intro m om hm1 hm2 hom hpm
            by_cases hmm : m < mid
            · have hR1 : RightIn g1 lo mid := hR.low hd hB (fun k hk => a1 k (.inl hk))
              exact hR1 m om hm1 hmm hom hpm
            · exact r1 m om (by omega) hm2 hom hpm
          have R3 : RightIn g3 lo mid1 := R1.low d1 hB (fun k hk => g3m k (by omega))
          obtain ⟨a', l', d'', R', t', z', don', p', n', p0', c'⟩ := ihr (don ++ [w]) mid1 g3 (d || dv) (if dv then 0 else p) d' g' g3n
            (forest_imp (fun _ _ _ => tree_le) (fun a x b ha hb hTx => tree_agree (fun m h1 h2 => a3 m (by omega) (by omega)) hTx) hF1)
            d3 (by omega) (fun x hx => (sr x hx).below (hBv x (by simp [hx]))) R3
            (by
              intro hdd
              cases dv with
              | true => rfl
              | false => exact hp (by simpa using hdd))
            (by simpa using hh)
          refine ⟨?_, l'.trans (l3.trans l1), d'', R', fun hd => t' (by simp [hd]), ?_, w :: don', p', by simpa using n', p0', ?_⟩
          · intro m hm
            rw [a' m (by omega), g3m m (by omega), a1 m (by omega)]
          · intro hdf
            have hdv : dv = false := by
              cases dv with
              | false => rfl
              | true =>
                have := t' (by simp)
                rw [this] at hdf
                simp at hdf
            obtain ⟨e1, e2⟩ := z1 hdv
            subst e2
            rw [z' hdf]
            apply List.ext_getElem?
            intro m
            by_cases hmn' : m = n
            · subst hmn'
              rw [g3n, hn, hdv]
              simp
            · rw [g3m m hmn', e1]
          · intro hv es hes
            cases hes with
            | @cons _ e _ es he hes =>
              have hlow : ∀ k, k < mid1 → g'[k]? = g1[k]? := fun k hk => by rw [a' k (.inl hk), g3m k (by omega)]
              refine .cons ((low_same d1 (by omega) hlow w1).Content (c1 hv e he)) ?_
              have hv3 : Values g3 env σ :=
                hv.low hd (Nat.le_trans hB hlo) (fun k hk => by rw [g3m k (by omega), a1 k (.inl hk)]) hl
              exact c' hv3 es (forall2_mem hes (fun x hx e he => (sr x hx).Content he))
    simp only [substIn, ho] at hh
    cases h1 : substParts (substIn env f) n h false (List.range o.parts.length) with
    | none => rw [h1] at hh; simp at hh
    | some q =>
      obtain ⟨dq, g⟩ := q
      rw [h1] at hh
      simp only [Option.some.injEq, Prod.mk.injEq] at hh
      obtain ⟨⟨rfl, rfl⟩, rfl⟩ := hh
      obtain ⟨a, l, dn, R, _, z, don, p, n1, p0, c⟩ := main o.parts [] lo h false o.print dq g (by simpa using ho) hF hd
        (Nat.le_refl _) (fun v hv m om hl => hb m om (.into ho hv hl)) (fun m _ h1 h2 => by omega) (by simp)
        (by rw [List.length_nil, ← List.range_eq_range']; exact h1)
      have hle := forest_le (fun _ _ _ => tree_le) hF
      refine ⟨fun m hm => a m (by omega), l, dn, ?_, Nat.lt_succ_self n, fun hd => ⟨z hd, rfl⟩, ?_⟩
      · intro m om hm1 hm2 hom hpm
        by_cases hmn : m < n
        · exact R m om hm1 hmn hom hpm
        · have : m = n := by omega
          subst this
          cases dq with
          | true =>
            rw [n1] at hom
            simp only [Option.some.injEq] at hom
            subst hom
            exact absurd (p0 rfl) hpm
          | false =>
            have hg := z rfl
            subst hg
            exact hb m om .here hom hpm
      · intro hv e he
        obtain ⟨es, rfl, hes⟩ := (content_ref ho).mp he
        have := c hv es hes
        refine (content_ref n1).mpr ⟨_, ?_, by simpa using this⟩
        simp [replaced]

end Fc
end Expreduce
