import Verif.Spec.Concurrent
import Verif.Proofs.DefsOps

/-! Lemmas on threads sharing the table. -/

namespace Expreduce
open Ex
namespace Prog

/-- No entry is missing when it is read: `K` holds names known to be in the table. -/
def Safe (K : String → Prop) : Prog → Prop
  | .done _ => True
  | .has n k => Safe (fun m => K m ∨ m = n) (k true) ∧ (K n ∨ Safe K (k false))
  | .get n k => (∀ d, Safe K (k (some d))) ∧ (K n ∨ Safe K (k none))
  | .set n _ k => Safe (fun m => K m ∨ m = n) k
  | .upd _ _ k => Safe K k
  | .missing => False
  | .badIndex => True

theorem Safe.mono : ∀ {p : Prog} {K K' : String → Prop}, Safe K p → (∀ n, K n → K' n) → Safe K' p
  | .done _, _, _, _, _ => trivial
  | .has n k, K, K', h, hK => ⟨Safe.mono h.1 (fun m hm => hm.imp (hK m) id), h.2.imp (hK n) (fun h => Safe.mono h hK)⟩
  | .get n k, K, K', h, hK => ⟨fun d => Safe.mono (h.1 d) hK, h.2.imp (hK n) (fun h => Safe.mono h hK)⟩
  | .set n _ k, K, K', h, hK => Safe.mono (p := k) h (fun m hm => hm.imp (hK m) id)
  | .upd _ _ k, K, K', h, hK => Safe.mono (p := k) h hK
  | .missing, _, _, h, _ => h
  | .badIndex, _, _, _, _ => trivial

/-- The names of the table. -/
def known (t : Table) : String → Prop := fun n => t n ≠ none

theorem known_step (t : Table) (p : Prog) (n : String) (h : known t n) : known (step t p).1 n := by
  cases p with
  | set m d k =>
    simp only [step, known, Table.set]
    split
    · simp
    · exact h
  | upd m f k =>
    simp only [step, known]
    split
    · rename_i e; subst e; simpa [known] using h
    · exact h
  | _ => exact h

theorem safe_step {t : Table} {p : Prog} (h : Safe (known t) p) : Safe (known (step t p).1) (step t p).2 := by
  cases p with
  | done _ => trivial
  | has n k =>
    simp only [step]
    cases e : t n with
    | none =>
      rcases h.2 with h2 | h2
      · exact absurd e h2
      · exact h2
    | some d =>
      refine Safe.mono h.1 ?_
      rintro m (hm | rfl)
      · exact hm
      · simp [known, e]
  | get n k =>
    simp only [step]
    cases e : t n with
    | none =>
      rcases h.2 with h2 | h2
      · exact absurd e h2
      · exact h2
    | some d => exact h.1 d
  | set n d k =>
    refine Safe.mono (p := k) h ?_
    rintro m (hm | rfl)
    · exact known_step t (.set n d k) m hm
    · simp [known, step, Table.set]
  | upd n f k => exact Safe.mono (p := k) h (fun m hm => known_step t (.upd n f k) m hm)
  | missing => exact h
  | badIndex => trivial

theorem safe_exec {ι : Type} [DecidableEq ι] : ∀ (s : List ι) (c : Table × (ι → Prog)), (∀ i, Safe (known c.1) (c.2 i)) →
    ∀ i, Safe (known (exec c s).1) ((exec c s).2 i)
  | [], c, h => h
  | j :: s, c, h => by
    refine safe_exec s (stepAt c j) ?_
    intro i
    simp only [stepAt]
    split
    · exact safe_step (h j)
    · exact Safe.mono (h i) (fun n hn => known_step _ _ n hn)

theorem safe_mapGet {K : String → Prop} {n : String} {k : Option DefM → Prog} (h1 : ∀ d, Safe (fun m => K m ∨ m = n) (k (some d)))
    (h2 : K n ∨ Safe K (k none)) : Safe K (mapGet n k) := by
  refine ⟨?_, ?_⟩
  · simp only [if_true]
    exact ⟨fun d => h1 d, Or.inl (Or.inr rfl)⟩
  · simpa using h2

/-- `GetDef` of a name already known. -/
theorem safe_mapGetDef {K : String → Prop} {n : String} {k : DefM → Prog} (hn : K n) (h : ∀ d, Safe K (k d)) : Safe K (mapGetDef n k) :=
  safe_mapGet (fun d => Safe.mono (h d) (fun _ h => Or.inl h)) (Or.inl hn)

theorem safe_lookupLoop {K : String → Prop} {rule : DV → Option Ex} {name : String} {k : Option Ex → Prog} (hn : K name) (hk : ∀ r, Safe K (k r)) :
    ∀ m i, Safe K (lookupLoop rule name k m i)
  | 0, i => hk none
  | m + 1, i => by
    rw [lookupLoop]
    refine safe_mapGetDef hn ?_
    intro d
    unfold tryRule
    split
    · trivial
    · split
      · exact hk _
      · exact safe_lookupLoop hn hk m (i + 1)

theorem safe_lookup {K : String → Prop} {rule : DV → Option Ex} {name : String} {k : Option Ex → Prog} (hk : ∀ r, Safe K (k r)) :
    Safe K (lookup rule name k) := by
  refine safe_mapGet ?_ (Or.inr (by simpa using hk none))
  intro d
  simp only [Option.isSome_some, if_true]
  refine safe_mapGetDef (Or.inr rfl) ?_
  intro d
  exact safe_lookupLoop (Or.inr rfl) (fun r => Safe.mono (hk r) (fun _ h => Or.inl h)) _ _

theorem safe_defineP {K : String → Prop} {strLen : Ex → Nat} {name : String} {l rhs : Ex} {k : Prog} (hk : Safe K k) :
    Safe K (defineP strLen name l rhs k) := by
  have hk' : Safe (fun m => K m ∨ m = name) k := Safe.mono hk (fun _ h => Or.inl h)
  refine safe_mapGet ?_ (Or.inr ?_)
  · intro d
    simp only [Option.isNone_some, Bool.false_eq_true, if_false]
    refine safe_mapGetDef (Or.inr rfl) ?_
    intro d
    split
    · exact hk'
    · refine safe_mapGetDef (Or.inr rfl) ?_
      intro tmp
      refine safe_mapGetDef (Or.inr rfl) ?_
      intro d2
      unfold insertStep
      split
      · exact Safe.mono (p := k) hk' (fun _ h => Or.inl h)
      · refine safe_mapGetDef (Or.inr rfl) ?_
        intro d3
        split
        · exact Safe.mono (p := k) hk' (fun _ h => Or.inl h)
        · trivial
  · simp only [Option.isNone_none, if_true]
    exact hk'

theorem safe_ofCalls (strLen : Ex → Nat) : ∀ (cs : List Call) (out : List (Option Ex)) (K : String → Prop), Safe K (ofCalls strLen cs out)
  | [], out, K => trivial
  | .lookup name rule :: cs, out, K => safe_lookup (fun r => safe_ofCalls strLen cs _ K)
  | .define name l rhs :: cs, out, K => safe_defineP (safe_ofCalls strLen cs out K)
  | .clear name :: cs, out, K => by
    rw [ofCalls, clearP]
    refine safe_mapGet ?_ (Or.inr ?_)
    · intro d; exact safe_ofCalls strLen cs out _
    · exact safe_ofCalls strLen cs out K
  | .markSeen name :: cs, out, K => by
    rw [ofCalls, markSeenP]
    refine safe_mapGet ?_ (Or.inr ?_)
    · intro d; exact safe_ofCalls strLen cs out _
    · exact safe_ofCalls strLen cs out _
  | .setAttrs name a :: cs, out, K => by
    have h : ∀ K : String → Prop, K name → Safe K (mapGetDef name (fun d => .set name { d with attrs := a } (ofCalls strLen cs out))) :=
      fun K hK => safe_mapGetDef hK (fun d => safe_ofCalls strLen cs out _)
    rw [ofCalls, setAttrsP]
    refine safe_mapGet ?_ (Or.inr ?_)
    · intro d; exact h _ (Or.inr rfl)
    · exact h _ (Or.inr rfl)

/-! ### Threads that do not disturb each other -/

/-- The thread reads only names of `R` and writes only names of `W`. -/
def Within (R W : String → Prop) : Prog → Prop
  | .done _ => True
  | .has n k => R n ∧ ∀ b, Within R W (k b)
  | .get n k => R n ∧ ∀ o, Within R W (k o)
  | .set n _ k => W n ∧ Within R W k
  | .upd n _ k => W n ∧ Within R W k
  | .missing => True
  | .badIndex => True

theorem within_step {R W : String → Prop} {t : Table} {p : Prog} (h : Within R W p) : Within R W (step t p).2 := by
  cases p with
  | has n k => exact h.2 _
  | get n k => exact h.2 _
  | set n d k => exact h.2
  | upd n f k => exact h.2
  | _ => exact h

theorem step_other {R W : String → Prop} {t : Table} {p : Prog} (h : Within R W p) (n : String) (hn : ¬ W n) : (step t p).1 n = t n := by
  cases p with
  | set m d k =>
    simp only [step, Table.set]
    rw [if_neg]
    intro e; subst e; exact hn h.1
  | upd m f k =>
    simp only [step]
    rw [if_neg]
    intro e; subst e; exact hn h.1
  | _ => rfl

theorem step_agree {R W : String → Prop} {t t' : Table} {p : Prog} (h : Within R W p) (ha : ∀ n, R n ∨ W n → t n = t' n) :
    (step t p).2 = (step t' p).2 ∧ ∀ n, R n ∨ W n → (step t p).1 n = (step t' p).1 n := by
  cases p with
  | has n k => exact ⟨by simp only [step]; rw [ha n (Or.inl h.1)], ha⟩
  | get n k => exact ⟨by simp only [step]; rw [ha n (Or.inl h.1)], ha⟩
  | set m d k =>
    refine ⟨rfl, ?_⟩
    intro n hn
    simp only [step, Table.set]
    rw [ha n hn]
  | upd m f k =>
    refine ⟨rfl, ?_⟩
    intro n hn
    simp only [step]
    split
    · rename_i e; subst e; rw [ha n hn]
    · exact ha n hn
  | _ => exact ⟨rfl, ha⟩

theorem alone_agree {R W : String → Prop} : ∀ (k : Nat) {t t' : Table} {p : Prog}, Within R W p → (∀ n, R n ∨ W n → t n = t' n) →
    (alone k (t, p)).2 = (alone k (t', p)).2 ∧ ∀ n, R n ∨ W n → (alone k (t, p)).1 n = (alone k (t', p)).1 n
  | 0, _, _, _, _, ha => ⟨rfl, ha⟩
  | k + 1, t, t', p, h, ha => by
    obtain ⟨h1, h2⟩ := step_agree h ha
    simp only [alone]
    have := alone_agree k (t := (step t p).1) (t' := (step t' p).1) (p := (step t p).2) (within_step h) h2
    have e : step t' p = ((step t' p).1, (step t p).2) := by rw [h1]
    rw [e]
    exact this

/-- A thread whose names nobody else writes behaves as if it were alone. -/
theorem exec_alone {ι : Type} [DecidableEq ι] (R W : ι → String → Prop) : ∀ (s : List ι) (t : Table) (ps : ι → Prog),
    (∀ i, Within (R i) (W i) (ps i)) → ∀ i, (∀ j n, j ≠ i → W j n → ¬ R i n ∧ ¬ W i n) →
    (exec (t, ps) s).2 i = (alone (s.count i) (t, ps i)).2 ∧ ∀ n, R i n ∨ W i n → (exec (t, ps) s).1 n = (alone (s.count i) (t, ps i)).1 n
  | [], t, ps, _, i, _ => ⟨rfl, fun n _ => rfl⟩
  | j :: s, t, ps, hw, i, hd => by
    have hw' : ∀ i, Within (R i) (W i) ((stepAt (t, ps) j).2 i) := by
      intro i
      simp only [stepAt]
      split
      · rename_i e; subst e; exact within_step (hw i)
      · exact hw i
    have ih := exec_alone R W s (stepAt (t, ps) j).1 (stepAt (t, ps) j).2 hw' i hd
    simp only [exec]
    by_cases e : j = i
    · subst e
      have hp : (stepAt (t, ps) j).2 j = (step t (ps j)).2 := by simp [stepAt]
      rw [hp] at ih
      rw [List.count_cons_self, alone]
      exact ih
    · have hp : (stepAt (t, ps) j).2 i = ps i := by simp [stepAt, Ne.symm e]
      rw [hp] at ih
      rw [List.count_cons_of_ne e]
      have ha : ∀ n, R i n ∨ W i n → (stepAt (t, ps) j).1 n = t n := by
        intro n hn
        refine step_other (hw j) n ?_
        intro hWj
        have := hd j n e hWj
        rcases hn with hn | hn
        · exact this.1 hn
        · exact this.2 hn
      obtain ⟨h1, h2⟩ := alone_agree (s.count i) (hw i) ha
      exact ⟨ih.1.trans h1, fun n hn => (ih.2 n hn).trans (h2 n hn)⟩

theorem within_mono {R W R' W' : String → Prop} (hR : ∀ n, R n → R' n) (hW : ∀ n, W n → W' n) : ∀ {p : Prog}, Within R W p → Within R' W' p
  | .done _, _ => trivial
  | .has n k, h => ⟨hR n h.1, fun b => within_mono hR hW (h.2 b)⟩
  | .get n k, h => ⟨hR n h.1, fun b => within_mono hR hW (h.2 b)⟩
  | .set n _ k, h => ⟨hW n h.1, within_mono hR hW (p := k) h.2⟩
  | .upd n _ k, h => ⟨hW n h.1, within_mono hR hW (p := k) h.2⟩
  | .missing, _ => trivial
  | .badIndex, _ => trivial

theorem within_mapGet {R W : String → Prop} {n : String} {k : Option DefM → Prog} (hn : R n) (h : ∀ o, Within R W (k o)) : Within R W (mapGet n k) := by
  refine ⟨hn, ?_⟩
  intro b
  simp only
  split
  · refine ⟨hn, ?_⟩
    intro o
    cases o with
    | none => trivial
    | some d => exact h _
  · exact h _

theorem within_mapGetDef {R W : String → Prop} {n : String} {k : DefM → Prog} (hn : R n) (h : ∀ o, Within R W (k o)) : Within R W (mapGetDef n k) := by
  refine within_mapGet hn ?_
  intro o
  cases o with
  | none => trivial
  | some d => exact h _

theorem within_lookup {R W : String → Prop} {rule : DV → Option Ex} {n : String} {k : Option Ex → Prog} (hn : R n) (h : ∀ o, Within R W (k o)) :
    Within R W (lookup rule n k) := by
  have hl : ∀ m i, Within R W (lookupLoop rule n k m i) := by
    intro m
    induction m with
    | zero => intro i; exact h none
    | succ m ih =>
      intro i
      rw [lookupLoop]
      refine within_mapGetDef hn ?_
      intro d
      unfold tryRule
      split
      · trivial
      · split
        · exact h _
        · exact ih (i + 1)
  refine within_mapGet hn ?_
  intro o
  split
  · exact within_mapGetDef hn (fun d => hl _ _)
  · exact h _

theorem within_defineP {R W : String → Prop} {strLen : Ex → Nat} {n : String} {l rhs : Ex} {k : Prog} (hn : R n) (hw : W n) (h : Within R W k) :
    Within R W (defineP strLen n l rhs k) := by
  refine within_mapGet hn ?_
  intro o
  split
  · exact ⟨hw, h⟩
  · refine within_mapGetDef hn ?_
    intro d
    split
    · exact ⟨hw, h⟩
    · refine within_mapGetDef hn (fun tmp => within_mapGetDef hn (fun d2 => ?_))
      unfold insertStep
      split
      · exact ⟨hw, h⟩
      · refine within_mapGetDef hn ?_
        intro d3
        split
        · exact ⟨hw, h⟩
        · trivial

theorem within_ofCalls (strLen : Ex → Nat) (R W : String → Prop) : ∀ (cs : List Call) (out : List (Option Ex)),
    (∀ c ∈ cs, R c.name ∧ (c.writes = true → W c.name)) → Within R W (ofCalls strLen cs out)
  | [], out, _ => trivial
  | .lookup name rule :: cs, out, h =>
    within_lookup (h (.lookup name rule) (by simp)).1 (fun r => within_ofCalls strLen R W cs _ (fun c hc => h c (by simp [hc])))
  | .define name l rhs :: cs, out, h =>
    within_defineP (h (.define name l rhs) (by simp)).1 ((h (.define name l rhs) (by simp)).2 rfl) (within_ofCalls strLen R W cs _ (fun c hc => h c (by simp [hc])))
  | .clear name :: cs, out, h => by
    have ih := within_ofCalls strLen R W cs out (fun c hc => h c (by simp [hc]))
    obtain ⟨h1, h2⟩ := h (.clear name) (by simp)
    rw [ofCalls, clearP]
    refine within_mapGet h1 ?_
    intro o
    split
    · exact ⟨h2 rfl, ih⟩
    · exact ih
  | .markSeen name :: cs, out, h => by
    have ih := within_ofCalls strLen R W cs out (fun c hc => h c (by simp [hc]))
    obtain ⟨h1, h2⟩ := h (.markSeen name) (by simp)
    rw [ofCalls, markSeenP]
    refine within_mapGet h1 ?_
    intro o
    split
    · exact ih
    · exact ⟨h2 rfl, ih⟩
  | .setAttrs name a :: cs, out, h => by
    have ih := within_ofCalls strLen R W cs out (fun c hc => h c (by simp [hc]))
    obtain ⟨h1, h2⟩ := h (.setAttrs name a) (by simp)
    have hr : Within R W (mapGetDef name (fun d => .set name { d with attrs := a } (ofCalls strLen cs out))) :=
      within_mapGetDef h1 (fun d => ⟨h2 rfl, ih⟩)
    rw [ofCalls, setAttrsP]
    refine within_mapGet h1 ?_
    intro o
    simp only
    split
    · exact hr
    · exact ⟨h2 rfl, hr⟩

/-! ### A thread running alone does what the sequential model says -/

theorem alone_add : ∀ (a b : Nat) (c : Table × Prog), alone (a + b) c = alone b (alone a c)
  | 0, b, c => by simp [alone]
  | a + 1, b, c => by rw [Nat.add_right_comm, alone, alone_add a b]; rfl

/-- The thread gets from one point to another. -/
def Reaches (c c' : Table × Prog) : Prop := ∃ k, alone k c = c'

theorem Reaches.refl (c : Table × Prog) : Reaches c c := ⟨0, rfl⟩

theorem Reaches.trans {a b c : Table × Prog} (h1 : Reaches a b) (h2 : Reaches b c) : Reaches a c := by
  obtain ⟨k, h1⟩ := h1
  obtain ⟨m, h2⟩ := h2
  exact ⟨k + m, by rw [alone_add, h1, h2]⟩

theorem reaches_step (t : Table) (p : Prog) : Reaches (t, p) (step t p) := ⟨1, rfl⟩

theorem reaches_mapGet (t : Table) (n : String) (k : Option DefM → Prog) : Reaches (t, mapGet n k) (t, k (t n)) := by
  cases h : t n with
  | none =>
    refine (reaches_step _ _).trans ?_
    simp only [mapGet, step, h]
    exact Reaches.refl _
  | some d =>
    refine (reaches_step _ _).trans ?_
    simp only [mapGet, step, h, Option.isSome_some, if_true]
    refine (reaches_step _ _).trans ?_
    simp only [step, h]
    exact Reaches.refl _

theorem reaches_mapGetDef {t : Table} {n : String} {d : DefM} (h : t n = some d) (k : DefM → Prog) : Reaches (t, mapGetDef n k) (t, k d) := by
  have := reaches_mapGet t n (orMissing k)
  rw [h] at this
  exact this

theorem reaches_lookupLoop {t : Table} {n : String} {d : DefM} (h : t n = some d) (rule : DV → Option Ex) (k : Option Ex → Prog) :
    ∀ m i, i + m = d.downvalues.length → Reaches (t, lookupLoop rule n k m i) (t, k ((d.downvalues.drop i).findSome? rule))
  | 0, i, hi => by
    rw [List.drop_of_length_le (by omega)]
    exact Reaches.refl _
  | m + 1, i, hi => by
    refine (reaches_mapGetDef h _).trans ?_
    have hlt : i < d.downvalues.length := by omega
    rw [List.getElem?_eq_getElem hlt, List.drop_eq_getElem_cons hlt]
    simp only [tryRule, List.findSome?_cons]
    cases rule d.downvalues[i] with
    | some e => exact Reaches.refl _
    | none => exact reaches_lookupLoop h rule k m (i + 1) (by omega)

/-- The lookup gives the first rule that applies. -/
theorem reaches_lookup (t : Table) (n : String) (rule : DV → Option Ex) (k : Option Ex → Prog) :
    Reaches (t, lookup rule n k) (t, k ((((t n).map DefM.downvalues).getD []).findSome? rule)) := by
  refine (reaches_mapGet t n _).trans ?_
  cases h : t n with
  | none => exact Reaches.refl _
  | some d =>
    simp only [Option.isSome_some, if_true]
    refine (reaches_mapGetDef h _).trans ?_
    exact reaches_lookupLoop h rule k _ 0 (by simp)

theorem insertRule_insertAt {strLen : Ex → Nat} {name : String} {hl rhs : Ex} {new : Int} : ∀ {dvs r : List DV},
    insertRule strLen name hl rhs new dvs = some r →
    (insertAt strLen name new dvs = none ∧ r = dvs ++ [{ lhs := hl, rhs := rhs }]) ∨
    (∃ i, insertAt strLen name new dvs = some i ∧ i ≤ dvs.length ∧ r = dvs.take i ++ { lhs := hl, rhs := rhs, spec := new } :: dvs.drop i)
  | [], r, h => by
    simp only [insertRule, Option.some.injEq] at h
    exact Or.inl ⟨rfl, h.symm⟩
  | dv :: dvs, r, h => by
    rw [insertRule] at h
    cases hs : specOf strLen name dv with
    | none => rw [hs] at h; simp at h
    | some s =>
      rw [hs] at h
      simp only at h
      by_cases hlt : s < new
      · rw [if_pos hlt] at h
        simp only [Option.some.injEq] at h
        right
        refine ⟨0, ?_, by simp, by simp [h]⟩
        simp [insertAt, List.findIdx?_cons, hs, hlt]
      · rw [if_neg hlt] at h
        simp only [Option.map_eq_some_iff] at h
        obtain ⟨r', hr', rfl⟩ := h
        have hcons : insertAt strLen name new (dv :: dvs) = (insertAt strLen name new dvs).map (· + 1) := by
          simp [insertAt, List.findIdx?_cons, hs, hlt]
        rcases insertRule_insertAt hr' with ⟨h1, h2⟩ | ⟨i, h1, h2, h3⟩
        · left
          rw [hcons, h1, h2]; simp
        · right
          exact ⟨i + 1, by rw [hcons, h1]; rfl, by simpa using h2, by simp [h3]⟩

/-- A definition made without disturbance is the sequential one. -/
theorem reaches_defineP {strLen : Ex → Nat} {t : Table} {n : String} {l rhs : Ex} {st' : DState} (k : Prog) (ht : targetOf l = .rule n)
    (h : define strLen { defs := t } l rhs = some st') : Reaches (t, defineP strLen n l rhs k) (st'.defs, k) := by
  unfold define at h
  simp only [Bool.false_eq_true, if_false, ht] at h
  refine (reaches_mapGet t n _).trans ?_
  cases hd : t n with
  | none =>
    rw [hd] at h
    simp only [Option.some.injEq] at h
    subst h
    exact reaches_step _ _
  | some d =>
    rw [hd] at h
    simp only [Option.map_eq_some_iff] at h
    obtain ⟨dvs, hdv, rfl⟩ := h
    simp only [Option.isNone_some, Bool.false_eq_true, if_false]
    refine (reaches_mapGetDef hd _).trans ?_
    unfold defineRule at hdv
    cases ho : overwrite (held l) rhs d.downvalues with
    | none => rw [ho] at hdv; simp at hdv
    | some o =>
      rw [ho] at hdv
      cases o with
      | some dvs' =>
        simp only [Option.some.injEq] at hdv
        subst hdv
        refine (reaches_step _ _).trans ?_
        simp only [step]
        have : (fun m => if m = n then (t n).map (overwriteDef (held l) rhs) else t m) = t.set n { d with downvalues := dvs' } := by
          funext m
          simp [Table.set, hd, overwriteDef, ho]
        rw [this]
        exact Reaches.refl _
      | none =>
        cases hs : ruleSpecificity strLen (held l) rhs n with
        | none => rw [hs] at hdv; simp at hdv
        | some new =>
          rw [hs] at hdv
          simp only at hdv
          refine (reaches_mapGetDef hd _).trans ?_
          refine (reaches_mapGetDef hd _).trans ?_
          simp only [Option.getD_some]
          unfold insertStep
          rcases insertRule_insertAt hdv with ⟨h1, h2⟩ | ⟨i, h1, h2, h3⟩
          · rw [h1, h2]
            exact reaches_step _ _
          · rw [h1, h3]
            refine (reaches_mapGetDef hd _).trans ?_
            rw [if_pos ⟨h2, h2⟩]
            exact reaches_step _ _

theorem reaches_ofCalls (strLen : Ex → Nat) : ∀ (cs : List Call) (t t' : Table) (out r : List (Option Ex)), sequential strLen cs t = some (t', r) →
    Reaches (t, ofCalls strLen cs out) (t', .done (out ++ r))
  | [], t, t', out, r, h => by
    simp only [sequential, Option.some.injEq, Prod.mk.injEq] at h
    obtain ⟨rfl, rfl⟩ := h
    rw [List.append_nil]
    exact Reaches.refl _
  | .lookup name rule :: cs, t, t', out, r, h => by
    simp only [sequential, Option.map_eq_some_iff, Prod.mk.injEq, Prod.exists] at h
    obtain ⟨t1, r1, h, rfl, rfl⟩ := h
    refine (reaches_lookup t name rule _).trans ?_
    have := reaches_ofCalls strLen cs t t1 (out ++ [firstMatch t name rule]) r1 h
    rw [List.append_assoc, List.singleton_append] at this
    exact this
  | .define name l rhs :: cs, t, t', out, r, h => by
    simp only [sequential] at h
    split at h
    · rename_i hn
      have ht : targetOf l = .rule name := by
        unfold sequential.targetName' at hn
        split at hn
        · rename_i h1; rw [h1]; simpa using hn
        · simp at hn
      rw [Option.bind_eq_some_iff] at h
      obtain ⟨st, h1, h2⟩ := h
      exact (reaches_defineP _ ht h1).trans (reaches_ofCalls strLen cs _ _ _ _ h2)
    · simp at h
  | .clear name :: cs, t, t', out, r, h => by
    simp only [sequential] at h
    rw [ofCalls, clearP]
    refine (reaches_mapGet t name _).trans ?_
    unfold clear at h
    cases hd : t name with
    | none =>
      simp only [hd] at h
      exact reaches_ofCalls strLen cs _ _ _ _ h
    | some d =>
      simp only [hd] at h
      exact (reaches_step _ _).trans (reaches_ofCalls strLen cs _ _ _ _ h)
  | .markSeen name :: cs, t, t', out, r, h => by
    simp only [sequential] at h
    rw [ofCalls, markSeenP]
    refine (reaches_mapGet t name _).trans ?_
    unfold markSeen at h
    cases hd : t name with
    | none =>
      simp only [hd] at h
      exact (reaches_step _ _).trans (reaches_ofCalls strLen cs _ _ _ _ h)
    | some d =>
      simp only [hd] at h
      exact reaches_ofCalls strLen cs _ _ _ _ h
  | .setAttrs name a :: cs, t, t', out, r, h => by
    simp only [sequential] at h
    rw [ofCalls, setAttrsP]
    refine (reaches_mapGet t name _).trans ?_
    cases hd : t name with
    | none =>
      rw [hd] at h
      simp only [Option.isSome_none, Bool.false_eq_true, if_false]
      refine (reaches_step _ _).trans ?_
      simp only [step]
      refine (reaches_mapGetDef (d := {}) (by simp [Table.set]) _).trans ?_
      refine (reaches_step _ _).trans ?_
      simp only [step]
      have e : (t.set name {}).set name { ({} : DefM) with attrs := a } = t.set name { (none : Option DefM).getD {} with attrs := a } := by
        funext m
        simp only [Table.set]
        split <;> simp
      rw [e]
      exact reaches_ofCalls strLen cs _ _ _ _ h
    | some d =>
      rw [hd] at h
      simp only [Option.isSome_some, if_true]
      refine (reaches_mapGetDef hd _).trans ?_
      exact (reaches_step _ _).trans (reaches_ofCalls strLen cs _ _ _ _ h)

theorem alone_terminal {t : Table} {p : Prog} (h : Terminal p) : ∀ k, alone k (t, p) = (t, p)
  | 0 => rfl
  | k + 1 => by
    rw [alone]
    have : step t p = (t, p) := by cases p <;> first | rfl | exact absurd h (by simp [Terminal])
    simp only [this]
    exact alone_terminal h k

theorem reaches_unique {c : Table × Prog} {t : Table} {p : Prog} (h : Reaches c (t, p)) (hp : Terminal p) {k : Nat} (hk : Terminal (alone k c).2) :
    alone k c = (t, p) := by
  obtain ⟨m, hm⟩ := h
  rcases Nat.le_total k m with hle | hle
  · obtain ⟨j, rfl⟩ := Nat.exists_eq_add_of_le hle
    rw [alone_add] at hm
    have : alone k c = ((alone k c).1, (alone k c).2) := rfl
    rw [this, alone_terminal hk] at hm
    rw [this, hm]
  · obtain ⟨j, rfl⟩ := Nat.exists_eq_add_of_le hle
    rw [alone_add, hm, alone_terminal hp]

end Prog
end Expreduce
