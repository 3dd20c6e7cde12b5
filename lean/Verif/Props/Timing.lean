import Verif.Spec.Streams
import Mathlib.Algebra.Group.Defs
import Mathlib.Algebra.Group.Int.Defs
import Mathlib.Data.List.Perm.Basic
import Mathlib.Data.List.Nodup
import Mathlib.Order.Defs.LinearOrder
import Mathlib.Tactic.Common

/-! Property C54 (timing). -/

namespace Expreduce
open Ex

/-- The value of a key in a map given as a list. -/
def valAt {V : Type} [Zero V] (l : List (String × V)) (key : String) : V := ((l.find? (fun p => p.1 == key)).map Prod.snd).getD 0

theorem valAt_nil {V : Type} [Zero V] (key : String) : valAt ([] : List (String × V)) key = 0 := rfl

theorem valAt_cons {V : Type} [Zero V] (p : String × V) (l : List (String × V)) (key : String) :
    valAt (p :: l) key = if p.1 = key then p.2 else valAt l key := by
  unfold valAt
  by_cases h : p.1 = key
  · simp [h]
  · have : (p.1 == key) = false := by simpa using h
    simp [List.find?, h, this]

theorem valAt_bump {V : Type} [Add V] [Zero V] (k : String) (v : V) (key : String) : ∀ l : List (String × V),
    valAt (bumpKey k v l) key = if k = key then valAt l key + v else valAt l key
  | [] => by simp [bumpKey, valAt_cons, valAt_nil]
  | (k', u) :: l => by
    unfold bumpKey
    by_cases h : k' = k
    · subst h
      simp only [if_true, valAt_cons]
      by_cases h' : k' = key <;> simp [h']
    · simp only [h, if_false, valAt_cons, valAt_bump k v key l]
      by_cases h' : k' = key
      · subst h'; simp [Ne.symm h]
      · simp [h']

theorem mem_bump {V : Type} [Add V] [Zero V] (k : String) (v : V) (key : String) : ∀ l : List (String × V),
    key ∈ (bumpKey k v l).map Prod.fst ↔ key = k ∨ key ∈ l.map Prod.fst
  | [] => by simp [bumpKey]
  | (k', u) :: l => by
    unfold bumpKey
    by_cases h : k' = k
    · subst h; simp
    · simp only [h, if_false, List.map_cons, List.mem_cons, mem_bump k v key l]
      tauto

theorem nodup_bump {V : Type} [Add V] [Zero V] (k : String) (v : V) : ∀ l : List (String × V), (l.map Prod.fst).Nodup →
    ((bumpKey k v l).map Prod.fst).Nodup
  | [], _ => by simp [bumpKey]
  | (k', u) :: l, hn => by
    simp only [List.map_cons, List.nodup_cons] at hn
    unfold bumpKey
    by_cases h : k' = k
    · simp only [h, if_true, List.map_cons, List.nodup_cons]; exact ⟨by rw [← h]; exact hn.1, hn.2⟩
    · rw [if_neg h, List.map_cons, List.nodup_cons, mem_bump, not_or]
      exact ⟨⟨h, hn.1⟩, nodup_bump k v l hn.2⟩

theorem valAt_notMem {V : Type} [Zero V] {l : List (String × V)} {key : String} (h : key ∉ l.map Prod.fst) : valAt l key = 0 := by
  induction l with
  | nil => rfl
  | cons p l ih =>
    simp only [List.map_cons, List.mem_cons, not_or] at h
    rw [valAt_cons, if_neg (fun e => h.1 e.symm), ih h.2]

theorem valAt_mem {V : Type} [Zero V] {l : List (String × V)} {key : String} {v : V} (hn : (l.map Prod.fst).Nodup) (h : (key, v) ∈ l) : valAt l key = v := by
  induction l with
  | nil => simp at h
  | cons p l ih =>
    simp only [List.map_cons, List.nodup_cons] at hn
    rw [valAt_cons]
    rcases List.mem_cons.1 h with rfl | h
    · simp
    · rw [if_neg, ih hn.2 h]
      intro e
      exact hn.1 (e ▸ List.mem_map_of_mem (f := Prod.fst) h)

theorem valAt_perm {V : Type} [Zero V] {l l' : List (String × V)} (key : String) (hn : (l.map Prod.fst).Nodup) (h : l'.Perm l) : valAt l' key = valAt l key := by
  have hn' : (l'.map Prod.fst).Nodup := (h.map Prod.fst).nodup_iff.2 hn
  by_cases hk : key ∈ l.map Prod.fst
  · obtain ⟨⟨k, v⟩, hm, rfl⟩ := List.mem_map.1 hk
    rw [valAt_mem hn hm, valAt_mem hn' (h.mem_iff.2 hm)]
  · rw [valAt_notMem hk, valAt_notMem (fun hc => hk ((h.map Prod.fst).mem_iff.1 hc))]

theorem update_times {T : Type} [AddMonoid T] (key : String) : ∀ (order : List (String × T)) (c : Counter T), (order.map Prod.fst).Nodup →
    valAt (c.update order).times key = valAt c.times key + valAt order key
  | [], c, _ => by simp [Counter.update, valAt_nil]
  | (k, v) :: l, c, hn => by
    simp only [List.map_cons, List.nodup_cons] at hn
    have : c.update ((k, v) :: l) = (c.addTime k v).update l := rfl
    rw [this, update_times key l _ hn.2, valAt_cons]
    simp only [Counter.addTime, valAt_bump]
    by_cases h : k = key
    · subst h; simp [valAt_notMem hn.1]
    · simp [h]

theorem update_counts {T : Type} [AddMonoid T] (key : String) : ∀ (order : List (String × T)) (c : Counter T), (order.map Prod.fst).Nodup →
    valAt (c.update order).counts key = valAt c.counts key + if key ∈ order.map Prod.fst then 1 else 0
  | [], c, _ => by simp [Counter.update]
  | (k, v) :: l, c, hn => by
    simp only [List.map_cons, List.nodup_cons] at hn
    have : c.update ((k, v) :: l) = (c.addTime k v).update l := rfl
    rw [this, update_counts key l _ hn.2]
    simp only [Counter.addTime, valAt_bump, List.map_cons, List.mem_cons]
    by_cases h : k = key
    · subst h; simp [hn.1]
    · have h' : key ≠ k := fun e => h e.symm
      by_cases hk : key ∈ l.map Prod.fst
      · rw [if_neg h, if_pos hk, if_pos (Or.inr hk)]
      · rw [if_neg h, if_neg hk, if_neg (not_or.2 ⟨h', hk⟩)]

theorem update_mem {T : Type} [AddMonoid T] (key : String) : ∀ (order : List (String × T)) (c : Counter T),
    key ∈ (c.update order).times.map Prod.fst ↔ key ∈ c.times.map Prod.fst ∨ key ∈ order.map Prod.fst
  | [], c => by simp [Counter.update]
  | (k, v) :: l, c => by
    have : c.update ((k, v) :: l) = (c.addTime k v).update l := rfl
    rw [this, update_mem key l]
    simp only [Counter.addTime, mem_bump, List.map_cons, List.mem_cons]
    tauto

theorem update_nodup {T : Type} [AddMonoid T] : ∀ (order : List (String × T)) (c : Counter T), (c.times.map Prod.fst).Nodup →
    ((c.update order).times.map Prod.fst).Nodup
  | [], _, h => h
  | (k, v) :: l, c, h => by
    have : c.update ((k, v) :: l) = (c.addTime k v).update l := rfl
    rw [this]
    exact update_nodup l _ (nodup_bump k v _ h)

theorem at_addTime {T : Type} [Add T] [Zero T] (g : TimeGroup T) (c d : CounterId) (key : String) (t : T) :
    (g.addTime c key t).at d = if c = d then (g.at d).addTime key t else g.at d := by
  cases c <;> cases d <;> simp [TimeGroup.addTime, TimeGroup.at]

theorem at_update {T : Type} [Add T] [Zero T] (g : TimeGroup T) (order : CounterId → List (String × T)) (d : CounterId) :
    (g.update order).at d = (g.at d).update (order d) := by
  cases d <;> rfl

theorem reaches_nodup {T : Type} [AddMonoid T] {h : Timings T} {g : TimeGroup T} (hr : Reaches h g) (c : CounterId) : ((g.at c).times.map Prod.fst).Nodup := by
  induction hr generalizing c with
  | empty => cases c <;> simp [TimeGroup.at]
  | add d key t _ ih =>
    rw [at_addTime]
    split
    · exact nodup_bump _ _ _ (ih c)
    · exact ih c
  | merge order _ _ _ ih _ =>
    rw [at_update]
    exact update_nodup _ _ (ih c)

/-- C54: the time shown for a key is the sum of all times added under it in any history of additions and merges, in whatever order the merges visit the
entries (times are added exactly). -/
theorem C54_times {T : Type} [AddMonoid T] {h : Timings T} {g : TimeGroup T} (hr : Reaches h g) (c : CounterId) (key : String) :
    (g.at c).time key = h.total c key := by
  show valAt _ key = _
  induction hr generalizing c with
  | empty => cases c <;> rfl
  | add d k t _ ih =>
    rw [at_addTime, Timings.total]
    by_cases hd : d = c
    · simp only [hd, if_true, true_and]
      simp only [Counter.addTime, valAt_bump, ih c]
    · simp only [hd, if_false, false_and, ih c]
  | merge order _ h2 hp ih ih2 =>
    have hn := reaches_nodup h2 c
    rw [at_update, update_times key _ _ (((hp c).map Prod.fst).nodup_iff.2 hn), ih c, valAt_perm key hn (hp c), ih2 c]
    rfl

/-- C54: without merges the count shown for a key is the number of additions under it. -/
theorem C54_counts_partial {T : Type} [AddMonoid T] {h : Timings T} {g : TimeGroup T} (hr : Reaches h g) (hp : h.plain) (c : CounterId) (key : String) :
    countOf (g.at c).counts key = h.calls c key := by
  show valAt _ key = _
  induction hr generalizing c with
  | empty => cases c <;> rfl
  | add d k t _ ih =>
    rw [at_addTime, Timings.calls]
    by_cases hd : d = c
    · simp only [hd, if_true, true_and]
      simp only [Counter.addTime, valAt_bump, ih hp c]
    · simp only [hd, if_false, false_and, ih hp c]
  | merge => exact absurd hp id

/-- C54, what a merge does to the counts: every key of the other group counts as one call, however many there were. -/
theorem C54_merge_counts_one {T : Type} [AddMonoid T] {h o : Timings T} {g g' : TimeGroup T} (order : CounterId → List (String × T)) (_hg : Reaches h g)
    (hr : Reaches o g') (hp : ∀ c, (order c).Perm (g'.at c).times) (c : CounterId) (key : String) :
    countOf ((g.update order).at c).counts key = countOf (g.at c).counts key + if key ∈ (g'.at c).times.map Prod.fst then 1 else 0 := by
  have hn := reaches_nodup hr c
  rw [at_update]
  refine (update_counts key _ _ (((hp c).map Prod.fst).nodup_iff.2 hn)).trans ?_
  have : key ∈ (order c).map Prod.fst ↔ key ∈ (g'.at c).times.map Prod.fst := ((hp c).map Prod.fst).mem_iff
  simp only [this]
  rfl

/-- C54 fails for the counts of a merged group: two calls are shown as one. -/
theorem C54_counts_lost : ∃ (h : Timings Int) (g : TimeGroup Int), Reaches h g ∧ h.calls .evalTime "f" = 2 ∧ countOf (g.at .evalTime).counts "f" = 1 :=
  ⟨_, _, .merge (fun c => ((TimeGroup.addTime (TimeGroup.addTime {} .evalTime "f" (1 : Int)) .evalTime "f" 1).at c).times) .empty
    (.add .evalTime "f" 1 (.add .evalTime "f" 1 .empty)) (fun _ => .refl _), by decide, by decide⟩

/-! ## The report -/

variable {T : Type} [LinearOrder T]

theorem mem_linesAt {c : Counter T} {t : T} {l : Line T} :
    l ∈ linesAt c t ↔ l.time = t ∧ l.count = countOf c.counts l.key ∧ (l.key, t) ∈ c.times := by
  unfold linesAt
  simp only [List.mem_map, List.mem_filter, decide_eq_true_eq]
  constructor
  · rintro ⟨⟨k, u⟩, ⟨hm, rfl⟩, rfl⟩; exact ⟨rfl, rfl, hm⟩
  · rintro ⟨h1, h2, h3⟩
    exact ⟨(l.key, t), ⟨h3, rfl⟩, by rw [← h1, ← h2]⟩

theorem mem_reportLoop {c : Counter T} {n : Nat} {l : Line T} : ∀ {ts : List T} {p : Nat}, l ∈ reportLoop c n p ts →
    l.time ∈ ts ∧ l.count = countOf c.counts l.key ∧ (l.key, l.time) ∈ c.times
  | [], p, h => by simp [reportLoop] at h
  | t :: ts, p, h => by
    unfold reportLoop at h
    split at h
    · simp at h
    · rcases List.mem_append.1 h with h | h
      · have := mem_linesAt.1 h
        exact ⟨this.1 ▸ List.mem_cons_self, this.2.1, by rw [this.1]; exact this.2.2⟩
      · have := mem_reportLoop h
        exact ⟨List.mem_cons_of_mem _ this.1, this.2⟩

theorem filter_nodup {c : Counter T} (hn : (c.times.map Prod.fst).Nodup) (t : T) : ((linesAt c t).map Line.key).Nodup := by
  unfold linesAt
  rw [List.map_map]
  exact (List.Sublist.map Prod.fst List.filter_sublist).nodup hn

/-- C54: the report. `sorted` are the different times, greatest first (the contract of the library's sort). The lines come in descending order of
time, no key twice, each line shows the time and count of its key; if a key is left out, at least `n` lines are shown and each of them has a
strictly greater time. -/
theorem C54_report (c : Counter T) (n : Nat) (sorted : List T) (hk : (c.times.map Prod.fst).Nodup) (hd : sorted.Pairwise (· > ·))
    (hm : ∀ t, t ∈ sorted ↔ t ∈ c.times.map Prod.snd) :
    (report c n sorted).Pairwise (fun a b => a.time ≥ b.time) ∧ ((report c n sorted).map Line.key).Nodup ∧
    (∀ l ∈ report c n sorted, (l.key, l.time) ∈ c.times ∧ l.count = countOf c.counts l.key) ∧
    ∀ k t, (k, t) ∈ c.times → (∃ l ∈ report c n sorted, l.key = k) ∨ n ≤ (report c n sorted).length ∧ ∀ l ∈ report c n sorted, t < l.time := by
  have main : ∀ (ts : List T) (p : Nat), ts.Pairwise (· > ·) →
      (reportLoop c n p ts).Pairwise (fun a b => a.time ≥ b.time) ∧ ((reportLoop c n p ts).map Line.key).Nodup ∧
      ∀ k t, (k, t) ∈ c.times → t ∈ ts → (∃ l ∈ reportLoop c n p ts, l.key = k) ∨ n ≤ p + (reportLoop c n p ts).length ∧ ∀ l ∈ reportLoop c n p ts, t < l.time := by
    intro ts
    induction ts with
    | nil => intro p _; simp [reportLoop]
    | cons a ts ih =>
      intro p hp
      rw [List.pairwise_cons] at hp
      unfold reportLoop
      split
      · next hge => exact ⟨.nil, .nil, fun k t _ _ => Or.inr ⟨by simpa using hge, by simp⟩⟩
      · next hge =>
        obtain ⟨i1, i2, i3⟩ := ih (p + (linesAt c a).length) hp.2
        refine ⟨?_, ?_, ?_⟩
        · rw [List.pairwise_append]
          refine ⟨?_, i1, ?_⟩
          · exact List.pairwise_of_forall_mem_list (fun x hx y hy => by rw [(mem_linesAt.1 hx).1, (mem_linesAt.1 hy).1])
          · intro x hx y hy
            rw [(mem_linesAt.1 hx).1]
            exact le_of_lt (hp.1 _ (mem_reportLoop hy).1)
        · rw [List.map_append, List.nodup_append]
          refine ⟨filter_nodup hk a, i2, ?_⟩
          intro x hx y hy hxy
          obtain ⟨lx, hlx, rfl⟩ := List.mem_map.1 hx
          obtain ⟨ly, hly, rfl⟩ := List.mem_map.1 hy
          have h1 := mem_linesAt.1 hlx
          have h2 := mem_reportLoop hly
          have e : a = ly.time := by
            have e1 := List.inj_on_of_nodup_map hk h1.2.2 h2.2.2 hxy
            exact (Prod.mk.injEq .. ▸ e1).2
          have := hp.1 _ h2.1
          exact absurd this (by rw [e]; exact lt_irrefl _)
        · intro k t hkt ht
          rcases List.mem_cons.1 ht with rfl | ht
          · exact Or.inl ⟨⟨t, countOf c.counts k, k⟩, List.mem_append_left _ (mem_linesAt.2 ⟨rfl, rfl, hkt⟩), rfl⟩
          · rcases i3 k t hkt ht with ⟨l, hl, hlk⟩ | ⟨h1, h2⟩
            · exact Or.inl ⟨l, List.mem_append_right _ hl, hlk⟩
            · refine Or.inr ⟨by rw [List.length_append]; omega, ?_⟩
              intro l hl
              rcases List.mem_append.1 hl with hl | hl
              · rw [(mem_linesAt.1 hl).1]; exact hp.1 _ ht
              · exact h2 l hl
  obtain ⟨a, b, d⟩ := main sorted 0 hd
  refine ⟨a, b, fun l hl => ⟨(mem_reportLoop hl).2.2, (mem_reportLoop hl).2.1⟩, ?_⟩
  intro k t hkt
  have := d k t hkt ((hm t).2 (List.mem_map_of_mem (f := Prod.snd) hkt))
  simpa [report] using this

example : (([("f", (3 : Int)), ("g", 3), ("h", 1)] : List (String × Int)).map Prod.fst).Nodup ∧ [(3 : Int), 1].Pairwise (· > ·) ∧
    ∀ t : Int, t ∈ [3, 1] ↔ t ∈ ([("f", (3 : Int)), ("g", 3), ("h", 1)] : List (String × Int)).map Prod.snd :=
  ⟨by decide, by decide, by simp⟩

/-- Ties make the report longer than the limit. -/
example : ((report { times := [("f", (3 : Int)), ("g", 3), ("h", 1)], counts := [("f", 1), ("g", 2), ("h", 1)] } 1 [(3 : Int), 1]).map Line.key) = ["f", "g"] := by decide

end Expreduce
