import Verif.Proofs.Concurrent
import Verif.Props.Defs

/-! Properties C30, C31: evaluations sharing the table of definitions. -/

namespace Expreduce
open Ex Prog

/-- C30. Any number of threads, any calls, any schedule, any initial table: no thread ever panics because an entry that it found
present is missing when it is read. -/
theorem C30_no_missing_entry_partial {ι : Type} [DecidableEq ι] (strLen : Ex → Nat) (t : Table) (calls : ι → List Call) (s : List ι) (i : ι) :
    (exec (t, fun j => ofCalls strLen (calls j) []) s).2 i ≠ .missing := by
  intro h
  have := safe_exec s (t, fun j => ofCalls strLen (calls j) []) (fun j => safe_ofCalls strLen (calls j) [] _) i
  rw [h] at this
  exact this

/-- C30, C31. A thread whose names nobody else writes is not affected by the other threads: under every schedule, once it has stopped it has
not crashed, its lookups gave what they give sequentially, and the table holds for its names what the sequential execution leaves.
In particular definitions for different symbols made concurrently are all retained, and lookups of symbols that nobody writes never
crash. -/
theorem C31_disjoint_symbols_partial {ι : Type} [DecidableEq ι] (strLen : Ex → Nat) (t : Table) (calls : ι → List Call) (s : List ι) (i : ι)
    (hdis : ∀ j, j ≠ i → ∀ c ∈ calls j, c.writes = true → ∀ c' ∈ calls i, c'.name ≠ c.name)
    (t' : Table) (r : List (Option Ex)) (hseq : sequential strLen (calls i) t = some (t', r))
    (hstop : Terminal ((exec (t, fun j => ofCalls strLen (calls j) []) s).2 i)) :
    results ((exec (t, fun j => ofCalls strLen (calls j) []) s).2 i) = some r ∧
    ∀ c ∈ calls i, (exec (t, fun j => ofCalls strLen (calls j) []) s).1 c.name = t' c.name := by
  have hw : ∀ j, Within (fun n => ∃ c ∈ calls j, c.name = n) (fun n => ∃ c ∈ calls j, c.writes = true ∧ c.name = n) (ofCalls strLen (calls j) []) :=
    fun j => within_ofCalls strLen _ _ (calls j) [] (fun c hc => ⟨⟨c, hc, rfl⟩, fun hw => ⟨c, hc, hw, rfl⟩⟩)
  obtain ⟨h1, h2⟩ := exec_alone (fun j n => ∃ c ∈ calls j, c.name = n) (fun j n => ∃ c ∈ calls j, c.writes = true ∧ c.name = n) s t
    (fun j => ofCalls strLen (calls j) []) hw i (by
      rintro j n hj ⟨c, hc, hcw, rfl⟩
      exact ⟨fun ⟨c', hc', e⟩ => hdis j hj c hc hcw c' hc' e, fun ⟨c', hc', _, e⟩ => hdis j hj c hc hcw c' hc' e⟩)
  have hr := reaches_ofCalls strLen (calls i) t t' [] r hseq
  rw [h1] at hstop
  have hu := reaches_unique hr trivial hstop
  refine ⟨by rw [h1, hu]; rfl, ?_⟩
  intro c hc
  rw [h2 c.name (Or.inl ⟨c, hc, rfl⟩), hu]

/-- C31, progress: such a thread does stop, under every schedule that gives it enough steps, whatever the others do. -/
theorem C31_disjoint_progress {ι : Type} [DecidableEq ι] (strLen : Ex → Nat) (t : Table) (calls : ι → List Call) (i : ι)
    (hdis : ∀ j, j ≠ i → ∀ c ∈ calls j, c.writes = true → ∀ c' ∈ calls i, c'.name ≠ c.name)
    (t' : Table) (r : List (Option Ex)) (hseq : sequential strLen (calls i) t = some (t', r)) :
    ∃ n, ∀ s : List ι, n ≤ s.count i →
      results ((exec (t, fun j => ofCalls strLen (calls j) []) s).2 i) = some r ∧
      ∀ c ∈ calls i, (exec (t, fun j => ofCalls strLen (calls j) []) s).1 c.name = t' c.name := by
  obtain ⟨n, hn⟩ := reaches_ofCalls strLen (calls i) t t' [] r hseq
  refine ⟨n, ?_⟩
  intro s hs
  refine C31_disjoint_symbols_partial strLen t calls s i hdis t' r hseq ?_
  have hw : ∀ j, Within (fun n => ∃ c ∈ calls j, c.name = n) (fun n => ∃ c ∈ calls j, c.writes = true ∧ c.name = n) (ofCalls strLen (calls j) []) :=
    fun j => within_ofCalls strLen _ _ (calls j) [] (fun c hc => ⟨⟨c, hc, rfl⟩, fun hw => ⟨c, hc, hw, rfl⟩⟩)
  obtain ⟨h1, _⟩ := exec_alone (fun j n => ∃ c ∈ calls j, c.name = n) (fun j n => ∃ c ∈ calls j, c.writes = true ∧ c.name = n) s t
    (fun j => ofCalls strLen (calls j) []) hw i (by
      rintro j n hj ⟨c, hc, hcw, rfl⟩
      exact ⟨fun ⟨c', hc', e⟩ => hdis j hj c hc hcw c' hc' e, fun ⟨c', hc', _, e⟩ => hdis j hj c hc hcw c' hc' e⟩)
  rw [h1]
  obtain ⟨m, hm⟩ := Nat.exists_eq_add_of_le hs
  rw [hm, alone_add, hn, alone_terminal (by trivial)]
  trivial

/-- Lookups always have a sequential result. -/
theorem C30_lookups_sequential (strLen : Ex → Nat) (t : Table) (cs : List Call) (h : ∀ c ∈ cs, c.writes = false) :
    ∃ r, sequential strLen cs t = some (t, r) := by
  induction cs with
  | nil => exact ⟨[], rfl⟩
  | cons c cs ih =>
    obtain ⟨r, hr⟩ := ih (fun c hc => h c (by simp [hc]))
    cases c with
    | lookup n rule => exact ⟨_, by simp only [sequential, hr]; rfl⟩
    | define n l r => exact absurd (h (.define n l r) (by simp)) (by simp [Call.writes])
    | clear n => exact absurd (h (.clear n) (by simp)) (by simp [Call.writes])
    | markSeen n => exact absurd (h (.markSeen n) (by simp)) (by simp [Call.writes])
    | setAttrs n a => exact absurd (h (.setAttrs n a) (by simp)) (by simp [Call.writes])

/-- The fair schedules do let it stop: a concrete one with two threads, `f[1] = 1` and `g[2] = 2; g[2]`, interleaved step by step. -/
example : ∃ (calls : Bool → List Call) (s : List Bool),
    (∀ c ∈ calls true, c.writes = true → ∀ c' ∈ calls false, c'.name ≠ c.name) ∧
    (sequential len0 (calls false) (fun _ => none)).isSome = true ∧
    results ((exec ((fun _ => none), fun j => ofCalls len0 (calls j) []) s).2 false) = some [some (.int 2)] ∧
    (rulesFor { defs := (exec ((fun _ => none), fun j => ofCalls len0 (calls j) []) s).1 } "Global`f").map DV.rhs = [.int 1] :=
  ⟨fun b => if b then [.define "Global`f" (fOf [.int 1]) (.int 1)]
    else [.define "Global`g" (.expr [.sym "Global`g", .int 2]) (.int 2), .lookup "Global`g" (fun dv => some dv.rhs)],
   [true, false, true, false, true, false, true, false, false, false, false, false, false, false, false, false],
   by simp [Call.name], by decide +kernel, by decide +kernel, by decide +kernel⟩

/-- The rules `f[1] = 1`, `f[2] = 2` as a table. -/
def twoRules : Table := fun n => if n = "Global`f" then some { downvalues := [{ lhs := held (fOf [.int 1]), rhs := .int 1 }, { lhs := held (fOf [.int 2]), rhs := .int 2 }] } else none

/-- C30 is false for the index into the rule list: a lookup of `f[3]` running beside `Clear[f]` can panic, because the loop runs over the
number of rules read at the start but reads the list again in every round. -/
theorem C30_clear_crashes : ∃ s : List Bool,
    indexPanic ((exec (twoRules, fun b => ofCalls len0 (if b then [.lookup "Global`f" (fun _ => none)] else [.clear "Global`f"]) []) s).2 true) = true :=
  ⟨[true, true, true, true, false, false, false, true, true, true, true], by decide +kernel⟩

/-- C30 is false for the index even if nobody clears: three threads that only look up and define. A definition that read the list early
writes it back short after two other definitions. -/
theorem C30_define_crashes : ∃ s : List (Fin 3),
    indexPanic ((exec (twoRules, fun i => ofCalls len0 (
      if i = 0 then [.lookup "Global`f" (fun _ => none)]
      else if i = 1 then [.define "Global`f" (fOf [.int 3]) (.int 3)]
      else [.define "Global`f" (fOf [.int 4]) (.int 4), .define "Global`f" (fOf [.int 5]) (.int 5)]) []) s).2 0) = true :=
  ⟨List.replicate 8 1 ++ List.replicate 18 2 ++ List.replicate 4 0 ++ [1] ++ List.replicate 12 0, by decide +kernel⟩

/-- C31 is false for one symbol: `f[1] = 1` and `f[2] = 2` made concurrently; both threads finish and only one rule is left. -/
theorem C31_lost_update : ∃ s : List Bool,
    let c := exec ((fun n => if n = "Global`f" then some {} else none : Table), fun b => ofCalls len0 [.define "Global`f" (fOf [.int (if b then 1 else 2)]) (.int (if b then 1 else 2))] []) s
    results (c.2 true) = some [] ∧ results (c.2 false) = some [] ∧ (rulesFor { defs := c.1 } "Global`f").map DV.rhs = [.int 2] :=
  ⟨List.replicate 8 true ++ List.replicate 8 false ++ [true, false], by decide +kernel⟩

/-- C31: also the very first definitions of a symbol get lost. -/
theorem C31_lost_first : ∃ s : List Bool,
    let c := exec ((fun _ => none : Table), fun b => ofCalls len0 [.define "Global`f" (fOf [.int (if b then 1 else 2)]) (.int (if b then 1 else 2))] []) s
    results (c.2 true) = some [] ∧ results (c.2 false) = some [] ∧ (rulesFor { defs := c.1 } "Global`f").map DV.rhs = [.int 2] :=
  ⟨[true, false, true, false], by decide +kernel⟩

end Expreduce
