import Verif.Model.Files
import Verif.Proofs.EvalIdem

/-! Properties C88 (`Names`) and C89 (files are run statement by statement). -/

namespace Expreduce
open Ex

/-! ### Names -/

/-- The text matches the pattern: `*` stands for any characters, everything else for itself. -/
inductive Wild : List Char → List Char → Prop
  | nil : Wild [] []
  | char {c p s} : c ≠ '*' → Wild p s → Wild (c :: p) (c :: s)
  | star {p s} (u : List Char) : Wild p s → Wild ('*' :: p) (u ++ s)

/-- Nothing but stars, and characters without a meaning in regular expressions. -/
def SimplePat (p : List Char) : Prop := ∀ c ∈ p, c = '*' ∨ reSpecial c = false

theorem reParse_lit {c : Char} (h : reSpecial c = false) (r : List Char) : reParse (c :: r) = (reParse r).map (.lit c :: ·) := by
  have h1 : c ≠ '.' := by rintro rfl; revert h; decide
  have h2 : c ≠ '$' := by rintro rfl; revert h; decide
  rw [reParse.eq_5 _ _ (fun _ h => absurd h h1) h1 h2, if_neg (by simp [h])]

theorem many_iff (r : List ReItem) (s : List Char) : reMatch (.many :: r) s = true ↔ ∃ u t, s = u ++ t ∧ (∀ c ∈ u, c ≠ '\n') ∧ reMatch r t = true := by
  rw [reMatch, List.any_eq_true]
  constructor
  · rintro ⟨t, ht, h⟩
    rw [List.mem_tails] at ht
    obtain ⟨u, rfl⟩ := ht
    simp only [Bool.and_eq_true, List.all_eq_true, List.length_append, Nat.add_sub_cancel, List.take_left', bne_iff_ne] at h
    exact ⟨u, t, rfl, h.1, h.2⟩
  · rintro ⟨u, t, rfl, h1, h2⟩
    refine ⟨t, (List.mem_tails _ _).2 (List.suffix_append _ _), ?_⟩
    simp only [Bool.and_eq_true, List.all_eq_true, List.length_append, Nat.add_sub_cancel, List.take_left', bne_iff_ne]
    exact ⟨h1, h2⟩

theorem simple_parse : ∀ p : List Char, SimplePat p → ∃ items, reParse (starToDotStar p) = some items ∧
    ∀ s : List Char, (∀ c ∈ s, c ≠ '\n') → (reMatch items s = true ↔ Wild p s) := by
  intro p
  induction p with
  | nil =>
    intro _
    refine ⟨[], rfl, ?_⟩
    intro s _
    constructor
    · intro h
      cases s with
      | nil => exact .nil
      | cons _ _ => cases h
    · intro h; cases h; rfl
  | cons c p ih =>
    intro hp
    obtain ⟨items, h1, h2⟩ := ih (fun x hx => hp x (List.mem_cons_of_mem _ hx))
    by_cases hc : c = '*'
    · subst hc
      refine ⟨.many :: items, ?_, ?_⟩
      · show reParse ('.' :: '*' :: starToDotStar p) = _
        rw [reParse, h1]; rfl
      · intro s hs
        rw [many_iff]
        constructor
        · rintro ⟨u, t, rfl, -, ht⟩
          exact .star u ((h2 t (fun c h => hs c (List.mem_append_right _ h))).1 ht)
        · intro h
          cases h with
          | char h => exact absurd rfl h
          | star u h => exact ⟨u, _, rfl, fun c h => hs c (List.mem_append_left _ h), (h2 _ (fun c h => hs c (List.mem_append_right _ h))).2 h⟩
    · have hsp := (hp c List.mem_cons_self).resolve_left hc
      refine ⟨.lit c :: items, ?_, ?_⟩
      · have : starToDotStar (c :: p) = c :: starToDotStar p := by simp [starToDotStar, hc]
        rw [this, reParse_lit hsp, h1]; rfl
      · intro s hs
        cases s with
        | nil =>
          constructor
          · intro h; cases h
          · intro h
            generalize hds : ([] : List Char) = ds at h
            cases h with
            | char => cases hds
            | star => exact absurd rfl hc
        | cons d s =>
          have hs' : ∀ c ∈ s, c ≠ '\n' := fun c h => hs c (List.mem_cons_of_mem _ h)
          rw [reMatch]
          simp only [Bool.and_eq_true, beq_iff_eq]
          constructor
          · rintro ⟨rfl, h⟩
            exact .char hc ((h2 s hs').1 h)
          · intro h
            generalize hds : d :: s = ds at h
            cases h with
            | char _ h => cases hds; exact ⟨rfl, (h2 s hs').2 h⟩
            | star => exact absurd rfl hc

theorem sorted_bytes (l : List String) : (l.mergeSort bytesLe).Pairwise (fun a b => a.toUTF8.toList ≤ b.toUTF8.toList) := by
  have := List.pairwise_mergeSort (le := bytesLe) ?_ ?_ l
  · simpa [bytesLe] using this
  · intro a b d h1 h2
    simp only [bytesLe, decide_eq_true_eq] at *
    exact List.le_trans h1 h2
  · intro a b
    simp only [bytesLe, Bool.or_eq_true, decide_eq_true_eq]
    exact List.le_total _ _

/-- C88: `Names["pattern"]` lists the known names that match the pattern, each once, in order; `*` stands for any characters. -/
theorem C88_names_partial (keys : List String) (hn : keys.Nodup) (hk : ∀ k ∈ keys, ∀ c ∈ k.toList, c ≠ '\n') (pat : String) (hp : SimplePat pat.toList) :
    ∃ l, namesFn keys (some pat) = some l ∧ l.Nodup ∧ (∀ k, k ∈ l ↔ k ∈ keys ∧ Wild pat.toList k.toList) ∧ l.Pairwise (fun a b => a.toUTF8.toList ≤ b.toUTF8.toList) := by
  obtain ⟨items, h1, h2⟩ := simple_parse pat.toList hp
  refine ⟨_, by rw [namesFn, h1]; rfl, ?_, ?_, sorted_bytes _⟩
  · exact (List.mergeSort_perm _ _).nodup_iff.2 (hn.filter _)
  · intro k
    rw [(List.mergeSort_perm _ _).mem_iff, List.mem_filter]
    constructor
    · rintro ⟨h, h'⟩; exact ⟨h, (h2 _ (hk k h)).1 h'⟩
    · rintro ⟨h, h'⟩; exact ⟨h, (h2 _ (hk k h)).2 h'⟩

/-- C88: `Names[]` lists all of them. -/
theorem C88_all (keys : List String) (hn : keys.Nodup) : ∃ l, namesFn keys none = some l ∧ l.Nodup ∧ (∀ k, k ∈ l ↔ k ∈ keys) ∧ l.Pairwise (fun a b => a.toUTF8.toList ≤ b.toUTF8.toList) :=
  ⟨_, rfl, (List.mergeSort_perm _ _).nodup_iff.2 hn, fun _ => (List.mergeSort_perm _ _).mem_iff, sorted_bytes _⟩

example : SimplePat "Global`f*".toList := by unfold SimplePat; decide +kernel

theorem dollar_parse : ∀ (u : List Char) (c : Char) (v : List Char) (items : List ReItem), SimplePat u → reSpecial c = false →
    reParse (starToDotStar (u ++ '$' :: c :: v)) = some items → ∀ s, reMatch items s = false := by
  intro u
  induction u with
  | nil =>
    intro c v items _ hc h s
    have hcs : c ≠ '*' := by rintro rfl; revert hc; decide
    have : starToDotStar ([] ++ '$' :: c :: v) = '$' :: c :: starToDotStar v := by simp [starToDotStar, hcs]
    rw [this, reParse, reParse_lit hc] at h
    obtain ⟨i1, h1, rfl⟩ := Option.map_eq_some_iff.1 h
    obtain ⟨i2, -, rfl⟩ := Option.map_eq_some_iff.1 h1
    cases s <;> simp [reMatch]
  | cons d u ih =>
    intro c v items hu hc h s
    have hu' : SimplePat u := fun x hx => hu x (List.mem_cons_of_mem _ hx)
    by_cases hd : d = '*'
    · subst hd
      have : starToDotStar ('*' :: u ++ '$' :: c :: v) = '.' :: '*' :: starToDotStar (u ++ '$' :: c :: v) := rfl
      rw [this, reParse] at h
      obtain ⟨i1, h1, rfl⟩ := Option.map_eq_some_iff.1 h
      have := ih c v i1 hu' hc h1
      rw [Bool.eq_false_iff]
      intro hm
      obtain ⟨-, t, -, -, ht⟩ := (many_iff i1 s).1 hm
      rw [this t] at ht
      cases ht
    · have hsp := (hu d List.mem_cons_self).resolve_left hd
      have : starToDotStar (d :: u ++ '$' :: c :: v) = d :: starToDotStar (u ++ '$' :: c :: v) := by
        simp [starToDotStar, hd]
      rw [this, reParse_lit hsp] at h
      obtain ⟨i1, h1, rfl⟩ := Option.map_eq_some_iff.1 h
      have := ih c v i1 hu' hc h1
      cases s with
      | nil => rfl
      | cons x s => rw [reMatch, this s, Bool.and_false]

/-- C88 is false of patterns with a dollar sign, which is legal in names: ``Names["System`$Context"]`` finds nothing, whatever is defined. -/
theorem C88_dollar_wrong (keys : List String) (u : List Char) (c : Char) (v : List Char) (hu : SimplePat u) (hc : reSpecial c = false) (l : List String)
    (h : namesFn keys (some (String.ofList (u ++ '$' :: c :: v))) = some l) : l = [] := by
  rw [namesFn, String.toList_ofList] at h
  obtain ⟨items, h1, rfl⟩ := Option.map_eq_some_iff.1 h
  have := dollar_parse u c v items hu hc h1
  have : keys.filter (fun k => reMatch items k.toList) = [] := by
    rw [List.filter_eq_nil_iff]
    intro k _
    simp [this]
  rw [this]
  simp

example : namesFn ["System`$Context"] (some "System`$Context") = some [] := by decide +kernel

/-- C88: a dot in the pattern stands for any character. -/
theorem C88_dot_wrong : namesFn ["Global`axb"] (some "Global`a.b") = some ["Global`axb"] := by
  have : (reParse (starToDotStar "Global`a.b".toList)).map (fun items => (["Global`axb"].filter (fun k => reMatch items k.toList))) = some ["Global`axb"] := by decide +kernel
  rw [namesFn]
  obtain ⟨i, h1, h2⟩ := Option.map_eq_some_iff.1 this
  rw [h1, Option.map_some, h2]
  simp

/-! ### Files -/

/-- The text consists of statements that evaluate, one after the other, each read and evaluated in the state the previous one has left;
`vs` are their values and `rest`, `st'` what is left when the reader finds no further statement. -/
inductive RunsText (rd : Reader) (ev : Evaluator) : EState → List UInt8 → List Ex → EState → List UInt8 → Prop
  | done {st buf} : RunsText rd ev st buf [] st buf
  | stmt {st buf rest st1 e st2 v vs st' rest'} : rd st buf = (rest, st1, .expr e) → ev st1 e = .ok (st2, v) →
      RunsText rd ev st2 rest vs st' rest' → RunsText rd ev st buf (v :: vs) st' rest'

theorem manyLoop_of {rd : Reader} {ev : Evaluator} {st buf vs st' rest'} (h : RunsText rd ev st buf vs st' rest') (n : Nat) (last : Ex) :
    manyLoop rd ev (vs.length + n) st buf last = manyLoop rd ev n st' rest' (vs.getLastD last) := by
  induction h generalizing last with
  | done => simp
  | @stmt st buf rest st1 e st2 v vs st' rest' h1 h2 _ ih =>
    rw [List.length_cons, Nat.add_right_comm, manyLoop, h1]
    simp only [h2, Res.bind]
    rw [ih]
    cases vs <;> rfl

theorem readLoop_of {rd : Reader} {ev : Evaluator} {st buf vs st' rest'} (h : RunsText rd ev st buf vs st' rest') (n : Nat) (l : List Ex) :
    readLoop rd ev (vs.length + n) st buf l = readLoop rd ev n st' rest' (l ++ vs) := by
  induction h generalizing l with
  | done => simp
  | @stmt st buf rest st1 e st2 v vs st' rest' h1 h2 _ ih =>
    rw [List.length_cons, Nat.add_right_comm, readLoop, h1]
    simp only [h2, Res.bind]
    rw [ih, List.append_assoc]
    rfl

/-- C89: a file is run statement by statement, in order, each in the state left by the ones before; the value is that of the last one, `Null` for an empty file. `ReadList` gives all values in order. -/
theorem C89_runs_partial {rd : Reader} {ev : Evaluator} {st st' st'' : EState} {doc rest r : List UInt8} {vs : List Ex} (h : RunsText rd ev st doc vs st' rest)
    (hend : rd st' rest = (r, st'', .atEnd)) (n : Nat) (hn : vs.length < n) :
    evalInterpMany rd ev n st doc = .ok (st'', vs.getLastD (S "Null")) ∧ readList rd ev n st doc = .ok (st'', .expr (S "List" :: vs)) := by
  obtain ⟨k, rfl⟩ : ∃ k, n = vs.length + (k + 1) := ⟨n - vs.length - 1, by omega⟩
  rw [evalInterpMany, readList, manyLoop_of h, readLoop_of h, manyLoop, readLoop, hend]
  exact ⟨rfl, by simp⟩

/-- C89: at a syntax error the statements before it have been run and those behind it are not; but this is survived only if at least 100 bytes are left, otherwise the interpreter crashes. -/
theorem C89_error {rd : Reader} {ev : Evaluator} {st st' st'' : EState} {doc rest r : List UInt8} {vs : List Ex} (h : RunsText rd ev st doc vs st' rest)
    (herr : rd st' rest = (r, st'', .error)) (n : Nat) (hn : vs.length < n) :
    (100 ≤ r.length → evalInterpMany rd ev n st doc = .ok (st'', vs.getLastD (S "Null")) ∧ readList rd ev n st doc = .ok (st'', .expr (S "List" :: vs))) ∧
    (r.length < 100 → evalInterpMany rd ev n st doc = .panic ∧ readList rd ev n st doc = .panic) := by
  obtain ⟨k, rfl⟩ : ∃ k, n = vs.length + (k + 1) := ⟨n - vs.length - 1, by omega⟩
  rw [evalInterpMany, readList, manyLoop_of h, readLoop_of h, manyLoop, readLoop, herr]
  constructor
  · intro hr
    simp only [complain, if_neg (Nat.not_lt.2 hr), List.nil_append, and_self]
  · intro hr
    simp only [complain, if_pos hr, and_self]

/-- C89: conversely, if running the file finishes, it ran statements to an end of the text or to an error. -/
theorem C89_only {rd : Reader} {ev : Evaluator} {n : Nat} {st st'' : EState} {doc : List UInt8} {v : Ex} (h : evalInterpMany rd ev n st doc = .ok (st'', v)) :
    ∃ vs st' rest r, RunsText rd ev st doc vs st' rest ∧ v = vs.getLastD (S "Null") ∧
      (rd st' rest = (r, st'', .atEnd) ∨ rd st' rest = (r, st'', .error) ∧ 100 ≤ r.length) := by
  rw [evalInterpMany] at h
  revert h
  generalize S "Null" = last
  intro h
  induction n generalizing st doc last with
  | zero => cases h
  | succ n ih =>
    rw [manyLoop] at h
    split at h
    · rename_i rest st1 e hrd
      obtain ⟨q, h1, h2⟩ := Res.bind_ok h
      obtain ⟨vs, st', rest', r, h3, h4, h5⟩ := ih _ h2
      refine ⟨q.2 :: vs, st', rest', r, .stmt hrd h1 h3, ?_, h5⟩
      rw [h4]
      cases vs <;> rfl
    · rename_i r st1 hrd
      cases h
      exact ⟨[], st, doc, r, .done, rfl, .inl hrd⟩
    · rename_i r st1 hrd
      unfold complain at h
      split at h
      · cases h
      · rename_i hl
        cases h
        exact ⟨[], st, doc, r, .done, rfl, .inr ⟨hrd, by omega⟩⟩

namespace FilesDemo
/-- A reader for one-digit statements: it stops with an error at anything that is not a digit. -/
def reader : Reader := fun st buf =>
  match buf with
  | [] => ([], st, .atEnd)
  | b :: r => if 48 ≤ b ∧ b ≤ 57 then (r, st, .expr (.int (b.toNat - 48))) else (r, st, .error)
/-- Evaluation of integers. -/
def ev : Evaluator := fun st e => .ok (st, e)

/-- The file `12` gives 2, and is read as `{1, 2}`. -/
example (st : EState) : evalInterpMany reader ev 5 st [49, 50] = .ok (st, .int 2) ∧ readList reader ev 5 st [49, 50] = .ok (st, .expr [S "List", .int 1, .int 2]) :=
  C89_runs_partial (vs := [.int 1, .int 2]) (.stmt rfl rfl (.stmt rfl rfl .done)) rfl 5 (by decide)

/-- The file `1)` crashes. -/
example (st : EState) : evalInterpMany reader ev 5 st [49, 41] = .panic :=
  ((C89_error (vs := [.int 1]) (.stmt rfl rfl .done) rfl 5 (by decide)).2 (by decide)).1
end FilesDemo

end Expreduce
