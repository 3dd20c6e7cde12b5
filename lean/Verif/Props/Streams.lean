import Verif.Spec.Streams
import Verif.Props.Lists
import Mathlib.Algebra.Group.Defs
import Mathlib.Data.List.Perm.Basic
import Mathlib.Data.List.Nodup

/-! Properties C49 (output streams) and C54 (timing). -/

namespace Expreduce
open Ex

/-! ## Streams -/

/-- A first argument of `WriteString` for which the code does what the description says: it is not the bare name `"stderr"`, and the number of
an `OutputStream` is a non-negative 64 bit number. -/
def PlainStream (e : Ex) : Prop :=
  e ≠ .str "stderr" ∧ ∀ s n, e = .expr [S "OutputStream", .str s, .int n] → 0 ≤ n ∧ n < 2 ^ 63

theorem wrap64_nonneg {n : Int} (h0 : 0 ≤ n) (h1 : n < 2 ^ 63) : wrap64 n = n := by
  unfold wrap64
  rw [Int.emod_eq_of_lt (by omega) (by omega)]
  omega

theorem parse_args {e : Ex} {s : String} {n : Int} (h : parseOutputStream e = some (s, n)) :
    (e = .str s ∧ n = -1) ∨ ∃ m, e = .expr [S "OutputStream", .str s, .int m] ∧ n = wrap64 m := by
  unfold parseOutputStream at h
  split at h
  · simp only [Option.some.injEq, Prod.mk.injEq] at h
    exact Or.inl ⟨by rw [h.1], h.2.symm⟩
  · split at h
    · next hargs =>
      simp only [Option.some.injEq, Prod.mk.injEq] at h
      have := argsOf_eq hargs
      exact Or.inr ⟨_, by rw [this, h.1]; rfl, h.2.symm⟩
    · simp at h

theorem writerOf_if (k : StreamKey) : writerOf k =
    if k = { id := 1, name := "stdout" } then some .out else if k = { id := 2, name := "stderr" } then some .err else none := by
  by_cases h1 : k = { id := 1, name := "stdout" }
  · subst h1; decide
  · by_cases h2 : k = { id := 2, name := "stderr" }
    · subst h2; decide
    · have e1 : (({ id := 1, name := "stdout" } : StreamKey) == k) = false := by rw [beq_eq_false_iff_ne]; exact fun h => h1 h.symm
      have e2 : (({ id := 2, name := "stderr" } : StreamKey) == k) = false := by rw [beq_eq_false_iff_ne]; exact fun h => h2 h.symm
      simp [writerOf, openStreams, List.find?, e1, e2, h1, h2]

theorem writerOf_eq (n : Int) (s : String) : writerOf (fillMissingIndex { id := n, name := s }) =
    if s = "stdout" ∧ (n = 1 ∨ n = -1) then some .out else if s = "stderr" ∧ n = 2 then some .err else none := by
  rw [writerOf_if]
  unfold fillMissingIndex
  by_cases h1 : n = -1
  · by_cases h2 : s = "stdout"
    · simp [h1, h2]
    · by_cases h3 : s = "stdin"
      · simp [h1, h3]
      · simp [h1, h2, h3]
  · simp only [h1, if_false, or_false, StreamKey.mk.injEq, and_comm]

theorem addressee_str (s : String) : addressee (.str s) = if s = "stdout" then some .out else if s = "stderr" then some .err else none := by
  simp [addressee]

theorem addressee_stream (s : String) (n : Int) : addressee (.expr [S "OutputStream", .str s, .int n]) =
    if s = "stdout" ∧ n = 1 then some .out else if s = "stderr" ∧ n = 2 then some .err else none := by
  simp [addressee]

/-- What one call does. -/
theorem write_one (w : Written) (ps : List Ex) (h : ∀ hd e x, ps = [hd, e, x] → PlainStream e) (fd : Fd) :
    (writeStringFn w ps).1 fd = w fd ++ textFor fd ps := by
  unfold writeStringFn
  split
  · next hd e x =>
    have hp := h hd e x rfl
    have key : ∀ t, x = .str t → (match parseOutputStream e with
        | none => w
        | some (name, idx) => (smWrite w name idx t).1) fd = w fd ++ (if addressee e = some fd then t else "") := by
      intro t _
      cases hn : parseOutputStream e with
      | none =>
        have : addressee e = none := by
          unfold addressee
          rw [if_neg, if_neg]
          · rintro (rfl | rfl)
            · exact absurd hn (by simp [parseOutputStream])
            · exact absurd hn (by simp [parseOutputStream, argsOf, S])
          · rintro (rfl | rfl)
            · exact absurd hn (by simp [parseOutputStream])
            · exact absurd hn (by simp [parseOutputStream, argsOf, S])
        simp [this]
      | some q =>
        obtain ⟨name, idx⟩ := q
        have hw : writerOf (fillMissingIndex { id := idx, name := name }) = addressee e := by
          rw [writerOf_eq]
          rcases parse_args hn with ⟨rfl, rfl⟩ | ⟨m, rfl, rfl⟩
          · have := hp.1
            rw [addressee_str]
            by_cases h1 : name = "stdout"
            · simp [h1]
            · have h2 : name ≠ "stderr" := fun h => this (by rw [h])
              simp [h1, h2]
          · have := hp.2 name m rfl
            rw [addressee_stream, wrap64_nonneg this.1 this.2]
            have h1 : m ≠ -1 := by omega
            simp [h1]
        simp only [smWrite]
        rw [hw]
        cases addressee e with
        | none => simp
        | some g =>
          by_cases hg : fd = g
          · simp [hg]
          · have : ¬ (g = fd) := fun h => hg h.symm
            simp [hg, this]
    cases x with
    | str t =>
      have := key t rfl
      show (match parseOutputStream e with
        | none => (w, Ex.expr [hd, e, .str t])
        | some (name, idx) => ((smWrite w name idx t).1, S "Null")).1 fd = _
      simp only [textFor]
      rw [← this]
      cases parseOutputStream e <;> rfl
    | _ => simp only [textFor]; cases parseOutputStream e <;> simp
  · next h3 =>
    have : textFor fd ps = "" := by
      unfold textFor
      split
      · next a e s => exact absurd rfl (h3 a e (.str s))
      · rfl
    simp [this]

/-- C49 (partial: the first argument is not the bare name `"stderr"`, and stream numbers are in the 64 bit range). After any history of calls of
`WriteString` with any arguments, each of the two outputs contains exactly what was there before followed by the texts of the calls that address it, in
order. -/
theorem C49_delivery_partial (w : Written) (calls : List (List Ex)) (h : ∀ hd e x, [hd, e, x] ∈ calls → PlainStream e) (fd : Fd) :
    afterCalls w calls fd = w fd ++ textsFor fd calls := by
  induction calls generalizing w with
  | nil => simp [afterCalls, textsFor]
  | cons c cs ih =>
    have : afterCalls w (c :: cs) = afterCalls (writeStringFn w c).1 cs := rfl
    rw [this, ih _ (fun hd e x hm => h hd e x (List.mem_cons_of_mem _ hm)),
      write_one w c (fun hd e x hc => h hd e x (by rw [hc]; exact List.mem_cons_self)), textsFor, String.append_assoc]

example : ∀ hd e x, [hd, e, x] ∈ [[S "WriteString", .str "stdout", .str "a"], [S "WriteString", .expr [S "OutputStream", .str "stderr", .int 2], .str "b"],
    [S "WriteString", .int 3, .str "c"]] → PlainStream e := by
  intro hd e x h
  simp only [List.mem_cons, List.cons.injEq, and_true, List.not_mem_nil, or_false] at h
  rcases h with ⟨-, rfl, -⟩ | ⟨-, rfl, -⟩ | ⟨-, rfl, -⟩
  · exact ⟨by decide, by intro s n h; simp at h⟩
  · refine ⟨by decide, ?_⟩
    intro s n h
    simp only [Ex.expr.injEq, List.cons.injEq, Ex.int.injEq, and_true] at h
    have := h.2.2
    omega
  · exact ⟨by decide, by intro s n h; simp at h⟩

/-- C49 fails for the bare name `"stderr"`: the text reaches no stream, and the call still reports success. -/
theorem C49_stderr_lost (w : Written) (h : Ex) (s : String) : writeStringFn w [h, .str "stderr", .str s] = (w, S "Null") := by
  rfl

/-- C49: the value of a call does not depend on whether anything was written: it is `Null` if the arguments are a string or a well-formed
`OutputStream`, and a string, and the call itself otherwise. -/
theorem C49_value (w : Written) (h e x : Ex) :
    (writeStringFn w [h, e, x]).2 = S "Null" ↔
      ((∃ s, e = .str s) ∨ ∃ s n, e = .expr [S "OutputStream", .str s, .int n]) ∧ ∃ s, x = .str s := by
  unfold writeStringFn
  cases hp : parseOutputStream e with
  | none =>
    simp only [hp]
    constructor
    · intro h; simp [S] at h
    · rintro ⟨⟨s, rfl⟩ | ⟨s, n, rfl⟩, -⟩
      · simp [parseOutputStream] at hp
      · simp [parseOutputStream, argsOf, S] at hp
  | some q =>
    obtain ⟨name, idx⟩ := q
    have he : (∃ s, e = .str s) ∨ ∃ s n, e = .expr [S "OutputStream", .str s, .int n] := by
      rcases parse_args hp with ⟨rfl, -⟩ | ⟨m, rfl, -⟩
      · exact Or.inl ⟨_, rfl⟩
      · exact Or.inr ⟨_, _, rfl⟩
    simp only [hp, he, true_and]
    cases x <;> simp [S]

/-- C49: stream numbers are cut to 64 bits, so a number that names no stream can reach one. -/
theorem C49_number_cut (w : Written) (h : Ex) (s : String) :
    (writeStringFn w [h, .expr [S "OutputStream", .str "stdout", .int (2 ^ 64 + 1)], .str s]).1 .out = w .out ++ s := by
  have : wrap64 (2 ^ 64 + 1) = 1 := by decide +kernel
  have hp : parseOutputStream (.expr [S "OutputStream", .str "stdout", .int (2 ^ 64 + 1)]) = some ("stdout", 1) := by
    rw [← this]; rfl
  unfold writeStringFn
  simp only [hp]
  rfl

/-- C49: `Streams[]` lists, in the order of the numbers, exactly the streams that can be written to, each once: every element addresses an output, and
every output is addressed by exactly one element. -/
theorem C49_streams_listed (h : Ex) : ∃ es, streamsFn [h] = .expr (S "List" :: es) ∧ (∀ e ∈ es, ∃ fd, addressee e = some fd) ∧
    (∀ fd, ∃! e, e ∈ es ∧ addressee e = some fd) ∧ ∀ e ∈ es, PlainStream e := by
  refine ⟨_, rfl, ?_, ?_, ?_⟩
  · intro e he
    simp only [openStreams, List.map_cons, List.map_nil, List.mem_cons, List.not_mem_nil, or_false] at he
    rcases he with rfl | rfl
    · exact ⟨.out, by decide +kernel⟩
    · exact ⟨.err, by decide +kernel⟩
  · intro fd
    cases fd
    · refine ⟨.expr [S "OutputStream", .str "stdout", .int 1], ⟨by simp [openStreams], by decide +kernel⟩, ?_⟩
      rintro e ⟨he, ha⟩
      simp only [openStreams, List.map_cons, List.map_nil, List.mem_cons, List.not_mem_nil, or_false] at he
      rcases he with rfl | rfl
      · rfl
      · exact absurd ha (by decide +kernel)
    · refine ⟨.expr [S "OutputStream", .str "stderr", .int 2], ⟨by simp [openStreams], by decide +kernel⟩, ?_⟩
      rintro e ⟨he, ha⟩
      simp only [openStreams, List.map_cons, List.map_nil, List.mem_cons, List.not_mem_nil, or_false] at he
      rcases he with rfl | rfl
      · exact absurd ha (by decide +kernel)
      · rfl
  · intro e he
    simp only [openStreams, List.map_cons, List.map_nil, List.mem_cons, List.not_mem_nil, or_false] at he
    rcases he with rfl | rfl <;>
    · refine ⟨by simp, ?_⟩
      intro s n h
      simp only [Ex.expr.injEq, List.cons.injEq, Ex.int.injEq, and_true] at h
      have := h.2.2
      omega

end Expreduce
