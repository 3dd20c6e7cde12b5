import Verif.Proofs.Print
import Verif.Props.Unique

/-! Proofs about reading printed texts. -/

namespace Expreduce
open Ex

theorem read_mono : ∀ n : Nat, (∀ s x, readExpr n s = some x → readExpr (n + 1) s = some x) ∧
    (∀ t s x, readTail n t s = some x → readTail (n + 1) t s = some x) ∧ (∀ s x, readArgs n s = some x → readArgs (n + 1) s = some x)
  | 0 => ⟨fun _ _ h => by simp [readExpr] at h, fun _ _ _ h => by simp [readTail] at h, fun _ _ h => by simp [readArgs] at h⟩
  | n + 1 => by
    obtain ⟨ih1, ih2, ih3⟩ := read_mono n
    refine ⟨?_, ?_, ?_⟩
    · intro s x h
      unfold readExpr at h ⊢
      split at h
      · next r =>
        rw [Option.map_eq_some_iff] at h
        obtain ⟨y, hy, hyx⟩ := h
        simp only [ih1 _ _ hy, Option.map_some, hyx]
      · next hne =>
        rw [Option.bind_eq_some_iff] at h
        obtain ⟨y, hy, hyx⟩ := h
        rw [hy]
        exact ih2 _ _ _ hyx
    · intro t s x h
      unfold readTail at h ⊢
      split at h
      · exact ih2 _ _ _ h
      · rw [Option.bind_eq_some_iff] at h
        obtain ⟨y, hy, hyx⟩ := h
        simp only [ih3 _ _ hy, Option.bind_some]
        exact ih2 _ _ _ hyx
      · exact h
    · intro s x h
      unfold readArgs at h ⊢
      rw [Option.bind_eq_some_iff] at h
      obtain ⟨y, hy, hyx⟩ := h
      rw [ih1 _ _ hy]
      simp only [Option.bind_some]
      split at hyx
      · next r hr =>
        rw [Option.map_eq_some_iff] at hyx
        obtain ⟨z, hz, hzx⟩ := hyx
        simp only [ih3 _ _ hz, Option.map_some, hzx]
      · exact hyx
      · simp at hyx

theorem readExpr_mono {n m : Nat} (h : n ≤ m) {s : List Char} {x : PT × List Char} (hx : readExpr n s = some x) : readExpr m s = some x := by
  induction h with
  | refl => exact hx
  | step _ ih => exact (read_mono _).1 _ _ ih

theorem readTail_mono {n m : Nat} (h : n ≤ m) {t : PT} {s : List Char} {x : PT × List Char} (hx : readTail n t s = some x) : readTail m t s = some x := by
  induction h with
  | refl => exact hx
  | step _ ih => exact (read_mono _).2.1 _ _ _ ih

theorem readArgs_mono {n m : Nat} (h : n ≤ m) {s : List Char} {x : List PT × List Char} (hx : readArgs n s = some x) : readArgs m s = some x := by
  induction h with
  | refl => exact hx
  | step _ ih => exact (read_mono _).2.2 _ _ ih

/-- A text is read in at most one way. -/
theorem readsAs_unique {s : String} {t u : PT} (h1 : ReadsAs s t) (h2 : ReadsAs s u) : t = u := by
  obtain ⟨n, hn⟩ := h1
  obtain ⟨m, hm⟩ := h2
  have a := readExpr_mono (Nat.le_max_left n m) hn
  have b := readExpr_mono (Nat.le_max_right n m) hm
  rw [a] at b
  simpa using b

/-- What may follow an atom. -/
def StopsName (r : List Char) : Prop := ∀ c l, r = c :: l → nameChar c = false

/-- What may follow an argument. -/
def StopsArg (r : List Char) : Prop := r = [] ∨ (∃ l, r = ',' :: l) ∨ ∃ l, r = ']' :: l

theorem StopsArg.name {r : List Char} (h : StopsArg r) : StopsName r := by
  rintro c l rfl
  rcases h with h | ⟨l', h⟩ | ⟨l', h⟩
  · simp at h
  · simp only [List.cons.injEq] at h; rw [h.1]; decide
  · simp only [List.cons.injEq] at h; rw [h.1]; decide

theorem readTail_stop {r : List Char} (h : StopsArg r) (t : PT) (n : Nat) : readTail (n + 1) t r = some (t, r) := by
  rcases h with h | ⟨l', h⟩ | ⟨l', h⟩ <;> rw [h, readTail] <;> simp

theorem takeWhile_stop {f : Char → Bool} {l r : List Char} (hl : ∀ c ∈ l, f c = true) (hr : ∀ c t, r = c :: t → f c = false) :
    (l ++ r).takeWhile f = l ∧ (l ++ r).dropWhile f = r := by
  induction l with
  | nil =>
    cases r with
    | nil => exact ⟨rfl, rfl⟩
    | cons c t =>
      have := hr c t rfl
      simp [this]
  | cons c l ih =>
    have hc := hl c List.mem_cons_self
    have := ih (fun d hd => hl d (List.mem_cons_of_mem _ hd))
    simp [hc, this.1, this.2]

theorem readAtom_str {s : String} (h : '"' ∉ s.toList) (r : List Char) : readAtom ('"' :: s.toList ++ '"' :: r) = some (.tok (.str s), r) := by
  have := takeWhile_stop (f := (· != '"')) (l := s.toList) (r := '"' :: r) (fun c hc => by
    simp only [bne_iff_ne, ne_eq]; rintro rfl; exact h hc) (fun c t e => by
    simp only [List.cons.injEq] at e; rw [← e.1]; decide)
  rw [List.cons_append, readAtom]
  simp only [if_true, this.1, this.2, String.ofList_toList]

theorem nameStart_not {c : Char} (h : nameStart c = true) : c ≠ '"' ∧ c.isDigit = false ∧ c ≠ '-' ∧ nameChar c = true := by
  refine ⟨?_, ?_, ?_, ?_⟩
  · rintro rfl; revert h; decide
  · by_contra hd
    simp only [Bool.not_eq_false] at hd
    simp only [nameStart, Bool.or_eq_true, beq_iff_eq] at h
    rcases h with h | rfl
    · simp only [Char.isAlpha, Char.isUpper, Char.isLower, Char.isDigit, Bool.or_eq_true, Bool.and_eq_true, decide_eq_true_eq] at h hd
      rcases h with h | h
      · exact absurd (UInt32.le_trans h.1 hd.2) (by decide)
      · exact absurd (UInt32.le_trans h.1 hd.2) (by decide)
    · revert hd; decide
  · rintro rfl; revert h; decide
  · simp only [nameStart, Bool.or_eq_true] at h
    simp only [nameChar, Char.isAlphanum, Bool.or_eq_true]
    tauto

theorem readAtom_name {s : String} (h : NameLike s) {r : List Char} (hr : StopsName r) : readAtom (s.toList ++ r) = some (.tok (.ident s), r) := by
  obtain ⟨c, l, hs, hc, hl⟩ := h
  obtain ⟨h1, h2, h3, h4⟩ := nameStart_not hc
  have := takeWhile_stop (f := nameChar) (l := c :: l) (r := r) (fun d hd => by
    rcases List.mem_cons.1 hd with rfl | hd
    · exact h4
    · exact hl d hd) hr
  rw [hs, List.cons_append, readAtom, if_neg h1, h2, if_neg (by simp), if_pos hc, ← List.cons_append, this.1, this.2, ← hs, String.ofList_toList]

theorem readExpr_atom {c : Char} {l : List Char} (hc : c ≠ '-') (n : Nat) :
    readExpr (n + 1) (c :: l) = (readAtom (c :: l)).bind (fun x => readTail n x.1 x.2) := by
  unfold readExpr
  split
  · next h => simp only [List.cons.injEq] at h; exact absurd h.1 hc
  · rfl

theorem readExpr_neg (n : Nat) (l : List Char) : readExpr (n + 1) ('-' :: l) = (readExpr n l).map (fun x => (.neg x.1, x.2)) := by
  rw [readExpr]

/-- The text is read as `t` at a place where argument lists may follow. -/
def HeadReads (s : List Char) (t : PT) : Prop := ∀ r, StopsName r → ∀ m x, readTail m t r = some x → ∃ n, readExpr n (s ++ r) = some x

/-- The text is read as `t` at a place where the expression ends. -/
def ArgReads (s : List Char) (t : PT) : Prop := (∃ c l, s = c :: l ∧ c ≠ ']') ∧ ∀ r, StopsArg r → ∃ n, readExpr n (s ++ r) = some (t, r)

theorem HeadReads.arg {s : List Char} {t : PT} (h : HeadReads s t) (hc : ∃ c l, s = c :: l ∧ c ≠ ']') : ArgReads s t :=
  ⟨hc, fun r hr => h r hr.name 1 _ (readTail_stop hr t 0)⟩

theorem atom_reads {c : Char} {l : List Char} {t : PT} (hc : c ≠ '-') (h : ∀ r, StopsName r → readAtom (c :: l ++ r) = some (t, r)) : HeadReads (c :: l) t := by
  intro r hr m x hx
  refine ⟨m + 1, ?_⟩
  rw [List.cons_append, readExpr_atom hc, ← List.cons_append, h r hr]
  exact hx

theorem name_reads {s : String} (h : NameLike s) : HeadReads s.toList (.tok (.ident s)) := by
  have h0 := h
  obtain ⟨c, l, hs, hc, hl⟩ := h
  rw [hs]
  apply atom_reads (nameStart_not hc).2.2.1
  intro r hr
  rw [← hs]
  exact readAtom_name h0 hr

theorem str_reads {s : String} (h : '"' ∉ s.toList) : HeadReads ('"' :: s.toList ++ ['"']) (.tok (.str s)) := by
  apply atom_reads (by decide)
  intro r _
  have := readAtom_str h r
  simpa using this

theorem nat_reads (n : Nat) : HeadReads (Nat.repr n).toList (.tok (.int n)) ∧ ∃ c l, (Nat.repr n).toList = c :: l ∧ c.isDigit = true := by
  have hd : ∀ c ∈ (Nat.repr n).toList, c.isDigit = true := by
    intro c hc
    rw [Nat.toList_repr] at hc
    exact Nat.isDigit_of_mem_toDigits (by decide) (by decide) hc
  have hne : (Nat.repr n).toList ≠ [] := by
    rw [Nat.toList_repr]
    exact Nat.toDigits_ne_nil
  cases hs : (Nat.repr n).toList with
  | nil => exact absurd hs hne
  | cons c l =>
    have hc : c.isDigit = true := hd c (by rw [hs]; exact List.mem_cons_self)
    have hq : c ≠ '"' := by rintro rfl; revert hc; decide
    have hm : c ≠ '-' := by rintro rfl; revert hc; decide
    refine ⟨atom_reads hm ?_, c, l, rfl, hc⟩
    intro r hr
    have hw := takeWhile_stop (f := Char.isDigit) (l := c :: l) (r := r) (fun d h => hd d (by rw [hs]; exact h)) (fun d t e => by
      have := hr d t e
      simp only [nameChar, Char.isAlphanum, Bool.or_eq_false_iff] at this
      exact this.1.1.2)
    rw [List.cons_append, readAtom, if_neg hq, if_pos hc, ← List.cons_append, hw.1, hw.2, ← hs, String.ofList_toList, Nat.toNat?_repr]
    rfl

/-- The tree of an integer. -/
def intTree (n : Int) : PT := if 0 ≤ n then .tok (.int n) else .neg (.tok (.int (-n)))

theorem int_head {n : Int} (h : 0 ≤ n) : HeadReads (intText n) (intTree n) := by
  obtain ⟨k, rfl⟩ := Int.eq_ofNat_of_zero_le h
  rw [intTree, if_pos h]
  exact (nat_reads k).1

theorem int_first (n : Int) : ∃ c l, intText n = c :: l ∧ c ≠ ']' := by
  cases n with
  | ofNat k =>
    obtain ⟨c, l, h, hd⟩ := (nat_reads k).2
    exact ⟨c, l, h, by rintro rfl; revert hd; decide⟩
  | negSucc k =>
    refine ⟨'-', (Nat.repr (k + 1)).toList, ?_, by decide⟩
    show ("-" ++ Nat.repr (k + 1)).toList = _
    simp

theorem int_arg (n : Int) : ArgReads (intText n) (intTree n) := by
  by_cases h : 0 ≤ n
  · exact (int_head h).arg (int_first n)
  · refine ⟨int_first n, ?_⟩
    intro r hr
    cases n with
    | ofNat k => exact absurd (Int.natCast_nonneg k) h
    | negSucc k =>
      have ht : intText (Int.negSucc k) = '-' :: (Nat.repr (k + 1)).toList := by
        show ("-" ++ Nat.repr (k + 1)).toList = _
        simp
      obtain ⟨m, hm⟩ := (nat_reads (k + 1)).1 r hr.name 1 _ (readTail_stop hr _ 0)
      refine ⟨m + 1, ?_⟩
      rw [ht, List.cons_append, readExpr_neg, hm, intTree, if_neg h]
      rfl

theorem args_read {r : List Char} : ∀ {ss : List (List Char)} {ts : List PT}, List.Forall₂ ArgReads ss ts → ss ≠ [] →
    ∃ n, readArgs n (commaList ss ++ ']' :: r) = some (ts, r)
  | _, _, .nil, h => absurd rfl h
  | [s], [t], .cons h .nil, _ => by
    obtain ⟨n, hn⟩ := h.2 (']' :: r) (Or.inr (Or.inr ⟨r, rfl⟩))
    refine ⟨n + 1, ?_⟩
    unfold readArgs
    rw [commaList, hn]
    rfl
  | s :: s' :: ss, t :: t' :: ts, .cons h hl, _ => by
    obtain ⟨m, hm⟩ := args_read (r := r) hl (by simp)
    obtain ⟨n, hn⟩ := h.2 (',' :: ' ' :: (commaList (s' :: ss) ++ ']' :: r)) (Or.inr (Or.inl ⟨_, rfl⟩))
    refine ⟨max n m + 1, ?_⟩
    unfold readArgs
    have e : commaList (s :: s' :: ss) ++ ']' :: r = s ++ (',' :: ' ' :: (commaList (s' :: ss) ++ ']' :: r)) := by
      rw [commaList]
      · simp
      · simp
    rw [e, readExpr_mono (Nat.le_max_left n m) hn]
    simp only [Option.bind_some]
    rw [readArgs_mono (Nat.le_max_right n m) hm]
    rfl

theorem commaList_first {s : List Char} {ss : List (List Char)} (h : ∃ c l, s = c :: l ∧ c ≠ ']') : ∃ c l, commaList (s :: ss) = c :: l ∧ c ≠ ']' := by
  obtain ⟨c, l, rfl, hc⟩ := h
  cases ss with
  | nil => exact ⟨c, l, rfl, hc⟩
  | cons s' ss =>
    refine ⟨c, l ++ ',' :: ' ' :: commaList (s' :: ss), ?_, hc⟩
    rw [commaList]
    · simp
    · simp

theorem call_reads {s : List Char} {t : PT} {ss : List (List Char)} {ts : List PT} (h : HeadReads s t) (hl : List.Forall₂ ArgReads ss ts) :
    HeadReads (callText (s :: ss)) (.call t ts) := by
  intro r hr m x hx
  have e : callText (s :: ss) ++ r = s ++ ('[' :: (commaList ss ++ ']' :: r)) := by simp [callText]
  rw [e]
  cases hl with
  | nil =>
    apply h _ (by intro c l e; simp only [List.cons.injEq] at e; rw [← e.1]; decide) (m + 1)
    unfold readTail
    exact hx
  | cons h1 h2 =>
    rename_i a b l1 l2
    obtain ⟨k, hk⟩ := args_read (r := r) (List.Forall₂.cons h1 h2) (by simp)
    apply h _ (by intro c l e; simp only [List.cons.injEq] at e; rw [← e.1]; decide) (max k m + 1)
    obtain ⟨c, l, hcl, hc⟩ := commaList_first (ss := l1) h1.1
    have hk' := readArgs_mono (Nat.le_max_left k m) hk
    unfold readTail
    rw [hcl, List.cons_append] at hk' ⊢
    split
    · next h' => simp only [List.cons.injEq] at h'; exact absurd h'.2.1 hc
    · next h' =>
      simp only [List.cons.injEq] at h'
      obtain ⟨-, rfl⟩ := h'
      rw [hk']
      simp only [Option.bind_some]
      exact readTail_mono (Nat.le_max_right k m) hx
    · next h1' h2' => exact absurd rfl (h2' _)

/-- The tree of a call. -/
def callTree : List PT → PT
  | [] => .list []
  | t :: ts => .call t ts

mutual
/-- The tree read from the plain text. -/
def plainTree (context : String) (path : List String) : Ex → PT
  | .sym s => .tok (.ident (shown context path s))
  | .int n => intTree n
  | .rat n d => .call (.tok (.ident "Rational")) [intTree n, intTree d]
  | .str s => .tok (.str s)
  | .expr ps => callTree (plainTrees context path ps)
  | .flt _ | .cplx _ _ => .list []
/-- The same for a list. -/
def plainTrees (context : String) (path : List String) : List Ex → List PT
  | [] => []
  | e :: r => plainTree context path e :: plainTrees context path r
end

theorem name_first {s : String} (h : NameLike s) : ∃ c l, s.toList = c :: l ∧ c ≠ ']' := by
  obtain ⟨c, l, hs, hc, -⟩ := h
  exact ⟨c, l, hs, by rintro rfl; revert hc; decide⟩

theorem rational_like : NameLike "Rational" := ⟨'R', "ational".toList, by decide, by decide, by decide⟩

theorem plain_reads (context : String) (path : List String) : ∀ e : Ex, everyPart PlainPart e → everyPart (ReadablePart context path) e →
    (isNegInt e = false → HeadReads (plainText context path e) (plainTree context path e)) ∧ ArgReads (plainText context path e) (plainTree context path e) := by
  intro e
  induction e using Ex.ind with
  | hsym s =>
    intro _ hr
    simp only [everyPart, ReadablePart] at hr
    have := name_reads hr.1
    exact ⟨fun _ => this, this.arg (name_first hr.1)⟩
  | hstr s =>
    intro _ hr
    simp only [everyPart, ReadablePart] at hr
    have := str_reads hr.1
    exact ⟨fun _ => this, this.arg ⟨'"', _, rfl, by decide⟩⟩
  | hint n =>
    intro _ _
    refine ⟨fun hn => ?_, int_arg n⟩
    simp only [isNegInt, decide_eq_false_iff_not, Int.not_lt] at hn
    exact int_head hn
  | hrat n d =>
    intro _ _
    have : HeadReads (plainText context path (.rat n d)) (plainTree context path (.rat n d)) :=
      call_reads (name_reads rational_like) (.cons (int_arg n) (.cons (int_arg d) .nil))
    exact ⟨fun _ => this, this.arg ⟨'R', _, rfl, by decide⟩⟩
  | hflt v => intro h; simp [everyPart, PlainPart] at h
  | hcplx a b => intro h; simp [everyPart, PlainPart] at h
  | hexpr ps ih =>
    intro hp hr
    simp only [everyPart] at hp hr
    cases ps with
    | nil => exact absurd hp.1 (by simp [PlainPart])
    | cons h args =>
      simp only [everyPartL] at hp hr
      have hneg : isNegInt h = false := hr.1
      have h1 := ih h List.mem_cons_self hp.2.1 hr.2.1
      have h2 : List.Forall₂ ArgReads (plainTexts context path args) (plainTrees context path args) := by
        have hpa := hp.2.2
        have hra := hr.2.2
        have iha : ∀ p ∈ args, _ := fun p hp => ih p (List.mem_cons_of_mem _ hp)
        clear h1 hp hr ih
        induction args with
        | nil => exact .nil
        | cons a args ihl =>
          simp only [everyPartL] at hpa hra
          exact .cons (iha a List.mem_cons_self hpa.1 hra.1).2 (ihl hpa.2 hra.2 (fun p hp => iha p (List.mem_cons_of_mem _ hp)))
      have := call_reads (h1.1 hneg) h2
      refine ⟨fun _ => this, this.arg ?_⟩
      obtain ⟨c, l, hcl, hc⟩ := h1.2.1
      exact ⟨c, l ++ '[' :: commaList (plainTexts context path args) ++ [']'], by simp [plainTexts, callText, hcl], hc⟩

/-- The whole text is read as the tree. -/
theorem plain_readsAs (context : String) (path : List String) (e : Ex) (h1 : everyPart PlainPart e) (h2 : everyPart (ReadablePart context path) e) :
    ReadsAs (String.ofList (plainText context path e)) (plainTree context path e) := by
  obtain ⟨n, hn⟩ := (plain_reads context path e h1 h2).2.2 [] (Or.inl rfl)
  exact ⟨n, by rw [String.toList_ofList]; simpa using hn⟩

end Expreduce
