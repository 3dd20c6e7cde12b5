import Verif.Proofs.PrintInput

/-! Proofs about reading what `InputForm` prints. -/

namespace Expreduce
open Ex

section
variable (g : String → Nat) (um : Nat)

theorem input_mono : ∀ n : Nat, (∀ k s x, readE g um n k s = some x → readE g um (n + 1) k s = some x) ∧
    (∀ k t s x, readOps g um n k t s = some x → readOps g um (n + 1) k t s = some x) ∧
    (∀ s x, readP g um n s = some x → readP g um (n + 1) s = some x) ∧
    (∀ t s x, readBr g um n t s = some x → readBr g um (n + 1) t s = some x) ∧
    (∀ c s x, readSeq g um n c s = some x → readSeq g um (n + 1) c s = some x)
  | 0 => ⟨fun _ _ _ h => by simp [readE] at h, fun _ _ _ _ h => by simp [readOps] at h, fun _ _ h => by simp [readP] at h, fun _ _ _ h => by simp [readBr] at h,
      fun _ _ _ h => by simp [readSeq] at h⟩
  | n + 1 => by
    obtain ⟨ih1, ih2, ih3, ih4, ih5⟩ := input_mono n
    refine ⟨?_, ?_, ?_, ?_, ?_⟩
    · intro k s x h
      unfold readE at h ⊢
      split at h
      · rw [Option.bind_eq_some_iff] at h
        obtain ⟨y, hy, hyx⟩ := h
        simp only [ih1 _ _ _ hy, Option.bind_some]
        exact ih2 _ _ _ _ hyx
      · rw [Option.bind_eq_some_iff] at h
        obtain ⟨y, hy, hyx⟩ := h
        simp only [ih3 _ _ hy, Option.bind_some]
        exact ih2 _ _ _ _ hyx
    · intro k t s x h
      unfold readOps at h ⊢
      split at h
      · split at h
        · next hk =>
          rw [if_pos hk]
          rw [Option.bind_eq_some_iff] at h
          obtain ⟨y, hy, hyx⟩ := h
          simp only [ih1 _ _ _ hy, Option.bind_some]
          exact ih2 _ _ _ _ hyx
        · next hk => rw [if_neg hk]; exact h
      · exact h
    · intro s x h
      unfold readP at h ⊢
      split at h
      · rw [Option.bind_eq_some_iff] at h
        obtain ⟨y, hy, hyx⟩ := h
        simp only [ih1 _ _ _ hy, Option.bind_some]
        split at hyx
        · exact ih4 _ _ _ hyx
        · simp at hyx
      · exact ih4 _ _ _ h
      · rw [Option.bind_eq_some_iff] at h
        obtain ⟨y, hy, hyx⟩ := h
        simp only [ih5 _ _ _ hy, Option.bind_some]
        exact ih4 _ _ _ hyx
      · rw [Option.bind_eq_some_iff] at h
        obtain ⟨y, hy, hyx⟩ := h
        rw [hy]
        exact ih4 _ _ _ hyx
    · intro t s x h
      unfold readBr at h ⊢
      split at h
      · exact ih4 _ _ _ h
      · rw [Option.bind_eq_some_iff] at h
        obtain ⟨y, hy, hyx⟩ := h
        simp only [ih5 _ _ _ hy, Option.bind_some]
        exact ih4 _ _ _ hyx
      · exact h
    · intro c s x h
      unfold readSeq at h ⊢
      rw [Option.bind_eq_some_iff] at h
      obtain ⟨y, hy, hyx⟩ := h
      rw [ih1 _ _ _ hy]
      simp only [Option.bind_some]
      split at hyx
      · rw [Option.map_eq_some_iff] at hyx
        obtain ⟨z, hz, hzx⟩ := hyx
        simp only [ih5 _ _ _ hz, Option.map_some, hzx]
      · exact hyx
      · simp at hyx

variable {g um}

theorem readE_mono {n m : Nat} (h : n ≤ m) {k : Nat} {s : List Char} {x : PT × List Char} (hx : readE g um n k s = some x) : readE g um m k s = some x := by
  induction h with
  | refl => exact hx
  | step _ ih => exact (input_mono g um _).1 _ _ _ ih

theorem readOps_mono {n m : Nat} (h : n ≤ m) {k : Nat} {t : PT} {s : List Char} {x : PT × List Char} (hx : readOps g um n k t s = some x) : readOps g um m k t s = some x := by
  induction h with
  | refl => exact hx
  | step _ ih => exact (input_mono g um _).2.1 _ _ _ _ ih

theorem readP_mono {n m : Nat} (h : n ≤ m) {s : List Char} {x : PT × List Char} (hx : readP g um n s = some x) : readP g um m s = some x := by
  induction h with
  | refl => exact hx
  | step _ ih => exact (input_mono g um _).2.2.1 _ _ ih

theorem readBr_mono {n m : Nat} (h : n ≤ m) {t : PT} {s : List Char} {x : PT × List Char} (hx : readBr g um n t s = some x) : readBr g um m t s = some x := by
  induction h with
  | refl => exact hx
  | step _ ih => exact (input_mono g um _).2.2.2.1 _ _ _ ih

theorem readSeq_mono {n m : Nat} (h : n ≤ m) {c : Char} {s : List Char} {x : List PT × List Char} (hx : readSeq g um n c s = some x) : readSeq g um m c s = some x := by
  induction h with
  | refl => exact hx
  | step _ ih => exact (input_mono g um _).2.2.2.2 _ _ _ ih

theorem readsInput_unique {s : String} {t u : PT} (h1 : ReadsInput g um s t) (h2 : ReadsInput g um s u) : t = u := by
  obtain ⟨n, hn⟩ := h1
  obtain ⟨m, hm⟩ := h2
  have a := readE_mono (Nat.le_max_left n m) hn
  rw [readE_mono (Nat.le_max_right n m) hm] at a
  simpa using a.symm

/-- No pair of operators can be confused. -/
theorem op_texts : ∀ o ∈ opTable, ∀ o' ∈ opTable, o ≠ o' → ¬ o'.text <+: o.text ∧ ¬ o.text <+: o'.text := by decide +kernel

theorem opAt_text {o : OpRow} (ho : o ∈ opTable) (u : List Char) : opAt (o.text ++ u) = some (o, u) := by
  have hf : opTable.find? (fun o' => o'.text.isPrefixOf (o.text ++ u)) = some o := by
    cases h : opTable.find? (fun o' => o'.text.isPrefixOf (o.text ++ u)) with
    | none =>
      have := List.find?_eq_none.1 h o ho
      simp at this
    | some o' =>
      have h1 := List.mem_of_find?_eq_some h
      have h2 : o'.text.isPrefixOf (o.text ++ u) = true := by simpa using List.find?_some h
      rw [List.isPrefixOf_iff_prefix] at h2
      by_cases he : o = o'
      · rw [he]
      · have hn := op_texts o ho o' h1 he
        rcases List.prefix_or_prefix_of_prefix h2 (List.prefix_append o.text u) with h3 | h3
        · exact absurd h3 hn.1
        · exact absurd h3 hn.2
  unfold opAt
  rw [hf]
  simp

theorem op_first : ∀ o ∈ opTable, ∃ c l, o.text = c :: l ∧ nameChar c = false ∧ c ≠ '[' := by
  intro o ho
  have : ∀ o ∈ opTable, o.text.head?.any (fun c => !nameChar c && c != '[') = true := by decide +kernel
  have h := this o ho
  cases hs : o.text with
  | nil => rw [hs] at h; simp at h
  | cons c l =>
    rw [hs] at h
    simp at h
    exact ⟨c, l, rfl, h.1, h.2⟩

theorem opAt_none_of {r : List Char} (h : ∀ c l, r = c :: l → c ≠ ' ' ∧ c ≠ '*' ∧ c ≠ '^') : opAt r = none := by
  have hf : opTable.find? (fun o' => o'.text.isPrefixOf r) = none := by
    rw [List.find?_eq_none]
    intro o ho hp
    rw [List.isPrefixOf_iff_prefix] at hp
    have : ∀ o ∈ opTable, o.text.head?.any (fun c => c == ' ' || c == '*' || c == '^') = true := by decide +kernel
    have h1 := this o ho
    cases hs : o.text with
    | nil => rw [hs] at h1; simp at h1
    | cons c l =>
      rw [hs] at h1 hp
      obtain ⟨u, hu⟩ := hp
      have := h c (l ++ u) (by rw [← hu]; simp)
      simp at h1
      tauto
  unfold opAt
  rw [hf]
  rfl

/-- What may follow an expression. -/
def Ends (r : List Char) : Prop := ∀ c l, r = c :: l → nameChar c = false ∧ c ≠ '['

variable (g um)

/-- The next operator binds less than `k`. -/
def StopsOp (k : Nat) (r : List Char) : Prop := ∀ o r', opAt r = some (o, r') → g o.name < k

/-- Read at a place where argument lists may follow. -/
def Prim (s : List Char) (t : PT) : Prop :=
  (∃ c l, s = c :: l ∧ c ≠ '-' ∧ c ≠ ']' ∧ c ≠ '}') ∧ ∀ r, StopsName r → ∀ m x, readBr g um m t r = some x → ∃ n, readP g um n (s ++ r) = some x

/-- Read at a place where operators may follow that bind at most as strongly as `k`. -/
def OpenReads (k : Nat) (s : List Char) (t : PT) : Prop :=
  (∃ c l, s = c :: l ∧ c ≠ '-' ∧ c ≠ ']' ∧ c ≠ '}') ∧
  ∀ j r, j ≤ k → Ends r → StopsOp g (k + 1) r → ∀ m x, readOps g um m j t r = some x → ∃ n, readE g um n j (s ++ r) = some x

/-- Read at a place where the expression ends. -/
def SeqReads (s : List Char) (t : PT) : Prop :=
  (∃ c l, s = c :: l ∧ c ≠ ']' ∧ c ≠ '}') ∧
  ∀ r, (r = [] ∨ ∃ c l, r = c :: l ∧ (c = ',' ∨ c = ']' ∨ c = '}' ∨ c = ')')) → ∃ n, readE g um n 0 (s ++ r) = some (t, r)

variable {g um}

theorem readOps_stop {k : Nat} {t : PT} {r : List Char} (h : StopsOp g k r) (n : Nat) : readOps g um (n + 1) k t r = some (t, r) := by
  unfold readOps
  cases ho : opAt r with
  | none => rfl
  | some q =>
    obtain ⟨o, r'⟩ := q
    have := h o r' ho
    simp only
    rw [if_neg (by omega)]

theorem Ends.name {r : List Char} (h : Ends r) : StopsName r := fun c l e => (h c l e).1

theorem readBr_stop {t : PT} {r : List Char} (h : Ends r) (n : Nat) : readBr g um (n + 1) t r = some (t, r) := by
  unfold readBr
  split
  · exact absurd rfl (h _ _ rfl).2
  · exact absurd rfl (h _ _ rfl).2
  · rfl

theorem readE_of {c : Char} {l : List Char} (hc : c ≠ '-') (n k : Nat) :
    readE g um (n + 1) k (c :: l) = (readP g um n (c :: l)).bind (fun x => readOps g um n k x.1 x.2) := by
  conv_lhs => unfold readE
  split
  · next h => simp only [List.cons.injEq] at h; exact absurd h.1 hc
  · rfl

theorem Prim.opened {s : List Char} {t : PT} (h : Prim g um s t) (k : Nat) : OpenReads g um k s t := by
  refine ⟨h.1, ?_⟩
  intro j r _ hr _ m x hx
  obtain ⟨c, l, hs, hc, -, -⟩ := h.1
  obtain ⟨n, hn⟩ := h.2 r hr.name 1 _ (readBr_stop hr 0)
  refine ⟨max n m + 1, ?_⟩
  rw [hs] at hn ⊢
  rw [List.cons_append] at hn ⊢
  rw [readE_of hc, readP_mono (Nat.le_max_left n m) hn]
  exact readOps_mono (Nat.le_max_right n m) hx

theorem closing {r : List Char} (h : r = [] ∨ ∃ c l, r = c :: l ∧ (c = ',' ∨ c = ']' ∨ c = '}' ∨ c = ')')) : Ends r ∧ ∀ k, StopsOp g k r := by
  constructor
  · rintro c l rfl
    rcases h with h | ⟨c', l', h, hc⟩
    · simp at h
    · simp only [List.cons.injEq] at h
      rw [h.1]
      rcases hc with rfl | rfl | rfl | rfl <;> decide
  · intro k o r' ho
    rw [opAt_none_of] at ho
    · simp at ho
    · rintro c l rfl
      rcases h with h | ⟨c', l', h, hc⟩
      · simp at h
      · simp only [List.cons.injEq] at h
        rw [h.1]
        rcases hc with rfl | rfl | rfl | rfl <;> decide

theorem OpenReads.seq {k : Nat} {s : List Char} {t : PT} (h : OpenReads g um k s t) : SeqReads g um s t := by
  obtain ⟨⟨c, l, hs, -, h2⟩, h3⟩ := h
  refine ⟨⟨c, l, hs, h2⟩, ?_⟩
  intro r hr
  have := closing (g := g) hr
  exact h3 0 r (Nat.zero_le _) this.1 (this.2 _) 1 _ (readOps_stop (this.2 0) 0)

/-- The text of the operands behind the first one. -/
def opTail (o : OpRow) : List (List Char × PT) → List Char
  | [] => []
  | a :: l => o.text ++ a.1 ++ opTail o l

theorem opTail_ends {o : OpRow} (ho : o ∈ opTable) {k : Nat} (hk : g o.name < k) (l : List (List Char × PT)) {r : List Char} (h1 : Ends r) (h2 : StopsOp g k r) :
    Ends (opTail o l ++ r) ∧ StopsOp g k (opTail o l ++ r) := by
  cases l with
  | nil => exact ⟨h1, h2⟩
  | cons a l =>
    obtain ⟨c, u, hc, hn, hb⟩ := op_first o ho
    constructor
    · intro c' l' e
      rw [opTail, hc] at e
      simp only [List.cons_append, List.cons.injEq] at e
      rw [← e.1]
      exact ⟨hn, hb⟩
    · intro o' r' e
      rw [opTail, List.append_assoc, List.append_assoc, opAt_text ho] at e
      simp only [Option.some.injEq, Prod.mk.injEq] at e
      rw [← e.1]
      exact hk

theorem tail_reads {o : OpRow} (ho : o ∈ opTable) {j : Nat} (hj : j ≤ g o.name) {r : List Char} (hr : Ends r) (hso : StopsOp g (g o.name + 1) r) :
    ∀ (l : List (List Char × PT)), (∀ a ∈ l, ∃ k, g o.name < k ∧ OpenReads g um k a.1 a.2) → ∀ acc m x,
      readOps g um m j ((l.map (·.2)).foldl (opNode o) acc) r = some x → ∃ n, readOps g um n j acc (opTail o l ++ r) = some x
  | [], _, acc, m, x, h => ⟨m, h⟩
  | a :: l, hl, acc, m, x, h => by
    obtain ⟨n, hn⟩ := tail_reads ho hj hr hso l (fun b hb => hl b (List.mem_cons_of_mem _ hb)) (opNode o acc a.2) m x h
    obtain ⟨k, hk, -, ha⟩ := hl a List.mem_cons_self
    have he := opTail_ends ho (Nat.lt_succ_self (g o.name)) l hr hso
    have he2 : StopsOp g (k + 1) (opTail o l ++ r) := fun o' r' e => by have := he.2 o' r' e; omega
    obtain ⟨n', hn'⟩ := ha (g o.name + 1) _ hk he.1 he2 1 _ (readOps_stop he.2 0)
    refine ⟨max n n' + 1, ?_⟩
    unfold readOps
    rw [opTail, List.append_assoc, List.append_assoc, opAt_text ho]
    simp only
    rw [if_pos hj, readE_mono (Nat.le_max_right n n') hn']
    exact readOps_mono (Nat.le_max_left n n') hn

/-- An application of an operator is read. -/
theorem op_reads {o : OpRow} (ho : o ∈ opTable) {a : List Char × PT} {l : List (List Char × PT)} (hl : ∀ b ∈ a :: l, ∃ k, g o.name < k ∧ OpenReads g um k b.1 b.2) :
    OpenReads g um (g o.name) (a.1 ++ opTail o l) ((l.map (·.2)).foldl (opNode o) a.2) := by
  obtain ⟨k, hk, ⟨c, u, hc, h1⟩, ha⟩ := hl a List.mem_cons_self
  refine ⟨⟨c, u ++ opTail o l, by rw [hc]; rfl, h1⟩, ?_⟩
  intro j r hj hr hso m x hx
  obtain ⟨n, hn⟩ := tail_reads ho hj hr hso l (fun b hb => hl b (List.mem_cons_of_mem _ hb)) a.2 m x hx
  have he := opTail_ends ho (Nat.lt_succ_self (g o.name)) l hr hso
  rw [List.append_assoc]
  exact ha j _ (by omega) he.1 (fun o' r' e => by have := he.2 o' r' e; omega) n x hn

/-- Parentheses. -/
theorem paren_reads {s : List Char} {t : PT} (h : SeqReads g um s t) : Prim g um ('(' :: s ++ [')']) (.paren t) := by
  refine ⟨⟨'(', s ++ [')'], rfl, by decide, by decide, by decide⟩, ?_⟩
  intro r hr m x hx
  obtain ⟨n, hn⟩ := h.2 (')' :: r) (Or.inr ⟨')', r, rfl, by decide⟩)
  refine ⟨max n m + 1, ?_⟩
  have e : '(' :: s ++ [')'] ++ r = '(' :: (s ++ ')' :: r) := by simp
  rw [e]
  unfold readP
  simp only
  rw [readE_mono (Nat.le_max_left n m) hn]
  exact readBr_mono (Nat.le_max_right n m) hx

theorem seq_reads {close : Char} (hc : close = ']' ∨ close = '}') {r : List Char} : ∀ {ss : List (List Char)} {ts : List PT}, List.Forall₂ (SeqReads g um) ss ts → ss ≠ [] →
    ∃ n, readSeq g um n close (commaList ss ++ close :: r) = some (ts, r)
  | _, _, .nil, h => absurd rfl h
  | [s], [t], .cons h .nil, _ => by
    obtain ⟨n, hn⟩ := h.2 (close :: r) (Or.inr ⟨close, r, rfl, by tauto⟩)
    refine ⟨n + 1, ?_⟩
    unfold readSeq
    rw [commaList, hn]
    simp only [Option.bind_some]
    split
    · next h' => simp only [List.cons.injEq] at h'; rcases hc with rfl | rfl <;> simp at h'
    · next c r' h1 h' => simp only [List.cons.injEq] at h'; rw [if_pos h'.1.symm, h'.2]
    · next h' => simp at h'
  | s :: s' :: ss, t :: t' :: ts, .cons h hl, _ => by
    obtain ⟨m, hm⟩ := seq_reads hc (r := r) hl (by simp)
    obtain ⟨n, hn⟩ := h.2 (',' :: ' ' :: (commaList (s' :: ss) ++ close :: r)) (Or.inr ⟨',', _, rfl, by decide⟩)
    refine ⟨max n m + 1, ?_⟩
    unfold readSeq
    have e : commaList (s :: s' :: ss) ++ close :: r = s ++ (',' :: ' ' :: (commaList (s' :: ss) ++ close :: r)) := by
      rw [commaList]
      · simp
      · simp
    rw [e, readE_mono (Nat.le_max_left n m) hn]
    simp only [Option.bind_some]
    rw [readSeq_mono (Nat.le_max_right n m) hm]
    rfl

theorem commaList_first' {P : Char → Prop} {s : List Char} {ss : List (List Char)} (h : ∃ c l, s = c :: l ∧ P c) : ∃ c l, commaList (s :: ss) = c :: l ∧ P c := by
  obtain ⟨c, l, rfl, hc⟩ := h
  cases ss with
  | nil => exact ⟨c, l, rfl, hc⟩
  | cons s' ss =>
    refine ⟨c, l ++ ',' :: ' ' :: commaList (s' :: ss), ?_, hc⟩
    rw [commaList]
    · simp
    · simp

/-- Calls. -/
theorem call_prim {s : List Char} {t : PT} {ss : List (List Char)} {ts : List PT} (h : Prim g um s t) (hl : List.Forall₂ (SeqReads g um) ss ts) :
    Prim g um (callText (s :: ss)) (.call t ts) := by
  obtain ⟨⟨c, l, hs, h1⟩, h2⟩ := h
  refine ⟨⟨c, l ++ '[' :: commaList ss ++ [']'], by rw [hs]; simp [callText], h1⟩, ?_⟩
  intro r hr m x hx
  have e : callText (s :: ss) ++ r = s ++ ('[' :: (commaList ss ++ ']' :: r)) := by simp [callText]
  rw [e]
  have hst : ∀ u, StopsName ('[' :: u) := by intro u c l e; simp only [List.cons.injEq] at e; rw [← e.1]; decide
  cases hl with
  | nil =>
    apply h2 _ (hst _) (m + 1)
    unfold readBr
    exact hx
  | cons h3 h4 =>
    rename_i a b l1 l2
    obtain ⟨k, hk⟩ := seq_reads (close := ']') (Or.inl rfl) (r := r) (List.Forall₂.cons h3 h4) (by simp)
    apply h2 _ (hst _) (max k m + 1)
    obtain ⟨c', l', hcl, hc'⟩ := commaList_first' (ss := l1) h3.1
    have hk' := readSeq_mono (Nat.le_max_left k m) hk
    unfold readBr
    rw [hcl, List.cons_append] at hk' ⊢
    split
    · next h' => simp only [List.cons.injEq] at h'; exact absurd h'.2.1 hc'.1
    · next h' =>
      simp only [List.cons.injEq] at h'
      obtain ⟨-, rfl⟩ := h'
      rw [hk']
      exact readBr_mono (Nat.le_max_right k m) hx
    · next h1' h2' => exact absurd rfl (h2' _)

/-- Lists. -/
theorem list_prim {ss : List (List Char)} {ts : List PT} (hl : List.Forall₂ (SeqReads g um) ss ts) :
    Prim g um ('{' :: commaList ss ++ ['}']) (.list ts) := by
  refine ⟨⟨'{', commaList ss ++ ['}'], rfl, by decide, by decide, by decide⟩, ?_⟩
  intro r hr m x hx
  have e : '{' :: commaList ss ++ ['}'] ++ r = '{' :: (commaList ss ++ '}' :: r) := by simp
  rw [e]
  cases hl with
  | nil =>
    refine ⟨m + 1, ?_⟩
    unfold readP
    exact hx
  | cons h3 h4 =>
    rename_i a b l1 l2
    obtain ⟨k, hk⟩ := seq_reads (close := '}') (Or.inr rfl) (r := r) (List.Forall₂.cons h3 h4) (by simp)
    refine ⟨max k m + 1, ?_⟩
    obtain ⟨c', l', hcl, hc'⟩ := commaList_first' (ss := l1) h3.1
    have hk' := readSeq_mono (Nat.le_max_left k m) hk
    unfold readP
    rw [hcl, List.cons_append] at hk' ⊢
    split
    · next h' => simp at h'
    · next h' => simp only [List.cons.injEq] at h'; exact absurd h'.2.1 hc'.2
    · next h' =>
      simp only [List.cons.injEq] at h'
      obtain ⟨-, rfl⟩ := h'
      rw [hk']
      exact readBr_mono (Nat.le_max_right k m) hx
    · next h1' h2' h3' => exact absurd rfl (h3' _)

theorem atom_prim {c : Char} {l : List Char} {t : PT} (hc : c ≠ '-' ∧ c ≠ ']' ∧ c ≠ '}' ∧ c ≠ '(' ∧ c ≠ '{')
    (h : ∀ r, StopsName r → readAtom (c :: l ++ r) = some (t, r)) : Prim g um (c :: l) t := by
  refine ⟨⟨c, l, rfl, hc.1, hc.2.1, hc.2.2.1⟩, ?_⟩
  intro r hr m x hx
  refine ⟨m + 1, ?_⟩
  have := h r hr
  unfold readP
  rw [List.cons_append] at this ⊢
  split
  · next h' => simp only [List.cons.injEq] at h'; exact absurd h'.1 hc.2.2.2.1
  · next h' => simp only [List.cons.injEq] at h'; exact absurd h'.1 hc.2.2.2.2
  · next h' => simp only [List.cons.injEq] at h'; exact absurd h'.1 hc.2.2.2.2
  · rw [this]
    exact hx

theorem name_prim {s : String} (h : NameLike s) : Prim g um s.toList (.tok (.ident s)) := by
  have h0 := h
  obtain ⟨c, l, hs, hc, hl⟩ := h
  rw [hs]
  apply atom_prim
  · refine ⟨?_, ?_, ?_, ?_, ?_⟩ <;> (rintro rfl; revert hc; decide)
  · intro r hr
    rw [← hs]
    exact readAtom_name h0 hr

theorem str_prim {s : String} (h : '"' ∉ s.toList) : Prim g um ('"' :: s.toList ++ ['"']) (.tok (.str s)) := by
  apply atom_prim (by decide)
  intro r _
  have := readAtom_str h r
  simpa using this

theorem nat_prim (n : Nat) : Prim g um (Nat.repr n).toList (.tok (.int n)) := by
  have hd : ∀ c ∈ (Nat.repr n).toList, c.isDigit = true := by
    intro c hc
    rw [Nat.toList_repr] at hc
    exact Nat.isDigit_of_mem_toDigits (by decide) (by decide) hc
  have hne : (Nat.repr n).toList ≠ [] := by
    rw [Nat.toList_repr]
    exact Nat.toDigits_ne_nil
  cases hs : (Nat.repr n).toList with
  | nil => exact absurd hs hne
  | cons c l =>
    have hc : c.isDigit = true := hd c (by rw [hs]; exact List.mem_cons_self)
    have hq : c ≠ '"' := by rintro rfl; revert hc; decide
    apply atom_prim
    · refine ⟨?_, ?_, ?_, ?_, ?_⟩ <;> (rintro rfl; revert hc; decide)
    · intro r hr
      have hw := takeWhile_stop (f := Char.isDigit) (l := c :: l) (r := r) (fun d h => hd d (by rw [hs]; exact h)) (fun d t e => by
        have := hr d t e
        simp only [nameChar, Char.isAlphanum, Bool.or_eq_false_iff] at this
        exact this.1.1.2)
      rw [List.cons_append, readAtom, if_neg hq, if_pos hc, ← List.cons_append, hw.1, hw.2, ← hs, String.ofList_toList, Nat.toNat?_repr]
      rfl

theorem int_seq (n : Int) : SeqReads g um (intText n) (intTree n) ∧ (0 ≤ n → Prim g um (intText n) (intTree n)) := by
  have hp : 0 ≤ n → Prim g um (intText n) (intTree n) := by
    intro h
    obtain ⟨k, rfl⟩ := Int.eq_ofNat_of_zero_le h
    rw [intTree, if_pos h]
    exact nat_prim k
  refine ⟨?_, hp⟩
  by_cases h : 0 ≤ n
  · exact ((hp h).opened 0).seq
  · cases n with
    | ofNat k => exact absurd (Int.natCast_nonneg k) h
    | negSucc k =>
      have ht : intText (Int.negSucc k) = '-' :: (Nat.repr (k + 1)).toList := by
        show ("-" ++ Nat.repr (k + 1)).toList = _
        simp
      refine ⟨⟨'-', _, ht, by decide, by decide⟩, ?_⟩
      intro r hr
      have hcl := closing (g := g) hr
      obtain ⟨m, hm⟩ := ((nat_prim (g := g) (um := um) (k + 1)).opened um).2 um r (Nat.le_refl _) hcl.1 (hcl.2 _) 1 _ (readOps_stop (hcl.2 _) 0)
      refine ⟨m + 2, ?_⟩
      rw [ht, List.cons_append, readE, readE_mono (Nat.le_succ m) hm, intTree, if_neg h]
      simp only [Option.bind_some]
      exact readOps_stop (hcl.2 _) _

end
end Expreduce
