import Verif.Proofs.PrintInputRead
import Verif.Props.Print

/-! Property C84: `InputForm` puts enough parentheses. -/

namespace Expreduce
open Ex

/-- The head is written as an operator or a list. -/
def keepsHead : Ex → Bool
  | .sym s => s == "System`List" || opTable.any (fun o => s == "System`" ++ o.name)
  | _ => false

mutual
/-- The expression in the text, before the contexts are added. -/
def inputEx (context : String) (path : List String) : Ex → Ex
  | .sym s => .sym (shown context path s)
  | .expr ps => .expr (inputExParts context path ps)
  | e => e
/-- The parts. -/
def inputExParts (context : String) (path : List String) : List Ex → List Ex
  | [] => []
  | h :: r => (if keepsHead h then h else inputEx context path h) :: inputExL context path r
/-- The same for a list. -/
def inputExL (context : String) (path : List String) : List Ex → List Ex
  | [] => []
  | e :: r => inputEx context path e :: inputExL context path r
end

/-- Another operand can be appended without being merged. -/
def JoinSafe (o : OpRow) (t : PT) : Prop := unprotected t = true → ∀ y, joined o.name (reading t) y = .expr [S o.name, reading t, y]

theorem op_names : ∀ o ∈ opTable, o.name ≠ "List" ∧ o.name ≠ "Inequality" := by decide +kernel

theorem op_name_inj : ∀ o ∈ opTable, ∀ o' ∈ opTable, o.name = o'.name → o = o' := by decide +kernel

theorem cmp_sys {g : String} (h : g ∈ comparisonOps.map ("System`" ++ ·)) : ∃ c ∈ comparisonOps, g = "System`" ++ c := by
  obtain ⟨c, hc, rfl⟩ := List.mem_map.1 h
  exact ⟨c, hc, rfl⟩

theorem sys_cancel {a b : String} (h : "System`" ++ a = "System`" ++ b) : a = b := by
  have := congrArg String.toList h
  simp only [String.toList_append, List.append_cancel_left_eq] at this
  exact String.toList_inj.1 this

theorem joinSafe_notSys (o : OpRow) {t : PT} {s : String} {l : List Ex} (h : reading t = .expr (.sym s :: l)) (hs : ¬ ("System`".toList <+: s.toList)) : JoinSafe o t := by
  intro _ y
  have hne : ∀ x : String, s ≠ "System`" ++ x := by
    rintro x rfl
    exact hs ⟨x.toList, by simp⟩
  rw [h]
  unfold joined
  simp only
  rw [if_neg (hne _), if_neg (fun h => hne "Inequality" h.2), if_neg]
  rintro ⟨-, h2⟩
  obtain ⟨c, -, hc⟩ := cmp_sys h2
  exact hne c hc

theorem joinSafe_list {o : OpRow} (ho : o ∈ opTable) {t : PT} {l : List Ex} (h : reading t = .expr (S "List" :: l)) : JoinSafe o t := by
  intro _ y
  rw [h]
  unfold joined S
  simp only
  rw [if_neg, if_neg, if_neg]
  · rintro ⟨-, h2⟩
    revert h2; decide
  · rintro ⟨-, h2⟩
    revert h2; decide
  · intro h
    exact (op_names o ho).1 (sys_cancel h).symm

theorem joinSafe_atom (o : OpRow) {t : PT} (h : ∀ s l, reading t ≠ .expr (.sym s :: l)) : JoinSafe o t := by
  intro _ y
  unfold joined
  split
  · next h' => exact absurd h' (h _ _)
  · rfl

section
variable (g : String → Nat)

theorem joinSafe_op (hcmp : ∀ a ∈ comparisonOps, ∀ b ∈ comparisonOps, g a = g b) {o o' : OpRow} (ho' : o' ∈ opTable) (hlt : g o.name < g o'.name)
    {t : PT} {l : List Ex} (h : reading t = .expr (S o'.name :: l)) : JoinSafe o t := by
  intro _ y
  rw [h]
  unfold joined S
  simp only
  rw [if_neg, if_neg, if_neg]
  · rintro ⟨h1, h2⟩
    obtain ⟨c, hc, he⟩ := cmp_sys h2
    have := sys_cancel he
    rw [← this] at hc
    have := hcmp _ h1 _ hc
    omega
  · rintro ⟨-, h2⟩
    exact (op_names o' ho').2 (sys_cancel (b := "Inequality") h2)
  · intro h
    have := sys_cancel h
    rw [this] at hlt
    omega

end

/-- The reading of a chain. -/
theorem chain_reading {o : OpRow} (ho : o.two = false) : ∀ (ts : List PT) (acc : PT) (l : List Ex), unprotected acc = true → reading acc = .expr (S o.name :: l) →
    reading (ts.foldl (opNode o) acc) = .expr (S o.name :: l ++ readings ts) ∧ unprotected (ts.foldl (opNode o) acc) = true
  | [], acc, l, h1, h2 => by simp [readings, h1, h2]
  | t :: ts, acc, l, h1, h2 => by
    have e : opNode o acc t = .assoc o.name acc t := by simp [opNode, ho]
    have := chain_reading ho ts (.assoc o.name acc t) (l ++ [reading t]) rfl (by
      rw [reading, if_pos h1, h2]
      unfold joined S
      simp)
    rw [List.foldl_cons, e, this.1]
    exact ⟨by simp [readings], this.2⟩

theorem op_reading {o : OpRow} {t : PT} {ts : List PT} (h2 : 1 ≤ ts.length) (htwo : o.two = true → ts.length = 1) (hj : JoinSafe o t) :
    reading (ts.foldl (opNode o) t) = .expr (S o.name :: reading t :: readings ts) ∧ unprotected (ts.foldl (opNode o) t) = true := by
  cases ht : o.two
  · cases ts with
    | nil => simp at h2
    | cons u ts =>
      have e : opNode o t u = .assoc o.name t u := by simp [opNode, ht]
      have hr : reading (.assoc o.name t u) = .expr (S o.name :: [reading t, reading u]) := by
        rw [reading]
        cases hu : unprotected t
        · simp
        · rw [if_pos rfl, hj hu]
      have := chain_reading ht ts (.assoc o.name t u) [reading t, reading u] rfl hr
      rw [List.foldl_cons, e, this.1]
      exact ⟨by simp [readings], this.2⟩
  · have := htwo ht
    match ts, this with
    | [u], _ =>
      have e : opNode o t u = .bin o.name t u := by simp [opNode, ht]
      simp [e, reading, readings, unprotected]

theorem op_proper {o : OpRow} : ∀ (ts : List PT) (t : PT), properTree NoParensName t → properTreeL NoParensName ts → properTree NoParensName (ts.foldl (opNode o) t)
  | [], t, h, _ => h
  | u :: ts, t, h, hs => by
    simp only [properTreeL] at hs
    apply op_proper ts _ _ hs.2
    unfold opNode
    split <;> simp only [properTree] <;> exact ⟨h, hs.1⟩

theorem readings_map (ts : List PT) : readings ts = ts.map reading := by
  induction ts with
  | nil => rfl
  | cons t ts ih => simp [readings, ih]

theorem properTreeL_iff (P : Token → Prop) (ts : List PT) : properTreeL P ts ↔ ∀ t ∈ ts, properTree P t := by
  induction ts with
  | nil => simp [properTreeL]
  | cons t ts ih => simp [properTreeL, ih]

section
variable (prec : String → Option Nat) (fl : Rat → String) (g : String → Nat) (um : Nat)

/-- The precedences used for printing are those of the reader: an operator printed without a head has none, and all comparisons bind equally. -/
structure SamePrec : Prop where
  none : prec "" = .none
  same : ∀ o ∈ opTable, ∀ a, prec ("System`" ++ o.name) = some a → g o.name = a
  cmp : ∀ a ∈ comparisonOps, ∀ b ∈ comparisonOps, g a = g b

/-- How the text of `e` behind the head `prev` is read. -/
structure PrintedAs (p : PParams) (e : Ex) (s : String) (t : PT) : Prop where
  prints : ∃ N, ∀ m, N ≤ m → sf prec fl m p e = .ok s
  seq : SeqReads g um s.toList t
  proper : properTree NoParensName t
  reads : reading t = inputEx p.context p.path e
  level : isNegInt e = false → NoMinus s ∧
    (((∀ k, OpenReads g um k s.toList t) ∧ (∀ o ∈ opTable, JoinSafe o t) ∧ (operatorExpr e = false → Prim g um s.toList t)) ∨
     (operatorExpr e = true ∧ ∃ o ∈ opTable, OpenReads g um (g o.name) s.toList t ∧ (p.prev = topHead ∨ ∃ a, prec p.prev = some a ∧ a < g o.name) ∧
       ∃ l, reading t = .expr (S o.name :: l)))

variable {prec fl g um}

theorem prim_printed {p : PParams} {e : Ex} {s : String} {t : PT} (h1 : ∃ N, ∀ m, N ≤ m → sf prec fl m p e = .ok s) (h2 : Prim g um s.toList t)
    (h3 : properTree NoParensName t) (h4 : reading t = inputEx p.context p.path e) (h5 : ∀ o ∈ opTable, JoinSafe o t) : PrintedAs prec fl g um p e s t where
  prints := h1
  seq := (h2.opened 0).seq
  proper := h3
  reads := h4
  level := fun _ => ⟨by obtain ⟨⟨c, l, hs, hc, -⟩, -⟩ := h2; exact ⟨c, l, hs, hc⟩, Or.inl ⟨fun k => h2.opened k, h5, fun _ => h2⟩⟩

/-- A list of texts and trees for the arguments. -/
theorem args_printed {q : PParams} : ∀ {args : List Ex}, (∀ a ∈ args, ∃ s t, PrintedAs prec fl g um q a s t) →
    ∃ (l : List (String × PT)) (N : Nat), List.Forall₂ (fun a st => PrintedAs prec fl g um q a st.1 st.2) args l ∧ ∀ m, N ≤ m → sfL prec fl m q args = .ok (l.map (·.1))
  | [], _ => ⟨[], 1, .nil, fun m hm => by
      obtain ⟨m, rfl⟩ : ∃ k, m = k + 1 := ⟨m - 1, by omega⟩
      rw [sfL_nil]; rfl⟩
  | a :: args, h => by
    obtain ⟨l, N, h1, h2⟩ := args_printed (fun b hb => h b (List.mem_cons_of_mem _ hb))
    obtain ⟨s, t, hp⟩ := h a List.mem_cons_self
    obtain ⟨M, hM⟩ := hp.prints
    refine ⟨(s, t) :: l, max M N + 1, .cons hp h1, ?_⟩
    intro m hm
    obtain ⟨m, rfl⟩ : ∃ k, m = k + 1 := ⟨m - 1, by omega⟩
    have a1 : M ≤ m := by have := Nat.le_max_left M N; omega
    have a2 : N ≤ m := by have := Nat.le_max_right M N; omega
    rw [sfL_cons prec fl (hM m a1) (h2 m a2)]
    rfl

theorem inputExL_eq {q : PParams} : ∀ {args : List Ex} {l : List (String × PT)}, List.Forall₂ (fun a st => PrintedAs prec fl g um q a st.1 st.2) args l →
    inputExL q.context q.path args = readings (l.map (·.2)) ∧ properTreeL NoParensName (l.map (·.2)) ∧
      List.Forall₂ (SeqReads g um) (l.map (fun st => st.1.toList)) (l.map (·.2))
  | _, _, .nil => ⟨rfl, trivial, .nil⟩
  | _, _, .cons h hl => by
    obtain ⟨h1, h2, h3⟩ := inputExL_eq hl
    refine ⟨?_, ⟨h.proper, h2⟩, .cons h.seq h3⟩
    rw [inputExL, List.map_cons, readings, h1, h.reads]

/-- An operand as it stands in the text. -/
def operand (o : OpRow) (st : String × PT) : List Char × PT := ((inBrackets o.surround st.1).toList, if o.surround then .paren st.2 else st.2)

theorem join_operands (o : OpRow) : ∀ (a : String × PT) (l : List (String × PT)),
    (joinTexts (String.ofList o.text) (((a :: l).map (·.1)).map (inBrackets o.surround))).toList = (operand o a).1 ++ opTail o (l.map (operand o))
  | a, [] => by simp [joinTexts, operand, opTail]
  | a, b :: l => by
    have := join_operands o b l
    simp only [List.map_cons] at this ⊢
    rw [joinTexts]
    · rw [String.toList_append, String.toList_append, this, String.toList_ofList, opTail]
      simp [operand]
    · simp

theorem paren_text (s : String) : (inBrackets true s).toList = '(' :: s.toList ++ [')'] := by simp [inBrackets]

theorem row_noOwn : ∀ o ∈ opTable, o.own = false → o.hd = "" := by
  intro o _ h
  simp [OpRow.hd, h]

theorem hd_ne_top : ∀ o ∈ opTable, o.hd ≠ topHead := by decide +kernel

theorem prec_hd (hP : SamePrec prec g) {o : OpRow} (ho : o ∈ opTable) {a : Nat} (h : prec o.hd = some a) : g o.name = a := by
  cases hown : o.own
  · rw [row_noOwn o ho hown, hP.none] at h
    simp at h
  · have : o.hd = "System`" ++ o.name := by simp [OpRow.hd, hown]
    rw [this] at h
    exact hP.same o ho a h

/-- An operand of an operator is read at the right level. -/
theorem operand_reads (hP : SamePrec prec g) {o : OpRow} (ho : o ∈ opTable) {p : PParams} {a : Ex} {st : String × PT}
    (h : PrintedAs prec fl g um { p with prev := o.hd } a st.1 st.2) (hn : isNegInt a = false) :
    (∃ k, g o.name < k ∧ OpenReads g um k (operand o st).1 (operand o st).2) ∧ JoinSafe o (operand o st).2 ∧ properTree NoParensName (operand o st).2 ∧
      reading (operand o st).2 = reading st.2 := by
  cases hs : o.surround
  · have e : operand o st = (st.1.toList, st.2) := by simp [operand, hs, inBrackets]
    rw [e]
    refine ⟨?_, ?_, h.proper, rfl⟩
    · rcases (h.level hn).2 with ⟨h1, -⟩ | ⟨-, o', ho', h1, h2, -⟩
      · exact ⟨g o.name + 1, Nat.lt_succ_self _, h1 _⟩
      · refine ⟨g o'.name, ?_, h1⟩
        rcases h2 with h2 | ⟨b, hb, hlt⟩
        · exact absurd h2 (hd_ne_top o ho)
        · rw [prec_hd hP ho hb]; exact hlt
    · rcases (h.level hn).2 with ⟨-, h1, -⟩ | ⟨-, o', ho', -, h2, l, hl⟩
      · exact h1 o ho
      · refine joinSafe_op g hP.cmp ho' ?_ hl
        rcases h2 with h2 | ⟨b, hb, hlt⟩
        · exact absurd h2 (hd_ne_top o ho)
        · rw [prec_hd hP ho hb]; exact hlt
  · have e : operand o st = ('(' :: st.1.toList ++ [')'], .paren st.2) := by simp [operand, hs, paren_text]
    rw [e]
    refine ⟨⟨g o.name + 1, Nat.lt_succ_self _, (paren_reads h.seq).opened _⟩, ?_, h.proper, rfl⟩
    intro h'
    simp [unprotected] at h'

theorem needsParens_cases (hP : SamePrec prec g) {o : OpRow} (ho : o ∈ opTable) {prev : String} (h : needsParens prec o.hd prev = false) :
    prev = topHead ∨ ∃ a, prec prev = some a ∧ a < g o.name := by
  unfold needsParens at h
  by_cases hp : prev = topHead
  · exact Or.inl hp
  · rw [if_neg hp] at h
    cases h1 : prec prev with
    | none => rw [h1] at h; simp at h
    | some a =>
      cases h2 : prec o.hd with
      | none => rw [h1, h2] at h; simp at h
      | some b =>
        rw [h1, h2] at h
        simp at h
        exact Or.inr ⟨a, rfl, by rw [prec_hd hP ho h2]; exact h⟩

theorem keepsHead_op {o : OpRow} (ho : o ∈ opTable) : keepsHead (.sym ("System`" ++ o.name)) = true := by
  simp only [keepsHead, Bool.or_eq_true, List.any_eq_true]
  exact Or.inr ⟨o, ho, by simp⟩

theorem operatorExpr_op {o : OpRow} (ho : o ∈ opTable) (args : List Ex) : operatorExpr (.expr (.sym ("System`" ++ o.name) :: args)) = true := by
  simp only [operatorExpr, List.any_eq_true]
  exact ⟨o, ho, by simp [usesOp]⟩

theorem printed_op (hP : SamePrec prec g) {p : PParams} (hf : p.form = .input) (hfn : p.fns = true) {o : OpRow} (ho : o ∈ opTable) {args : List Ex} (hlen : 2 ≤ args.length)
    (htwo : o.two = true → args.length = 2) (hnum : ∀ a ∈ args, (∀ n d, a ≠ .rat n d) ∧ ∀ x y, a ≠ .cplx x y) (hneg : ∀ a ∈ args, isNegInt a = false)
    (htimes : o.name = "Times" → ∀ a ∈ args, quotientPower a = false)
    (hpow : o.name = "Power" → ∀ b e, args = [b, e] → isSameQ e (.rat 1 2) = false ∧ isSameQ e (.rat (-1) 2) = false ∧ isSameQ e (.int (-1)) = false)
    (ih : ∀ a ∈ args, ∃ s t, PrintedAs prec fl g um { p with prev := o.hd } a s t) :
    ∃ s t, PrintedAs prec fl g um p (.expr (.sym ("System`" ++ o.name) :: args)) s t := by
  obtain ⟨l, N, hl, hN⟩ := args_printed ih
  have hall : ∀ st ∈ l, ∃ a ∈ args, PrintedAs prec fl g um { p with prev := o.hd } a st.1 st.2 := by
    intro st hst
    clear hN ih hnum htimes hpow htwo hlen hneg
    induction hl with
    | nil => simp at hst
    | cons h hl ih =>
      rcases List.mem_cons.1 hst with rfl | hst
      · exact ⟨_, List.mem_cons_self, h⟩
      · obtain ⟨a, ha, hp⟩ := ih hst
        exact ⟨a, List.mem_cons_of_mem _ ha, hp⟩
  have hops : ∀ st ∈ l, (∃ k, g o.name < k ∧ OpenReads g um k (operand o st).1 (operand o st).2) ∧ JoinSafe o (operand o st).2 ∧ properTree NoParensName (operand o st).2 ∧
      reading (operand o st).2 = reading st.2 := by
    intro st hst
    obtain ⟨a, ha, hp⟩ := hall st hst
    exact operand_reads hP ho hp (hneg a ha)
  have hll : l.length = args.length := hl.length_eq.symm
  have hinp := (inputExL_eq hl).1
  have hprint := sf_op prec fl ho hf hfn hlen htwo hnum htimes hpow hN (by
    intro s hs
    obtain ⟨st, hst, rfl⟩ := List.mem_map.1 hs
    obtain ⟨a, ha, hp⟩ := hall st hst
    exact (hp.level (hneg a ha)).1)
  match l, hll with
  | [], h => simp at h; omega
  | st :: r, hll =>
    have htext := join_operands o st r
    have hopen : OpenReads g um (g o.name) ((operand o st).1 ++ opTail o (r.map (operand o))) (((r.map (operand o)).map (·.2)).foldl (opNode o) (operand o st).2) := by
      apply op_reads ho
      intro b hb
      rcases List.mem_cons.1 hb with rfl | hb
      · exact (hops st List.mem_cons_self).1
      · obtain ⟨st', hst', rfl⟩ := List.mem_map.1 hb
        exact (hops st' (List.mem_cons_of_mem _ hst')).1
    rw [← htext] at hopen
    have hrd := op_reading (o := o) (t := (operand o st).2) (ts := (r.map (operand o)).map (·.2)) (by simp only [List.length_cons] at hll; simp only [List.length_map]; omega)
      (fun h2 => by have := htwo h2; simp only [List.length_cons] at hll; simp only [List.length_map]; omega) (hops st List.mem_cons_self).2.1
    have hprop : properTree NoParensName (((r.map (operand o)).map (·.2)).foldl (opNode o) (operand o st).2) := by
      apply op_proper
      · exact (hops st List.mem_cons_self).2.2.1
      · rw [properTreeL_iff]
        intro t ht
        rw [List.map_map, List.mem_map] at ht
        obtain ⟨st', hst', rfl⟩ := ht
        exact (hops st' (List.mem_cons_of_mem _ hst')).2.2.1
    have hread : reading (((r.map (operand o)).map (·.2)).foldl (opNode o) (operand o st).2) = inputEx p.context p.path (.expr (.sym ("System`" ++ o.name) :: args)) := by
      rw [hrd.1, inputEx, inputExParts, if_pos (keepsHead_op ho), hinp, (hops st List.mem_cons_self).2.2.2]
      have : readings ((r.map (operand o)).map (·.2)) = readings (r.map (·.2)) := by
        rw [readings_map, readings_map, List.map_map, List.map_map, List.map_map]
        apply List.map_congr_left
        intro st' hst'
        exact (hops st' (List.mem_cons_of_mem _ hst')).2.2.2
      rw [this]
      rfl
    cases hnp : needsParens prec o.hd p.prev
    · rw [hnp] at hprint
      refine ⟨_, _, ⟨⟨N + 3, hprint⟩, hopen.seq, hprop, hread, fun _ => ⟨?_, Or.inr ⟨operatorExpr_op ho args, o, ho, hopen, needsParens_cases hP ho hnp, ?_⟩⟩⟩⟩
      · obtain ⟨⟨c, u, hs, hc, -⟩, -⟩ := hopen
        exact ⟨c, u, hs, hc⟩
      · exact ⟨_, hrd.1⟩
    · rw [hnp] at hprint
      refine ⟨_, _, prim_printed ⟨N + 3, hprint⟩ (t := .paren _) ?_ hprop hread ?_⟩
      · rw [paren_text]
        exact paren_reads hopen.seq
      · intro o' _ h'
        simp [unprotected] at h'

theorem join_commas (l : List (String × PT)) : (joinTexts ", " (l.map (·.1))).toList = commaList (l.map (fun st => st.1.toList)) := by
  rw [joinTexts_comma, List.map_map]
  rfl

/-- Every expression of the fragment is printed with enough parentheses. -/
theorem printed (hP : SamePrec prec g) (context : String) (path : List String) : ∀ e : Ex, everyPart (InputPart context path) e → ∀ p : PParams, p.form = .input → p.fns = true →
    p.context = context → p.path = path → ∃ s t, PrintedAs prec fl g um p e s t := by
  intro e
  induction e using Ex.ind with
  | hsym s =>
    rintro he p hf hfn rfl rfl
    simp only [everyPart, InputPart] at he
    obtain ⟨h1, h2, h3, h4⟩ := he
    obtain ⟨g1, g2, g3⟩ := name_not_greek h2
    refine ⟨shown p.context p.path s, .tok (.ident (shown p.context p.path s)), prim_printed ⟨1, ?_⟩ (name_prim h2) ?_ ?_ ?_⟩
    · intro m hm
      obtain ⟨m, rfl⟩ : ∃ k, m = k + 1 := ⟨m - 1, by omega⟩
      rw [sf_sym, symForm_shown p s h1]
    · simp only [properTree, NoParensName, tokenConv, redefined, g1, g2, g3, if_false, allSyms]
      exact h3
    · simp only [reading, tokenMeaning, g1, g2, g3, if_false, or_self, inputEx]
    · intro o _
      apply joinSafe_atom
      intro s' l' e
      simp only [reading, tokenMeaning, g1, g2, g3, if_false, or_self] at e
      simp at e
  | hstr s =>
    rintro he p hf hfn rfl rfl
    simp only [everyPart, InputPart] at he
    refine ⟨"\"" ++ s ++ "\"", .tok (.str s), prim_printed ⟨1, ?_⟩ ?_ ?_ ?_ ?_⟩
    · intro m hm
      obtain ⟨m, rfl⟩ : ∃ k, m = k + 1 := ⟨m - 1, by omega⟩
      rw [sf_str, strForm, hf]
    · have := str_prim (g := g) (um := um) he.1
      simpa using this
    · simp [properTree, NoParensName, tokenConv, allSyms]
    · rfl
    · intro o _
      apply joinSafe_atom
      intro s' l' e
      simp [reading, tokenMeaning] at e
  | hint n =>
    rintro he p hf hfn rfl rfl
    have hpr : ∃ N, ∀ m, N ≤ m → sf prec fl m p (.int n) = .ok (Int.repr n) := by
      refine ⟨1, ?_⟩
      intro m hm
      obtain ⟨m, rfl⟩ : ∃ k, m = k + 1 := ⟨m - 1, by omega⟩
      rw [sf_int]
    have hi := int_seq (g := g) (um := um) n
    refine ⟨Int.repr n, intTree n, ?_⟩
    by_cases hn : 0 ≤ n
    · refine prim_printed hpr (hi.2 hn) (proper_int n) (reading_int n) ?_
      intro o _
      apply joinSafe_atom
      intro s' l' e
      rw [reading_int] at e
      simp at e
    · refine ⟨hpr, hi.1, proper_int n, reading_int n, ?_⟩
      intro h
      simp only [isNegInt, decide_eq_false_iff_not] at h
      omega
  | hrat n d => intro he; simp [everyPart, InputPart] at he
  | hflt v => intro he; simp [everyPart, InputPart] at he
  | hcplx a b => intro he; simp [everyPart, InputPart] at he
  | hexpr ps ih =>
    rintro he p hf hfn rfl rfl
    simp only [everyPart] at he
    cases ps with
    | nil => exact absurd he.1 (by simp [InputPart])
    | cons h args =>
      obtain ⟨he1, he2⟩ := he
      simp only [everyPartL] at he2
      have iha : ∀ (q : PParams), q.form = .input → q.fns = true → q.context = p.context → q.path = p.path → ∀ a ∈ args, ∃ s t, PrintedAs prec fl g um q a s t :=
        fun q h1 h2 h3 h4 a ha => ih a (List.mem_cons_of_mem _ ha) (everyPartL_mem he2.2 a ha) q h1 h2 h3 h4
      simp only [InputPart] at he1
      rcases he1 with ⟨o, ho, rfl, hlen, htwo, hneg, htimes, hpow⟩ | rfl | ⟨hn, hform, hneg, hop⟩
      · refine printed_op hP hf hfn ho hlen htwo ?_ hneg htimes hpow (iha _ hf hfn rfl rfl)
        intro a ha
        have := everyPart_top (everyPartL_mem he2.2 a ha)
        constructor
        · rintro n d rfl; exact this
        · rintro x y rfl; exact this
      · obtain ⟨l, N, hl, hN⟩ := args_printed (iha { p with prev := topHead } hf hfn rfl rfl)
        obtain ⟨i1, i2, i3⟩ := inputExL_eq hl
        have hr : reading (.list (l.map (·.2))) = inputEx p.context p.path (.expr (.sym "System`List" :: args)) := by
          rw [inputEx, inputExParts, i1, if_pos (by decide +kernel), reading]
          rfl
        refine ⟨"{" ++ joinTexts ", " (l.map (·.1)) ++ "}", .list (l.map (·.2)), prim_printed ⟨N + 2, sf_list prec fl hf hfn hN⟩ ?_ ?_ hr ?_⟩
        · have := list_prim i3
          rw [← join_commas] at this
          simpa using this
        · simpa [properTree] using i2
        · intro o ho
          exact joinSafe_list ho (by rw [reading])
      · obtain ⟨l, N, hl, hN⟩ := args_printed (iha { p with prev := topHead } hf hfn rfl rfl)
        obtain ⟨i1, i2, i3⟩ := inputExL_eq hl
        obtain ⟨x, t, hx⟩ := ih h List.mem_cons_self he2.1 p hf hfn rfl rfl
        obtain ⟨M, hM⟩ := hx.prints
        have hprim : Prim g um x.toList t := by
          rcases (hx.level hneg).2 with ⟨-, -, h1⟩ | ⟨h1, -⟩
          · exact h1 hop
          · rw [hop] at h1; simp at h1
        have hk : keepsHead h = false := by
          cases h with
          | sym s =>
            simp only [keepsHead, Bool.or_eq_false_iff, beq_eq_false_iff_ne, ne_eq, List.any_eq_false, beq_iff_eq]
            constructor
            · rintro rfl
              exact hn "System`List" (by decide +kernel) rfl
            · rintro o ho rfl
              refine hn ("System`" ++ o.name) ?_ rfl
              unfold notationNames
              rw [List.mem_append]
              exact Or.inl (List.mem_map.2 ⟨o, ho, rfl⟩)
          | _ => all_goals rfl
        have hr : reading (.call t (l.map (·.2))) = inputEx p.context p.path (.expr (h :: args)) := by
          rw [inputEx, inputExParts, i1, hk, if_neg (by simp), reading, hx.reads]
        refine ⟨x ++ "[" ++ joinTexts ", " (l.map (·.1)) ++ "]", .call t (l.map (·.2)), prim_printed ⟨max M N + 2, ?_⟩ ?_ ⟨hx.proper, i2⟩ hr ?_⟩
        · exact sf_plain_call prec fl hn hform (fun m hm => hM m (Nat.le_trans (Nat.le_max_left M N) hm)) (fun m hm => hN m (Nat.le_trans (Nat.le_max_right M N) hm))
        · have := call_prim hprim i3
          rw [callText, ← join_commas] at this
          simpa using this
        · intro o _
          cases h with
          | sym s =>
            have := everyPart_top he2.1
            simp only [InputPart] at this
            refine joinSafe_notSys o (s := shown p.context p.path s) (l := inputExL p.context p.path args) ?_ this.2.2.2
            rw [hr, inputEx, inputExParts, hk, if_neg (by simp), inputEx]
          | _ =>
            all_goals
              apply joinSafe_atom
              intro s' l' e
              rw [hr] at e
              simp [inputEx, inputExParts, keepsHead] at e

/-- The names of the operators and of lists are known. -/
def KnowsOps (st : DState) : Prop := isDef st "System`List" = true ∧ ∀ o ∈ opTable, isDef st ("System`" ++ o.name) = true

theorem resolve_kept {context : String} {path : List String} {st0 st : DState} (hk : KnowsOps st0) (hg : Grown context path st0 st) {h : Ex} (hh : keepsHead h = true) :
    resolve context path st h = (st, h) := by
  cases h with
  | sym s =>
    have hd : isDef st0 s = true ∧ '`' ∈ s.toList := by
      simp only [keepsHead, Bool.or_eq_true, beq_iff_eq, List.any_eq_true] at hh
      rcases hh with rfl | ⟨o, ho, rfl⟩
      · exact ⟨hk.1, by decide⟩
      · refine ⟨hk.2 o ho, ?_⟩
        rw [String.toList_append, List.mem_append]
        exact Or.inl (by decide)
    simp only [resolve, resolveName, hd.2, if_true, markSeen_of_isDef (hg.1 _ hd.1)]
  | _ => all_goals simp [keepsHead] at hh

theorem resolve_input {context : String} {path : List String} (hc : ContextName context) (hp : ∀ p ∈ path, ContextName p) (st0 : DState) (hk : KnowsOps st0) :
    ∀ e st, allSyms (comesBack context path st0) e → Grown context path st0 st →
      (resolve context path st (inputEx context path e)).2 = e ∧ Grown context path st0 (resolve context path st (inputEx context path e)).1 := by
  intro e
  induction e using Ex.ind with
  | hsym s =>
    intro st hs hg
    simp only [allSyms, comesBack] at hs
    simp only [inputEx, resolve]
    split at hs
    · next hb =>
      rw [(C48_name context path st _).1, if_pos hb]
      refine ⟨by rw [hs], ?_⟩
      rcases shown_cases context path s with ⟨c, hcm, hcs⟩ | ⟨h1, h2⟩
      · exfalso
        have hcn : ContextName c := by
          rcases List.mem_cons.1 hcm with rfl | h
          · exact hc
          · exact hp c h
        obtain ⟨l, hl⟩ := hcn
        have := congrArg (fun x => x.toList.length) hcs
        rw [hs] at this
        simp only [String.toList_append, hl, List.length_append, List.length_cons, List.length_nil] at this
        omega
      · exact grown_outside hg hb (fun p hpm m => by rw [h1]; exact h2 p (List.mem_cons_of_mem _ hpm) m)
    · next hb =>
      refine ⟨?_, grown_step hc hp hg hb⟩
      rw [(C48_name context path st _).1, if_neg hb, grown_meantBy hc hp hg hb, hs]
  | hexpr ps ih =>
    intro st hs hg
    simp only [allSyms] at hs
    simp only [inputEx, resolve, Ex.expr.injEq]
    have hL : ∀ (l : List Ex) (st : DState), (∀ q ∈ l, q ∈ ps) → allSymsL (comesBack context path st0) l → Grown context path st0 st →
        (resolveL context path st (inputExL context path l)).2 = l ∧ Grown context path st0 (resolveL context path st (inputExL context path l)).1 := by
      intro l
      induction l with
      | nil => intro st _ _ hg; exact ⟨rfl, hg⟩
      | cons q l ihl =>
        intro st hm hs hg
        simp only [allSymsL] at hs
        simp only [inputExL, resolveL]
        have h1 := ih q (hm q List.mem_cons_self) st hs.1 hg
        have h2 := ihl _ (fun x hx => hm x (List.mem_cons_of_mem _ hx)) hs.2 h1.2
        exact ⟨by rw [h1.1, h2.1], h2.2⟩
    cases ps with
    | nil => exact ⟨rfl, hg⟩
    | cons h r =>
      simp only [allSymsL] at hs
      simp only [inputExParts, resolveL]
      have h1 : (resolve context path st (if keepsHead h then h else inputEx context path h)).2 = h ∧
          Grown context path st0 (resolve context path st (if keepsHead h then h else inputEx context path h)).1 := by
        cases hkh : keepsHead h
        · simpa using ih h List.mem_cons_self st hs.1 hg
        · simp only [if_true]
          rw [resolve_kept hk hg hkh]
          exact ⟨rfl, hg⟩
      have h2 := hL r _ (fun x hx => List.mem_cons_of_mem _ hx) hs.2 h1.2
      exact ⟨by rw [h1.1, h2.1], h2.2⟩
  | _ => intro st _ hg; exact ⟨rfl, hg⟩

variable (prec fl g um)

/-- C84: **`InputForm` puts enough parentheses**. An expression built from names, integers, strings, lists, calls and the operators is printed as a text that is read in
exactly one way by a reader that knows only the precedences, and the parser and the resolution of names make the original expression of it. -/
theorem C84_readback_partial (hP : SamePrec prec g) (p : PParams) (hf : p.form = .input) (hfn : p.fns = true) (hc : ContextName p.context) (hp : ∀ c ∈ p.path, ContextName c)
    (st : DState) (hk : KnowsOps st) (e : Ex) (he : everyPart (InputPart p.context p.path) e) (hs : allSyms (comesBack p.context p.path st) e) :
    ∃ text t, Prints prec fl p e text ∧ ReadsInput g um text t ∧ (∀ u, ReadsInput g um text u → u = t) ∧ ∃ st', interp p.context p.path st t = some (st', e) := by
  obtain ⟨s, t, h⟩ := printed (um := um) (fl := fl) hP p.context p.path e he p hf hfn rfl rfl
  have h1 : ReadsInput g um s t := by
    obtain ⟨n, hn⟩ := h.seq.2 [] (Or.inl rfl)
    exact ⟨n, by simpa using hn⟩
  have h3 := resolve_input hc hp st hk e st hs ⟨fun _ h => h, fun _ h => Or.inl h⟩
  refine ⟨s, t, h.prints, h1, fun u hu => readsInput_unique hu h1, (resolve p.context p.path st (inputEx p.context p.path e)).1, ?_⟩
  have h4 := C47_reading h.proper
  unfold parsed at h4
  rw [interp, h4, h.reads, Option.map_some]
  congr 1
  exact Prod.ext rfl h3.1

/-- C84: two expressions with the same `InputForm` text are equal, if their names come back. -/
theorem C84_unambiguous (hP : SamePrec prec g) (p : PParams) (hf : p.form = .input) (hfn : p.fns = true) (hc : ContextName p.context) (hp : ∀ c ∈ p.path, ContextName c)
    (st : DState) (hk : KnowsOps st) (e₁ e₂ : Ex) (he₁ : everyPart (InputPart p.context p.path) e₁) (hs₁ : allSyms (comesBack p.context p.path st) e₁)
    (he₂ : everyPart (InputPart p.context p.path) e₂) (hs₂ : allSyms (comesBack p.context p.path st) e₂) {text : String}
    (h₁ : Prints prec fl p e₁ text) (h₂ : Prints prec fl p e₂ text) : e₁ = e₂ := by
  obtain ⟨x₁, t₁, a₁, b₁, -, s₁, c₁⟩ := C84_readback_partial prec fl g 0 hP p hf hfn hc hp st hk e₁ he₁ hs₁
  obtain ⟨x₂, t₂, a₂, b₂, u₂, s₂, c₂⟩ := C84_readback_partial prec fl g 0 hP p hf hfn hc hp st hk e₂ he₂ hs₂
  have k₁ := prints_unique prec fl a₁ h₁
  have k₂ := prints_unique prec fl a₂ h₂
  subst k₁ k₂
  have := u₂ _ b₁
  subst this
  rw [c₁] at c₂
  simpa using (Prod.mk.inj (Option.some.inj c₂)).2

/-- The precedences of the usual language for the operators. -/
def usualPrec (h : String) : Option Nat :=
  if h = "System`Plus" then some 310 else if h = "System`Times" then some 400 else if h = "System`Power" then some 590
  else if h = "System`Rule" then some 120 else if h = "System`Set" then some 40 else none

/-- The same for the reader; the comparisons bind equally, the others do not matter. -/
def usualRead (o : String) : Nat := ((usualPrec ("System`" ++ o)).getD 290)

/-- The assumption about the precedences can be met. -/
theorem usual_same : SamePrec usualPrec usualRead where
  none := by decide +kernel
  same := by
    intro o _ a h
    simp [usualRead, h]
  cmp := by decide +kernel

/-- `f[{(a + b)*c -> a^b, -3}]`. -/
def inputSample : Ex := .expr [.sym "Global`f", .expr [.sym "System`List",
  .expr [.sym "System`Rule", .expr [.sym "System`Times", .expr [.sym "System`Plus", .sym "Global`a", .sym "Global`b"], .sym "Global`c"], .expr [.sym "System`Power", .sym "Global`a", .sym "Global`b"]],
  .int (-3)]]

/-- The state that knows the operators and lists. -/
def knowingOps : DState := knowing ("System`List" :: opTable.map (fun o => "System`" ++ o.name))

theorem knowingOps_ok : KnowsOps knowingOps := by
  unfold KnowsOps
  decide +kernel

/-- A name of one letter in ``Global` ``. -/
theorem letter_part {c : Char} (h : ∃ l, (String.ofList [c]).toList = c :: l) (hn : NameLike (String.ofList [c])) (hs : shown "Global`" ["System`", "Global`"] ("Global`" ++ String.ofList [c]) = String.ofList [c]) :
    InputPart "Global`" ["System`", "Global`"] (.sym ("Global`" ++ String.ofList [c])) := by
  simp only [InputPart, hs]
  refine ⟨?_, hn, ?_, ?_⟩
  · intro h
    have := congrArg String.toList h
    simp at this
  · intro h
    have := congrArg (fun s => s.toList.length) h
    revert this
    simp
  · rintro ⟨t, ht⟩
    have := congrArg List.length ht
    revert this
    simp

/-- The hypotheses of `C84_readback_partial` are met by `f[{(a + b)*c -> a^b, -3}]`, and the text is the expected one. -/
example : everyPart (InputPart "Global`" ["System`", "Global`"]) inputSample ∧ allSyms (comesBack "Global`" ["System`", "Global`"] knowingOps) inputSample ∧
    sf usualPrec fl 30 (usual .input) inputSample = .ok "f[{(a + b)*c -> a^b, -3}]" := by
  refine ⟨?_, ?_, rfl⟩
  · have hl : ∀ c ∈ ['a', 'b', 'c', 'f'], InputPart "Global`" ["System`", "Global`"] (.sym ("Global`" ++ String.ofList [c])) := by
      intro c hc
      refine letter_part ⟨[], by simp⟩ ?_ ?_
      · exact ⟨c, [], by simp, by revert c; decide, by simp⟩
      · revert c; decide +kernel
    have ha : InputPart "Global`" ["System`", "Global`"] (.sym "Global`a") := hl 'a' (by decide)
    have hb : InputPart "Global`" ["System`", "Global`"] (.sym "Global`b") := hl 'b' (by decide)
    have hcc : InputPart "Global`" ["System`", "Global`"] (.sym "Global`c") := hl 'c' (by decide)
    have hff : InputPart "Global`" ["System`", "Global`"] (.sym "Global`f") := hl 'f' (by decide)
    have hs : ∀ n ∈ ["List", "Rule", "Times", "Plus", "Power"], InputPart "Global`" ["System`", "Global`"] (.sym ("System`" ++ n)) := by
      intro n hn
      have : shown "Global`" ["System`", "Global`"] ("System`" ++ n) = n := by revert n; decide +kernel
      simp only [InputPart, this]
      refine ⟨?_, ⟨n.toList.headD 'a', n.toList.tail, by revert n; decide +kernel, by revert n; decide +kernel, by revert n; decide +kernel⟩, by revert n; decide +kernel, by revert n; decide +kernel⟩
      revert n; decide +kernel
    have h1 := hs "List" (by decide)
    have h2 := hs "Rule" (by decide)
    have h3 := hs "Times" (by decide)
    have h4 := hs "Plus" (by decide)
    have h5 := hs "Power" (by decide)
    simp only [inputSample, everyPart, everyPartL]
    refine ⟨?_, hff, ⟨?_, h1, ⟨?_, h2, ⟨?_, h3, ⟨?_, h4, ha, hb, trivial⟩, hcc, trivial⟩, ⟨?_, h5, ha, hb, trivial⟩, trivial⟩, ?_, trivial⟩, trivial⟩
    · exact Or.inr (Or.inr (by decide +kernel))
    · exact Or.inr (Or.inl rfl)
    · exact Or.inl ⟨⟨"Rule", [' ', '-', '>', ' '], true, false, true⟩, by decide +kernel, by decide, by decide, by decide, by decide, by decide, fun h => absurd h (by decide)⟩
    · exact Or.inl ⟨⟨"Times", ['*'], true, false, false⟩, by decide +kernel, by decide, by decide, by decide, by decide, by decide, fun h => absurd h (by decide)⟩
    · exact Or.inl ⟨⟨"Plus", [' ', '+', ' '], true, false, false⟩, by decide +kernel, by decide, by decide, by decide, by decide, by decide, fun h => absurd h (by decide)⟩
    · refine Or.inl ⟨⟨"Power", ['^'], true, false, true⟩, by decide +kernel, by decide, by decide, by decide, by decide, by decide, ?_⟩
      intro _ b e h
      simp only [List.cons.injEq, and_true] at h
      rw [← h.2]
      decide +kernel
    · trivial
  · simp only [inputSample, allSyms, allSymsL, comesBack]
    decide +kernel

/-- C84 disagreement: a negative base is not put in parentheses, so `(-2)^x` is printed like `-2^x`. -/
theorem C84_negative_base : Prints usualPrec fl (usual .input) (.expr [.sym "System`Power", .int (-2), .sym "Global`x"]) "-2^x" ∧
    Prints usualPrec fl (usual .input) (.expr [.sym "System`Times", .int (-1), .expr [.sym "System`Power", .int 2, .sym "Global`x"]]) "-2^x" :=
  ⟨⟨20, fun n hn => by obtain ⟨k, rfl⟩ := Nat.exists_eq_add_of_le' hn; rfl⟩, ⟨20, fun n hn => by obtain ⟨k, rfl⟩ := Nat.exists_eq_add_of_le' hn; rfl⟩⟩

/-- C84 disagreement: an operator in the place of a head is not put in parentheses, so `(a + b)[x]` is printed like `a + b[x]`. -/
theorem C84_operator_head : Prints usualPrec fl (usual .input) (.expr [.expr [.sym "System`Plus", .sym "Global`a", .sym "Global`b"], .sym "Global`x"]) "a + b[x]" ∧
    Prints usualPrec fl (usual .input) (.expr [.sym "System`Plus", .sym "Global`a", .expr [.sym "Global`b", .sym "Global`x"]]) "a + b[x]" :=
  ⟨⟨20, fun n hn => by obtain ⟨k, rfl⟩ := Nat.exists_eq_add_of_le' hn; rfl⟩, ⟨20, fun n hn => by obtain ⟨k, rfl⟩ := Nat.exists_eq_add_of_le' hn; rfl⟩⟩

/-- C84 disagreement: a quotient is not put in parentheses, so `(a/b)^c` is printed like `a/b^c`. -/
theorem C84_quotient_base : Prints usualPrec fl (usual .input)
      (.expr [.sym "System`Power", .expr [.sym "System`Times", .sym "Global`a", .expr [.sym "System`Power", .sym "Global`b", .int (-1)]], .sym "Global`c"]) "(a)/(b)^c" := by
  refine ⟨20, fun n hn => ?_⟩
  obtain ⟨k, rfl⟩ := Nat.exists_eq_add_of_le' hn
  rfl

/-- C84 disagreement: the exponent of a factor is compared modulo `2 ^ 64`, so `y*x^(2^64 - 1)` is printed like `y/x`. -/
theorem C84_huge_exponent : Prints usualPrec fl (usual .input)
      (.expr [.sym "System`Times", .sym "Global`y", .expr [.sym "System`Power", .sym "Global`x", .int 18446744073709551615]]) "(y)/(x)" ∧
    Prints usualPrec fl (usual .input) (.expr [.sym "System`Times", .sym "Global`y", .expr [.sym "System`Power", .sym "Global`x", .int (-1)]]) "(y)/(x)" :=
  ⟨⟨20, fun n hn => by obtain ⟨k, rfl⟩ := Nat.exists_eq_add_of_le' hn; rfl⟩, ⟨20, fun n hn => by obtain ⟨k, rfl⟩ := Nat.exists_eq_add_of_le' hn; rfl⟩⟩

/-- C84 disagreement: a sum with an empty text as an operand crashes the printer. -/
theorem C84_empty_text_crash : PrintCrashes usualPrec fl (usual .output) (.expr [.sym "System`Plus", .sym "Global`a", .str ""]) :=
  ⟨20, fun n hn => by obtain ⟨k, rfl⟩ := Nat.exists_eq_add_of_le' hn; rfl⟩

/-- The text of a sum of integers, as one writes it: a negative summand is subtracted. -/
def signedTail : List Int → String
  | [] => ""
  | n :: l => (if n < 0 then " - " else " + ") ++ Nat.repr n.natAbs ++ signedTail l

theorem repr_cases (n : Int) : (n < 0 ∧ (Int.repr n).toList = '-' :: (Nat.repr n.natAbs).toList) ∨ (¬ n < 0 ∧ Int.repr n = Nat.repr n.natAbs ∧ ∃ c l, (Int.repr n).toList = c :: l ∧ c ≠ '-') := by
  cases n with
  | ofNat m =>
    right
    refine ⟨by simp, rfl, ?_⟩
    have hd : ∀ c ∈ (Nat.repr m).toList, c.isDigit := by
      intro c hc
      exact Nat.isDigit_of_mem_toDigits (b := 10) (by decide) (by decide) (by rwa [Nat.toList_repr] at hc)
    cases h : (Nat.repr m).toList with
    | nil => exact absurd h (by simp [Nat.repr_ne_empty] )
    | cons c l =>
      refine ⟨c, l, h, ?_⟩
      rintro rfl
      have := hd '-' (by rw [h]; exact List.mem_cons_self)
      revert this; decide
  | negSucc m =>
    left
    refine ⟨by omega, ?_⟩
    simp [Int.repr, Int.natAbs]

theorem plusTexts_ints : ∀ l : List Int, plusTexts (l.map Int.repr) = .ok (signedTail l)
  | [] => rfl
  | n :: l => by
    rw [List.map_cons, plusTexts, plusTexts_ints l, signedTail]
    rcases repr_cases n with ⟨hn, he⟩ | ⟨hn, he, c, t, hc, hne⟩
    · rw [he]
      simp only [Res.bind, if_pos hn, if_true, String.ofList_toList]
    · rw [hc]
      simp only [Res.bind, if_neg hne, if_neg hn, ← he]

theorem sfL_ints (p : PParams) : ∀ (l : List Int) (m : Nat), sfL prec fl (m + l.length + 2) p (l.map .int) = .ok (l.map Int.repr)
  | [], m => rfl
  | n :: l, m => by
    have h := sfL_ints p l m
    have e : m + (n :: l).length + 2 = (m + l.length + 2) + 1 := by simp; omega
    rw [e, List.map_cons]
    have h1 : sf prec fl (m + l.length + 2) p (.int n) = .ok (Int.repr n) := by rw [sf_int]
    rw [sfL_cons prec fl h1 h]
    rfl

/-- C84: in a sum of integers every negative summand after the first is written with a minus sign of its own: `Plus[3, -4, 5]` is `3 - 4 + 5`. -/
theorem C84_signs (p : PParams) (hf : p.form ≠ .full) (hfn : p.fns = true) (hp : p.prev = topHead) (n : Int) (l : List Int) (hl : l ≠ []) :
    Prints prec fl p (.expr (.sym "System`Plus" :: (n :: l).map .int)) (Int.repr n ++ signedTail l) := by
  refine ⟨l.length + 10, fun m hm => ?_⟩
  obtain ⟨k, rfl⟩ := Nat.exists_eq_add_of_le' hm
  have h1 := sfL_ints prec fl { p with prev := "System`Plus" } (n :: l) (k + 5)
  have e : k + 5 + (n :: l).length + 2 = k + l.length + 8 := by simp; omega
  rw [e] at h1
  have hlen : ¬ ((n :: l).map Ex.int).length < 2 := by
    cases l with
    | nil => exact absurd rfl hl
    | cons a b => simp
  have hsp : special prec fl (k + l.length + 9) p (.sym "System`Plus") ((n :: l).map .int) = .ok (some (Int.repr n ++ signedTail l)) := by
    unfold special
    rw [if_neg (by rw [hfn]; simp), show infixOf "System`Plus" = none from by decide, show blankRepr "System`Plus" = none from by decide]
    simp only
    rw [if_neg (by decide), if_pos trivial, if_neg hf, if_neg hlen, h1]
    simp only [Res.bind, List.map_cons, plusTexts_ints, needsParens, hp, if_true, inBrackets, Bool.false_eq_true, if_false]
  show sf prec fl (k + l.length + 9 + 1) p _ = _
  rw [sf, hsp]
  rfl

/-- For instance. -/
example : Int.repr 3 ++ signedTail [-4, 5] = "3 - 4 + 5" := by decide +kernel

/-- C84 disagreement: a power with three arguments is printed with two operators, like a nested one. -/
theorem C84_power_chain : Prints usualPrec fl (usual .input) (.expr [.sym "System`Power", .sym "Global`a", .sym "Global`b", .sym "Global`c"]) "a^b^c" :=
  ⟨20, fun n hn => by obtain ⟨k, rfl⟩ := Nat.exists_eq_add_of_le' hn; rfl⟩

end
end Expreduce
