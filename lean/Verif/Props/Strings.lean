import Verif.Spec.Strings
import Verif.Props.Lists

/-! Property C85: strings are joined, measured, cut and searched as byte sequences. -/

namespace Expreduce

theorem strJoinLoop_texts : ∀ (l : List Bytes) (acc : Bytes), strJoinLoop acc (l.map .text) = .text (acc ++ l.flatten)
  | [], acc => by simp [strJoinLoop]
  | b :: l, acc => by simp [strJoinLoop, strJoinLoop_texts l]

theorem strJoinLoop_other : ∀ (l : List SArg) (acc : Bytes), (∃ e, SArg.other e ∈ l) → strJoinLoop acc l = .this
  | [], _, h => by simp at h
  | .text b :: l, acc, ⟨e, h⟩ => by
    rw [strJoinLoop]
    exact strJoinLoop_other l _ ⟨e, by simpa using h⟩
  | .other _ :: _, _, _ => rfl

/-- C85: `StringJoin` of strings is their concatenation; with any other argument it stays unevaluated. -/
theorem C85_join (l : List Bytes) : stringJoinFn (l.map .text) = .text l.flatten ∧ ∀ args : List SArg, (∃ e, SArg.other e ∈ args) → stringJoinFn args = .this :=
  ⟨by simp [stringJoinFn, strJoinLoop_texts], fun args h => strJoinLoop_other args [] h⟩

/-- Both cases occur. -/
example : stringJoinFn [.text [104], .text [], .text [105, 106]] = .text [104, 105, 106] ∧ stringJoinFn [.text [104], .other (.int 5)] = .this := by decide +kernel

theorem encode_length (c : Char) : 1 ≤ (String.utf8EncodeChar c).length ∧ ((String.utf8EncodeChar c).length = 1 ↔ c.val ≤ 127) := by
  rw [String.length_utf8EncodeChar]
  refine ⟨Char.utf8Size_pos c, ?_⟩
  unfold Char.utf8Size
  simp only
  split
  · next h => simp; exact h
  · next h =>
    constructor
    · intro h'
      split at h' <;> [skip; split at h'] <;> omega
    · intro h'; exact absurd h' h

theorem utf8_length (s : List Char) : s.length ≤ (utf8 s).length ∧ ((utf8 s).length = s.length ↔ AsciiText s) := by
  induction s with
  | nil => simp [utf8, AsciiText]
  | cons c s ih =>
    obtain ⟨h1, h2⟩ := encode_length c
    have e : (utf8 (c :: s)).length = (String.utf8EncodeChar c).length + (utf8 s).length := by simp [utf8]
    rw [e, List.length_cons]
    refine ⟨by omega, ?_⟩
    have : AsciiText (c :: s) ↔ c.val ≤ 127 ∧ AsciiText s := by simp [AsciiText]
    rw [this, ← h2, ← ih.2]
    omega

/-- C85: `StringLength` counts bytes: it is the number of characters exactly for texts of ASCII characters, and greater for all others. The length of a concatenation is the sum. -/
theorem C85_length_partial (s : List Char) : ∃ n : Nat, stringLengthFn [.text (utf8 s)] = .int n ∧ s.length ≤ n ∧ (n = s.length ↔ AsciiText s) ∧
    ∀ t m, stringLengthFn [.text (utf8 t)] = .int m → stringLengthFn [.text (utf8 (s ++ t))] = .int (n + m) := by
  refine ⟨(utf8 s).length, rfl, (utf8_length s).1, (utf8_length s).2, ?_⟩
  intro t m h
  simp only [stringLengthFn, SOut.int.injEq] at h
  rw [← h]
  simp [stringLengthFn, utf8]

/-- C85 disagreement: `StringLength["π"]` is 2. -/
theorem C85_length_wrong : stringLengthFn [.text (utf8 ['π'])] = .int 2 := by decide +kernel

/-- `StringTake[s, {m, n}]`. -/
def takeCall (b : Bytes) (m n : Int) : List SArg := [.text b, .other (.expr [.sym "System`List", .int m, .int n])]

/-- C85: `StringTake` never crashes. -/
theorem C85_take_total (args : List SArg) : stringTakeFn args ≠ .crash := by
  unfold stringTakeFn
  split
  · simp only
    split
    · simp
    · next h =>
      split
      · simp
      · next h' =>
        simp only [not_or, not_le, not_lt] at h h'
        rw [goSlice, if_pos ⟨h.1, by omega, by omega⟩]
        simp
  · simp

/-- C85: `StringTake[s, {m, n}]` is the part from the `m`-th to the `n`-th byte, empty for `n < m`, and stays unevaluated if `m < 1` or `n` is greater than the length. For numbers in the
64 bit range, the least one excepted. -/
theorem C85_take (b : Bytes) (m n : Int) (hm : -2 ^ 63 < m ∧ m < 2 ^ 63) (hn : -2 ^ 63 < n ∧ n < 2 ^ 63) :
    (m < 1 ∨ (b.length : Int) < n → stringTakeFn (takeCall b m n) = .this) ∧
    (1 ≤ m → n ≤ b.length → n < m → stringTakeFn (takeCall b m n) = .text []) ∧
    (1 ≤ m → m ≤ n → n ≤ b.length → ∃ p r q, b = p ++ r ++ q ∧ (p.length : Int) = m - 1 ∧ (r.length : Int) = n - m + 1 ∧ stringTakeFn (takeCall b m n) = .text r) := by
  have e1 : wrap64 (wrap64 m - 1) = m - 1 := by
    rw [wrap64_of_fits (by omega) hm.2, wrap64_of_fits (by omega) (by omega)]
  have e2 : wrap64 (wrap64 n - 1) = n - 1 := by
    rw [wrap64_of_fits (by omega) hn.2, wrap64_of_fits (by omega) (by omega)]
  have e : stringTakeFn (takeCall b m n) = if m - 1 < 0 ∨ (b.length : Int) ≤ n - 1 then .this else if n - 1 < m - 1 then .text [] else goSlice b (m - 1) (n - 1 + 1) := by
    rw [← e1, ← e2]
    rfl
  rw [e]
  refine ⟨?_, ?_, ?_⟩
  · intro h
    rw [if_pos (by omega)]
  · intro h1 h2 h3
    rw [if_neg (by omega), if_pos (by omega)]
  · intro h1 h2 h3
    rw [if_neg (by omega), if_neg (by omega), goSlice, if_pos (by omega)]
    refine ⟨b.take (m - 1).toNat, (b.take (n - 1 + 1).toNat).drop (m - 1).toNat, b.drop (n - 1 + 1).toNat, ?_, ?_, ?_, rfl⟩
    · have h4 : b.take (m - 1).toNat = (b.take (n - 1 + 1).toNat).take (m - 1).toNat := by
        rw [List.take_take, Nat.min_eq_left (by omega)]
      rw [h4, List.take_append_drop, List.take_append_drop]
    · rw [List.length_take, Nat.min_eq_left (by omega)]
      omega
    · rw [List.length_drop, List.length_take, Nat.min_eq_left (by omega)]
      omega

/-- The three cases occur: `StringTake["hello", {2, 4}]`, `{2, 1}` and `{0, 1}`. -/
example : stringTakeFn (takeCall (utf8 ['h', 'e', 'l', 'l', 'o']) 2 4) = .text (utf8 ['e', 'l', 'l']) ∧ stringTakeFn (takeCall (utf8 ['h', 'e', 'l', 'l', 'o']) 2 1) = .text [] ∧
    stringTakeFn (takeCall (utf8 ['h', 'e', 'l', 'l', 'o']) 0 1) = .this := by decide +kernel

theorem utf8_ascii {s : List Char} (h : AsciiText s) (k : Nat) : (utf8 s).take k = utf8 (s.take k) ∧ (utf8 s).drop k = utf8 (s.drop k) := by
  induction s generalizing k with
  | nil => simp [utf8]
  | cons c s ih =>
    have hc : c.val ≤ 127 := h c List.mem_cons_self
    have hs : AsciiText s := fun d hd => h d (List.mem_cons_of_mem _ hd)
    obtain ⟨x, hx⟩ : ∃ x, String.utf8EncodeChar c = [x] := List.length_eq_one_iff.1 ((encode_length c).2.2 hc)
    cases k with
    | zero => simp [utf8]
    | succ k =>
      have := ih hs k
      simp only [utf8, List.flatMap_cons, hx, List.cons_append, List.nil_append, List.take_succ_cons, List.drop_succ_cons] at this ⊢
      exact ⟨by rw [this.1], this.2⟩

/-- C85: for a text of ASCII characters the part from the `m`-th to the `n`-th character is taken. -/
theorem C85_take_ascii_partial (s : List Char) (hs : AsciiText s) (m n : Nat) (hm : 1 ≤ m) (hmn : m ≤ n) (hn : n ≤ s.length) (h64 : n < 2 ^ 63) :
    stringTakeFn (takeCall (utf8 s) m n) = .text (utf8 ((s.take n).drop (m - 1))) := by
  have hl : (utf8 s).length = s.length := (utf8_length s).2.2 hs
  obtain ⟨-, -, h⟩ := C85_take (utf8 s) m n (by constructor <;> omega) (by constructor <;> omega)
  obtain ⟨p, r, q, h1, h2, h3, h4⟩ := h (by omega) (by omega) (by omega)
  rw [h4, SOut.text.injEq, ← (utf8_ascii (s := s.take n) (fun c hc => hs c (List.mem_of_mem_take hc)) (m - 1)).2, ← (utf8_ascii hs n).1, h1]
  rw [show n = (p ++ r).length by simp; omega, List.take_left, show m - 1 = p.length by omega, List.drop_left]

/-- C85: a string is the concatenation of a front part and the rest, wherever it is cut. -/
theorem C85_take_recombines (b : Bytes) (k : Nat) (hk : k ≤ b.length) (h64 : (b.length : Int) + 1 < 2 ^ 63) :
    ∃ x y, stringTakeFn (takeCall b 1 k) = .text x ∧ stringTakeFn (takeCall b (k + 1) b.length) = .text y ∧ stringJoinFn [.text x, .text y] = .text b := by
  obtain ⟨-, a2, a3⟩ := C85_take b 1 k (by constructor <;> omega) (by constructor <;> omega)
  obtain ⟨-, b2, b3⟩ := C85_take b (k + 1) b.length (by constructor <;> omega) (by constructor <;> omega)
  have hx : stringTakeFn (takeCall b 1 k) = .text (b.take k) := by
    by_cases h0 : k = 0
    · rw [a2 (by omega) (by omega) (by omega), h0]; rfl
    · obtain ⟨p, r, q, h1, h2, h3, h4⟩ := a3 (by omega) (by omega) (by omega)
      rw [h4, h1]
      have : p = [] := List.length_eq_zero_iff.1 (by omega)
      rw [this, List.nil_append, show k = r.length by omega, List.take_left]
  have hy : stringTakeFn (takeCall b (k + 1) b.length) = .text (b.drop k) := by
    by_cases h0 : k = b.length
    · rw [b2 (by omega) (by omega) (by omega), h0, List.drop_length]
    · obtain ⟨p, r, q, h1, h2, h3, h4⟩ := b3 (by omega) (by omega) (by omega)
      have hl := congrArg List.length h1
      simp only [List.length_append] at hl
      have : q = [] := List.length_eq_zero_iff.1 (by omega)
      subst this
      rw [List.append_nil] at h1
      rw [h4, SOut.text.injEq, h1, show k = p.length by omega, List.drop_left]
  exact ⟨_, _, hx, hy, by simp [stringJoinFn, strJoinLoop]⟩

/-- C85 disagreement: a character that is not ASCII is cut in two; the result is the encoding of no text. -/
theorem C85_take_splits : stringTakeFn (takeCall (utf8 ['π']) 1 1) = .text [207] ∧ ∀ s, utf8 s ≠ [207] := by
  refine ⟨by decide +kernel, ?_⟩
  intro s hs
  have h1 := utf8_length s
  rw [hs] at h1
  match s with
  | [] => simp [utf8] at hs
  | [c] =>
    have : AsciiText [c] := h1.2.1 rfl
    have hc := this c (by simp)
    have : c.val.toNat < 128 := by
      have := UInt32.le_iff_toNat_le.1 hc
      simpa using Nat.lt_succ_of_le this
    have hv : c.toNat < 128 := this
    simp only [utf8, List.flatMap_cons, List.flatMap_nil, List.append_nil, String.utf8EncodeChar] at hs
    split at hs
    · next h =>
      simp only [List.cons.injEq, and_true] at hs
      have := congrArg UInt8.toNat hs
      simp at this
      omega
    · next h =>
      omega
  | c :: d :: r => simp at h1

/-- C85 disagreement: bounds are cut to 64 bits, so `StringTake["hello", {1, 2^64 + 1}]` is `"h"`, although there is no such part. -/
theorem C85_take_wrapped : stringTakeFn (takeCall (utf8 ['h', 'e', 'l', 'l', 'o']) 1 (2 ^ 64 + 1)) = .text (utf8 ['h']) := by decide +kernel

/-- The pieces joined again with what they were cut at. -/
theorem cut_join {b : Bytes} : ∀ {l : List Bytes} {s : Bytes}, CutAt b s l → joinWith b l = s
  | [], _, h => h.elim
  | [p], s, h => h.1.symm
  | p :: q :: r, s, ⟨t, h1, _, h2⟩ => by rw [joinWith, cut_join h2, ← h1]

theorem cut_unique {b : Bytes} : ∀ {l l' : List Bytes} {s : Bytes}, CutAt b s l → CutAt b s l' → l = l'
  | [], _, _, h, _ => h.elim
  | _, [], _, _, h => h.elim
  | [p], [p'], s, h, h' => by rw [← h.1, ← h'.1]
  | [p], p' :: q' :: r', s, h, ⟨t, h1, _, _⟩ => absurd ⟨_, _, h1⟩ h.2
  | p :: q :: r, [p'], s, ⟨t, h1, _, _⟩, h => absurd ⟨_, _, h1⟩ h.2
  | p :: q :: r, p' :: q' :: r', s, ⟨t, h1, h2, h3⟩, ⟨t', h1', h2', h3'⟩ => by
    have hl : p.length = p'.length := Nat.le_antisymm (h2 _ _ h1') (h2' _ _ h1)
    have h := h1.symm.trans h1'
    rw [List.append_assoc, List.append_assoc] at h
    obtain ⟨e1, e2⟩ := List.append_inj h hl
    have e3 := List.append_cancel_left e2
    subst e1 e3
    rw [cut_unique h3 h3']

theorem replaceGo_cut {old : Bytes} (ho : old ≠ []) (new : Bytes) : ∀ (n : Nat) (s : Bytes), s.length ≤ n → ∃ l, CutAt old s l ∧ replaceGo old new n s = joinWith new l := by
  have base : ∃ l, CutAt old [] l ∧ [] = joinWith new l := by
    refine ⟨[[]], ⟨rfl, ?_⟩, rfl⟩
    rintro ⟨p, q, h⟩
    have := congrArg List.length h
    have := List.length_pos_iff.2 ho
    simp at *
    omega
  intro n
  induction n with
  | zero =>
    intro s hs
    have : s = [] := List.length_eq_zero_iff.1 (by omega)
    subst this
    simpa [replaceGo] using base
  | succ n ih =>
    intro s hs
    cases s with
    | nil => simpa [replaceGo] using base
    | cons c r =>
      have hol := List.length_pos_iff.2 ho
      rw [replaceGo]
      split
      · next hp =>
        rw [List.isPrefixOf_iff_prefix] at hp
        obtain ⟨t, ht⟩ := hp
        have hd : (c :: r).drop old.length = t := by rw [← ht, List.drop_left]
        rw [hd]
        have hlen := congrArg List.length ht
        simp only [List.length_append, List.length_cons] at hlen hs
        obtain ⟨l, h1, h2⟩ := ih t (by omega)
        cases l with
        | nil => exact h1.elim
        | cons q l =>
          refine ⟨[] :: q :: l, ⟨t, by rw [List.nil_append, ht], fun _ _ _ => Nat.zero_le _, h1⟩, ?_⟩
          rw [h2, joinWith, List.nil_append]
      · next hp =>
        have hnp : ∀ q', c :: r ≠ [] ++ old ++ q' := by
          intro q' h
          apply hp
          rw [List.isPrefixOf_iff_prefix]
          exact ⟨q', by rw [h, List.nil_append]⟩
        obtain ⟨l, h1, h2⟩ := ih r (by simp at hs; omega)
        match l, h1 with
        | [p], h1 =>
          refine ⟨[c :: p], ⟨by rw [h1.1], ?_⟩, by rw [h2]; rfl⟩
          rintro ⟨p', q', h⟩
          cases p' with
          | nil => exact hnp q' h
          | cons d p' =>
            simp only [List.cons_append, List.cons.injEq] at h
            exact h1.2 ⟨p', q', h.2⟩
        | p :: q :: l, ⟨t, h3, h4, h5⟩ =>
          refine ⟨(c :: p) :: q :: l, ⟨t, by rw [h3]; rfl, ?_, h5⟩, ?_⟩
          · intro p' q' h
            cases p' with
            | nil => exact absurd h (hnp q')
            | cons d p' =>
              simp only [List.cons_append, List.cons.injEq] at h
              have := h4 p' q' h.2
              simp only [List.length_cons]; omega
          · rw [h2]; rfl

/-- C85: `StringReplace[s, old -> new]` replaces every instance of `old`, found from the left, and changes nothing else: the string is cut at these instances (in exactly one way) and
joined again with `new` in between. -/
theorem C85_replace (wid : Bytes → Nat) (s old new : Bytes) (ho : old ≠ []) :
    ∃ l, CutAt old s l ∧ (∀ l', CutAt old s l' → l' = l) ∧ joinWith old l = s ∧ stringReplaceFn wid [.text s] (some (.text old, .text new)) = .text (joinWith new l) := by
  obtain ⟨l, h1, h2⟩ := replaceGo_cut ho new s.length s (Nat.le_refl _)
  refine ⟨l, h1, fun l' h => cut_unique h h1, cut_join h1, ?_⟩
  rw [stringReplaceFn, goReplace, if_neg ho, h2]

/-- C85: in particular nothing happens if `old` does not occur, or if `old` is replaced by itself. -/
theorem C85_replace_nothing (wid : Bytes → Nat) (s old new : Bytes) (ho : old ≠ []) (h : ¬ OccursIn old s ∨ new = old) :
    stringReplaceFn wid [.text s] (some (.text old, .text new)) = .text s := by
  obtain ⟨l, h1, h2, h3, h4⟩ := C85_replace wid s old new ho
  rw [h4]
  rcases h with h | rfl
  · rw [← h2 [s] ⟨rfl, h⟩]; rfl
  · rw [h3]

/-- `StringReplace["aaaba", "aa" -> "x"]` is `"xaba"`: instances do not overlap. -/
example (wid : Bytes → Nat) : stringReplaceFn wid [.text (utf8 ['a', 'a', 'a', 'b', 'a'])] (some (.text (utf8 ['a', 'a']), .text (utf8 ['x']))) = .text (utf8 ['x', 'a', 'b', 'a']) := by
  rfl

theorem replaceEmpty_text {wid : Bytes → Nat} (hw : ∀ c r, wid (String.utf8EncodeChar c ++ r) = (String.utf8EncodeChar c).length) (new : Bytes) :
    ∀ (t : List Char) (n : Nat), t.length < n → replaceEmpty wid new n (utf8 t) = new ++ t.flatMap (fun c => String.utf8EncodeChar c ++ new)
  | [], n, h => by
    obtain ⟨n, rfl⟩ := Nat.exists_eq_add_of_lt h
    simp [utf8, replaceEmpty]
  | c :: t, n, h => by
    obtain ⟨n, rfl⟩ : ∃ k, n = k + 1 := ⟨n - 1, by omega⟩
    have e : utf8 (c :: t) = String.utf8EncodeChar c ++ utf8 t := by simp [utf8]
    have hl := (encode_length c).1
    rw [e]
    cases hx : String.utf8EncodeChar c ++ utf8 t with
    | nil =>
      have := congrArg List.length hx
      rw [List.length_append, List.length_nil] at this
      omega
    | cons x y =>
      rw [replaceEmpty, ← hx, hw, List.take_left, List.drop_left, replaceEmpty_text hw new t n (by simp at h; omega)]
      · simp
      · simp

/-- C85: the empty string occurs in front and after every character (`wid` gives the number of bytes of the first character). -/
theorem C85_replace_empty (wid : Bytes → Nat) (hw : ∀ c r, wid (String.utf8EncodeChar c ++ r) = (String.utf8EncodeChar c).length) (t : List Char) (new : Bytes) :
    stringReplaceFn wid [.text (utf8 t)] (some (.text [], .text new)) = .text (new ++ t.flatMap (fun c => String.utf8EncodeChar c ++ new)) := by
  rw [stringReplaceFn, goReplace, if_pos rfl, replaceEmpty_text hw]
  have := (utf8_length t).1
  omega

/-- The width read off the first byte. -/
def firstWidth : Bytes → Nat
  | [] => 0
  | x :: _ => if x.toNat < 128 then 1 else if x.toNat < 224 then 2 else if x.toNat < 240 then 3 else 4

/-- The hypothesis of `C85_replace_empty` can be met. -/
theorem firstWidth_ok : ∀ c r, firstWidth (String.utf8EncodeChar c ++ r) = (String.utf8EncodeChar c).length := by
  intro c r
  have hc : c.val.toNat < 1114112 := by
    rcases c.valid with h | h
    · exact Nat.lt_trans h (by decide)
    · exact h.2
  have key : ∃ x t, String.utf8EncodeChar c = x :: t ∧ ((t.length = 0 ∧ x.toNat < 128) ∨ (t.length = 1 ∧ 128 ≤ x.toNat ∧ x.toNat < 224) ∨ (t.length = 2 ∧ 224 ≤ x.toNat ∧ x.toNat < 240) ∨
      (t.length = 3 ∧ 240 ≤ x.toNat)) := by
    unfold String.utf8EncodeChar
    simp only
    split
    · refine ⟨_, _, rfl, Or.inl ⟨rfl, ?_⟩⟩
      rw [UInt8.toNat_ofNat']; omega
    · split
      · refine ⟨_, _, rfl, Or.inr (Or.inl ⟨rfl, ?_⟩)⟩
        rw [UInt8.toNat_ofNat']; omega
      · split
        · refine ⟨_, _, rfl, Or.inr (Or.inr (Or.inl ⟨rfl, ?_⟩))⟩
          rw [UInt8.toNat_ofNat']; omega
        · refine ⟨_, _, rfl, Or.inr (Or.inr (Or.inr ⟨rfl, ?_⟩))⟩
          rw [UInt8.toNat_ofNat']; omega
  obtain ⟨x, t, h, k⟩ := key
  rw [h, List.cons_append, firstWidth, List.length_cons]
  split_ifs <;> omega

end Expreduce
