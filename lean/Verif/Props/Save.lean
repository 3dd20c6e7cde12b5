import Verif.Spec.Save
import Verif.Proofs.EvalMono

/-! # C97, C98: saving and loading definitions -/

namespace Expreduce
open Ex

theorem collectDefs_names (st : EState) (names : List String) {defs : List (String × DefM)}
    (h : collectDefs st (names.map .str) = some defs) : defs.map Prod.fst = names ∧ ∀ p ∈ defs, st.defs p.1 = some p.2 := by
  induction names generalizing defs with
  | nil => cases h; simp
  | cons s names ih =>
    simp only [List.map_cons, collectDefs] at h
    split at h
    · cases h
    · rename_i d hd
      obtain ⟨ds, h1, rfl⟩ := Option.map_eq_some_iff.1 h
      obtain ⟨h2, h3⟩ := ih h1
      refine ⟨by simp [h2], ?_⟩
      intro p hp
      rcases List.mem_cons.1 hp with rfl | hp
      · exact hd
      · exact h3 p hp

theorem collectDefs_all (st : EState) (names : List String) (h : ∀ s ∈ names, ∃ d, st.defs s = some d) :
    ∃ defs, collectDefs st (names.map .str) = some defs := by
  induction names with
  | nil => exact ⟨[], rfl⟩
  | cons s names ih =>
    obtain ⟨d, hd⟩ := h s (by simp)
    obtain ⟨ds, hds⟩ := ih (fun x hx => h x (by simp [hx]))
    exact ⟨(s, d) :: ds, by simp [collectDefs, hd, hds]⟩

theorem enterDefs_get (defs : List (String × DefM)) (g : String → DefM) (hg : ∀ p ∈ defs, p.2 = g p.1) :
    ∀ st : EState, (∀ s ∈ defs.map Prod.fst, (enterDefs st defs).defs s = some (g s)) ∧
      (∀ s, s ∉ defs.map Prod.fst → (enterDefs st defs).defs s = st.defs s) ∧
      (enterDefs st defs).frozen = st.frozen ∧ (enterDefs st defs).thrown = st.thrown ∧
      (enterDefs st defs).interrupted = st.interrupted ∧ (enterDefs st defs).sown = st.sown := by
  induction defs with
  | nil => intro st; simp [enterDefs]
  | cons p defs ih =>
    intro st
    have e : enterDefs st (p :: defs) = enterDefs { st with defs := st.defs.set p.1 p.2 } defs := rfl
    obtain ⟨h1, h2, h3⟩ := ih (fun q hq => hg q (by simp [hq])) { st with defs := st.defs.set p.1 p.2 }
    rw [e]
    refine ⟨?_, ?_, h3⟩
    · intro s hs
      by_cases hm : s ∈ defs.map Prod.fst
      · exact h1 s hm
      · rw [h2 s hm]
        have : s = p.1 := by simpa [hm] using hs
        subst this
        simp [Table.set, hg p (by simp)]
    · intro s hs
      simp only [List.map_cons, List.mem_cons, not_or] at hs
      rw [h2 s hs.2]
      simp [Table.set, hs.1]

theorem argsOf_list (es : List Ex) : argsOf "System`List" (.expr (S "List" :: es)) = some es := rfl

theorem findSome_paths (D : Disk) (dirs : List Ex) (fn : String) (h : ∀ d, .str d ∈ dirs → D.files (d ++ "/" ++ fn) = none) :
    (pathsToTry dirs fn).findSome? D.files = D.files fn := by
  unfold pathsToTry
  rw [List.findSome?_append]
  have : (dirs.filterMap (dirPath fn)).findSome? D.files = none := by
    rw [List.findSome?_eq_none_iff]
    intro p hp
    obtain ⟨d, hd, hd2⟩ := List.mem_filterMap.1 hp
    cases d with
    | str s => cases hd2; exact h _ hd
    | _ => cases hd2
  rw [this]
  simp

/-- The file is read. -/
theorem tryReadFile_finds {assets : Assets} {D : Disk} {st : EState} {fn : String} (h : FindsFile assets D st fn) :
    tryReadFile assets D st (.str fn) = D.files fn := by
  obtain ⟨ha, dirs, hp, hd⟩ := h
  simp only [tryReadFile, hp, argsOf_list, ha, findSome_paths D dirs fn hd]

theorem header_prefix (bytes : List UInt8) : saveHeader.isPrefixOf (saveHeader ++ bytes) = true := by
  rw [List.isPrefixOf_iff_prefix]; exact List.prefix_append _ _

/-- **C97, the round trip.** If `Save[fn, {names}]` has written a file, `Get[fn]`, in whatever session, gives every one of these
names the rules, attributes and default value it had when it was saved, and changes no other name. No other file is touched. -/
theorem C97_roundtrip_partial {C : Codec} (hC : C.Faithful) (assets : Assets) (rd : Reader) (ev : Evaluator) (n : Nat) (D D' : Disk)
    (st st2 : EState) (fn : String) (names : List String) (hne : names ≠ []) (hall : ∀ s ∈ names, ∃ d, st.defs s = some d) (hcr : D.creatable fn = true)
    {v : Ex} (hs : saveFn C D st (saveCall fn names) = .ok (D', v)) (hf : FindsFile assets D' st2 fn) :
    v = S "Null" ∧ (∀ n, n ≠ fn → D'.files n = D.files n) ∧ ∃ st3, getFn C assets rd ev n D' st2 [S "Get", .str fn] = .ok (st3, S "Null") ∧
      (∀ s ∈ names, st3.defs s = (st.defs s).map DefM.saved) ∧ (∀ s, s ∉ names → st3.defs s = st2.defs s) ∧
      st3.thrown = st2.thrown ∧ st3.interrupted = st2.interrupted ∧ st3.sown = st2.sown := by
  obtain ⟨defs, hdefs⟩ := collectDefs_all st names hall
  obtain ⟨hn1, hn2⟩ := collectDefs_names st names hdefs
  have hreq : saveRequest st (saveCall fn names) = some (fn, defs) := by
    simp only [saveRequest, saveCall, argsOf_list, hdefs]
    cases defs with
    | nil => simp at hn1; exact absurd hn1 hne
    | cons => rfl
  simp only [saveFn, hreq, hcr, if_true] at hs
  split at hs
  · cases hs
  · rename_i bytes hb
    simp only [Res.ok.injEq, Prod.mk.injEq] at hs
    obtain ⟨rfl, rfl⟩ := hs
    refine ⟨rfl, fun n hn => by simp [Disk.write, hn], ?_⟩
    have hfile : (D.write fn (saveHeader ++ bytes)).files fn = some (saveHeader ++ bytes) := by simp [Disk.write]
    let sv := defs.map (fun d => (d.1, d.2.saved))
    refine ⟨enterDefs st2 sv, ?_, ?_⟩
    · simp only [getFn, tryReadFile_finds hf, hfile, header_prefix, if_true, List.drop_left, hC _ _ hb, sv]
    · have hkeys : sv.map Prod.fst = names := by simp only [sv, List.map_map]; exact hn1
      obtain ⟨h1, h2, _, h3⟩ := enterDefs_get sv (fun s => ((st.defs s).map DefM.saved).getD {}) (by
        intro p hp
        obtain ⟨q, hq, rfl⟩ := List.mem_map.1 hp
        simp [hn2 q hq]) st2
      rw [hkeys] at h1 h2
      refine ⟨?_, h2, h3⟩
      intro s hs
      obtain ⟨d, hd⟩ := hall s hs
      rw [h1 s hs, hd]
      rfl

/-- **C97, all or nothing.** If one of the names is unknown, or there are none, nothing is written and the call is returned as it is. -/
theorem C97_refused (C : Codec) (D : Disk) (st : EState) (fn : String) (names : List String)
    (h : names = [] ∨ ∃ s ∈ names, st.defs s = none) :
    saveFn C D st (saveCall fn names) = .ok (D, .expr (saveCall fn names)) := by
  have : saveRequest st (saveCall fn names) = none := by
    simp only [saveRequest, saveCall, argsOf_list]
    rcases h with rfl | ⟨s, hs, hd⟩
    · rfl
    · have : collectDefs st (names.map .str) = none := by
        cases hc : collectDefs st (names.map .str) with
        | none => rfl
        | some defs =>
          obtain ⟨h1, h2⟩ := collectDefs_names st names hc
          rw [← h1] at hs
          obtain ⟨p, hp, rfl⟩ := List.mem_map.1 hs
          rw [h2 p hp] at hd
          cases hd
      rw [this]
  simp only [saveFn, this]

/-- **C97 fails for the functions of the interpreter.** Saving a symbol with a built-in function and loading it again, even in the same
session, takes the built-in function away. -/
theorem C97_builtin_lost {C : Codec} (hC : C.Faithful) (assets : Assets) (rd : Reader) (ev : Evaluator) (n : Nat) (D D' : Disk)
    (st : EState) (fn s : String) (d : DefM) (hd : st.defs s = some d) (hb : d.builtin = true) (hcr : D.creatable fn = true)
    {v : Ex} (hs : saveFn C D st (saveCall fn [s]) = .ok (D', v)) (hf : FindsFile assets D' st fn) :
    hasBuiltin st s = true ∧ ∃ st3, getFn C assets rd ev n D' st [S "Get", .str fn] = .ok (st3, S "Null") ∧ hasBuiltin st3 s = false := by
  refine ⟨by simp [hasBuiltin, hd, hb], ?_⟩
  obtain ⟨_, _, st3, h1, h2, _⟩ := C97_roundtrip_partial hC assets rd ev n D D' st st fn [s] (by simp) (by simpa using ⟨d, hd⟩) hcr hs hf
  refine ⟨st3, h1, ?_⟩
  have := h2 s (by simp)
  simp [hasBuiltin, this, hd, DefM.saved]

/-- **C97 fails silently.** If the file cannot be created, `Save` says `Null` as if it had saved, and nothing is written. -/
theorem C97_unwritable (C : Codec) (D : Disk) (st : EState) (fn : String) (names : List String) (hne : names ≠ [])
    (hall : ∀ s ∈ names, ∃ d, st.defs s = some d) (hcr : D.creatable fn = false) :
    saveFn C D st (saveCall fn names) = .ok (D, S "Null") := by
  obtain ⟨defs, hdefs⟩ := collectDefs_all st names hall
  obtain ⟨hn1, _⟩ := collectDefs_names st names hdefs
  have hreq : saveRequest st (saveCall fn names) = some (fn, defs) := by
    simp only [saveRequest, saveCall, argsOf_list, hdefs]
    cases defs with
    | nil => simp at hn1; exact absurd hn1 hne
    | cons => rfl
  simp [saveFn, hreq, hcr]

/-- **C97 fails if a directory of `$Path` has a file of the same name.** `Save` writes the file `fn`, `Get` reads `dir/fn`. -/
theorem C97_shadowed (C : Codec) (assets : Assets) (D D' : Disk) (st st2 : EState) (fn dir : String) (names : List String) (dirs : List Ex)
    (bytes : List UInt8) (ha : assets fn = none) (hp : getSymDef st2.toDState "System`$Path" = some (.expr (S "List" :: .str dir :: dirs)))
    (hdf : D.files (dir ++ "/" ++ fn) = some bytes) (hneq : dir ++ "/" ++ fn ≠ fn) {v : Ex}
    (hs : saveFn C D st (saveCall fn names) = .ok (D', v)) :
    tryReadFile assets D' st2 (.str fn) = some bytes := by
  have hfile : D'.files (dir ++ "/" ++ fn) = some bytes := by
    unfold saveFn at hs
    split at hs
    · cases hs; exact hdf
    · rename_i fn' defs hreq
      have : fn' = fn := by
        unfold saveRequest saveCall at hreq
        simp only [argsOf_list] at hreq
        split at hreq
        · cases hreq
        · cases hreq
        · cases hreq; rfl
      subst this
      split at hs
      · split at hs
        · cases hs
        · cases hs
          simpa [Disk.write, hneq] using hdf
      · cases hs; exact hdf
  simp only [tryReadFile, hp, argsOf_list, ha, pathsToTry, dirPath, List.filterMap_cons, List.cons_append, List.findSome?_cons, hfile]

/-- **C98, before and after.** If the process dies before the file is created, the old file is there; after the last write, the new one. -/
theorem C98_ends (old : Option (List UInt8)) (chunks : List (List UInt8)) :
    (saveMoments old chunks).head? = some old ∧
      (saveMoments old chunks).getLast? = some (some (saveHeader ++ chunks.flatten)) := by
  refine ⟨rfl, ?_⟩
  rw [saveMoments, List.range_succ, List.map_append, List.map_singleton, ← List.cons_append, ← List.cons_append, List.getLast?_concat,
    List.take_length]

/-- **C98 fails in between.** Whatever was saved under the name before, there is a moment at which a crash leaves an empty file: `Get`
then reports success but defines nothing. There is another one that leaves a header without definitions: `Get` then crashes. -/
theorem C98_not_atomic (C : Codec) (hC : C.unpack [] = none) (assets : Assets) (rd : Reader) (ev : Evaluator) (n : Nat) (D : Disk) (st : EState)
    (fn : String) (old : Option (List UInt8)) (chunks : List (List UInt8)) (hf : FindsFile assets D st fn)
    (hrd : rd st [] = ([], st, .atEnd)) :
    (some [] ∈ saveMoments old chunks ∧
      getFn C assets rd ev (n + 1) (D.write fn []) st [S "Get", .str fn] = .ok (st, S "Null")) ∧
    (some saveHeader ∈ saveMoments old chunks ∧
      getFn C assets rd ev (n + 1) (D.write fn saveHeader) st [S "Get", .str fn] = .panic) := by
  have hfw : ∀ b : List UInt8, (∀ d, fn ≠ d ++ "/" ++ fn) → FindsFile assets (D.write fn b) st fn := by
    intro b hno
    obtain ⟨ha, dirs, hp, hd⟩ := hf
    refine ⟨ha, dirs, hp, fun d hdm => ?_⟩
    have : ¬ (d ++ "/" ++ fn = fn) := fun h => hno d h.symm
    simp only [Disk.write, this, if_false]
    exact hd d hdm
  have hno : ∀ d : String, fn ≠ d ++ "/" ++ fn := by
    intro d h
    have := congrArg String.length h
    simp [String.length_append] at this
  have hw : ∀ b, (D.write fn b).files fn = some b := by intro b; simp [Disk.write]
  refine ⟨⟨by simp [saveMoments], ?_⟩, ⟨?_, ?_⟩⟩
  · have : saveHeader.isPrefixOf ([] : List UInt8) = false := rfl
    simp [getFn, tryReadFile_finds (hfw [] hno), hw, this, evalInterpMany, manyLoop, hrd]
  · simp only [saveMoments, List.mem_cons, List.mem_map, List.mem_range]
    exact .inr (.inr ⟨0, by omega, by simp⟩)
  · have hp : saveHeader.isPrefixOf saveHeader = true := by decide
    have hdr : saveHeader.drop saveHeader.length = [] := rfl
    simp only [getFn, tryReadFile_finds (hfw saveHeader hno), hw, hp, if_true, hdr, hC]

/-! ### An example -/

namespace SaveDemo

/-- A codec for the example: it can only write one list. -/
def codec (defs : List (String × DefM)) : Codec where
  pack := fun l => if l = defs then some [1, 2, 3] else none
  unpack := fun b => if b = [1, 2, 3] then some (defs.map (fun d => (d.1, d.2.saved))) else none

theorem codec_faithful (defs : List (String × DefM)) : (codec defs).Faithful := by
  intro l bytes h
  simp only [codec] at h ⊢
  split at h
  · rename_i e; cases h; simp [e]
  · cases h

/-- `f[1] = 2`, `f` Listable and with a built-in function. -/
def fDef : DefM := { downvalues := [{ lhs := held (app "Global`f" [.int 1]), rhs := .int 2 }], attrs := { listable := true }, builtin := true }

/-- A session. -/
def st : EState := { defs := fun s => if s = "Global`f" then some fDef
  else if s = "System`$Path" then some { downvalues := [{ lhs := held (S "$Path"), rhs := .expr [S "List", .str "/lib"] }] } else none }

/-- An empty disk. -/
def disk : Disk := { files := fun _ => none, creatable := fun _ => true }

/-- The hypotheses of `C97_roundtrip_partial` and `C97_builtin_lost` are met. -/
example (rd : Reader) (ev : Evaluator) : ∃ D' st3, saveFn (codec [("Global`f", fDef)]) disk st (saveCall "file" ["Global`f"]) = .ok (D', S "Null") ∧
    getFn (codec [("Global`f", fDef)]) (fun _ => none) rd ev 1 D' st [S "Get", .str "file"] = .ok (st3, S "Null") ∧
    hasBuiltin st "Global`f" = true ∧ hasBuiltin st3 "Global`f" = false := by
  have hs : saveFn (codec [("Global`f", fDef)]) disk st (saveCall "file" ["Global`f"]) = .ok (disk.write "file" (saveHeader ++ [1, 2, 3]), S "Null") := by
    simp [saveFn, saveRequest, saveCall, collectDefs, argsOf, S, st, codec, disk]
  obtain ⟨h1, st3, h2, h3⟩ := C97_builtin_lost (codec_faithful _) (fun _ => none) rd ev 1 disk _ st "file" "Global`f" fDef
    (by simp [st]) rfl rfl hs
    ⟨rfl, [.str "/lib"], by decide +kernel, by
      intro d hd
      have : d = "/lib" := by simpa using hd
      subst this
      decide +kernel⟩
  exact ⟨_, st3, hs, h2, h1, h3⟩

/-- The file is found in the example. -/
theorem finds (b : List UInt8) : FindsFile (fun _ => none) (disk.write "file" b) st "file" :=
  ⟨rfl, [.str "/lib"], by decide +kernel, by
    intro d hd
    have : d = "/lib" := by simpa using hd
    subst this
    have : "/lib" ++ "/" ++ "file" ≠ "file" := by decide +kernel
    simp [Disk.write, disk, this]⟩

/-- The hypotheses of `C98_not_atomic` are met: overwriting a file of three bytes. -/
example (ev : Evaluator) :
    getFn (codec [("Global`f", fDef)]) (fun _ => none) (fun st b => (b, st, .atEnd)) ev 1 ((disk.write "file" [7, 8, 9]).write "file" []) st [S "Get", .str "file"]
      = .ok (st, S "Null") :=
  (C98_not_atomic (codec [("Global`f", fDef)]) rfl (fun _ => none) (fun st b => (b, st, .atEnd)) ev 0 (disk.write "file" [7, 8, 9]) st "file" (some [7, 8, 9])
    [[1, 2], [3]] (finds _) rfl).1.2

/-- The hypotheses of `C97_refused`, `C97_unwritable` and `C97_shadowed` are met. -/
example : saveFn (codec [("Global`f", fDef)]) disk st (saveCall "file" ["Global`f", "Global`g"]) = .ok (disk, .expr (saveCall "file" ["Global`f", "Global`g"])) :=
  C97_refused _ _ _ _ _ (.inr ⟨"Global`g", by simp, by simp [st]⟩)

example : saveFn (codec [("Global`f", fDef)]) { disk with creatable := fun _ => false } st (saveCall "/root/file" ["Global`f"])
    = .ok ({ disk with creatable := fun _ => false }, S "Null") :=
  C97_unwritable _ _ _ _ _ (by simp) (by simp [st]) rfl

example : ∃ D', saveFn (codec [("Global`f", fDef)]) (disk.write "/lib/file" [7]) st (saveCall "file" ["Global`f"]) = .ok (D', S "Null") ∧
    tryReadFile (fun _ => none) D' st (.str "file") = some [7] := by
  have hs : saveFn (codec [("Global`f", fDef)]) (disk.write "/lib/file" [7]) st (saveCall "file" ["Global`f"])
      = .ok ((disk.write "/lib/file" [7]).write "file" (saveHeader ++ [1, 2, 3]), S "Null") := by
    simp [saveFn, saveRequest, saveCall, collectDefs, argsOf, S, st, codec, disk, Disk.write]
  exact ⟨_, hs, C97_shadowed _ (fun _ => none) _ _ st st "file" "/lib" ["Global`f"] [] [7] rfl (by decide +kernel) (by decide +kernel) (by decide +kernel) hs⟩

end SaveDemo

end Expreduce
