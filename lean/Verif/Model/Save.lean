import Verif.Model.Files

/-!
# Saving definitions (`/repo/expreduce/builtin_system.go:31-36, 97-150, 781-873`)

The libraries `encoding/gob` and `compress/zlib` are parameters (`Codec`), and so is the file system.
-/

namespace Expreduce
open Ex

/-- `exprFileHeader` (`builtin_system.go:31`). -/
def saveHeader : List UInt8 := [26, 166, 245, 29, 69, 251, 144, 0]

/-- The encoding of a list of definitions by `gob` and `zlib`: `pack` fails if the encoder reports an error, `unpack` if the
decoder does (in both cases the code panics). -/
structure Codec where
  pack : List (String × DefM) → Option (List UInt8)
  unpack : List UInt8 → Option (List (String × DefM))

/-- The files: their contents, and whether `os.Create` succeeds for a name. -/
structure Disk where
  files : String → Option (List UInt8)
  creatable : String → Bool

/-- Writing a file. -/
def Disk.write (D : Disk) (fn : String) (bytes : List UInt8) : Disk :=
  { D with files := fun n => if n = fn then some bytes else D.files n }

/-- The loop over the names (`builtin_system.go:831-845`); `none`: the call is returned as it is. -/
def collectDefs (st : EState) : List Ex → Option (List (String × DefM))
  | [] => some []
  | .str s :: es =>
    match st.defs s with
    | none => none
    | some d => (collectDefs st es).map ((s, d) :: ·)
  | _ :: _ => none

/-- What `Save` has to write (`builtin_system.go:816-848`): file name and definitions; `none` if the call is returned as it is. -/
def saveRequest (st : EState) (ps : List Ex) : Option (String × List (String × DefM)) :=
  match ps with
  | [_, .str fn, l] =>
    match argsOf "System`List" l with
    | none => none
    | some names =>
      match collectDefs st names with
      | none => none
      | some [] => none
      | some (d :: ds) => some (fn, d :: ds)
  | _ => none

/-- `Save` (`builtin_system.go:813-873`): the files afterwards and the value. Writes are assumed not to fail once the file is created. -/
def saveFn (C : Codec) (D : Disk) (st : EState) (ps : List Ex) : Res (Disk × Ex) :=
  match saveRequest st ps with
  | none => .ok (D, .expr ps)
  | some (fn, defs) =>
    if D.creatable fn then
      match C.pack defs with
      | none => .panic
      | some bytes => .ok (D.write fn (saveHeader ++ bytes), S "Null")
    else .ok (D, S "Null")

/-- The contents of the file at the moments of a call of `Save` at which the process can die: as before; truncated by `os.Create`;
after the header; and after each chunk the compressor hands to the file (`builtin_system.go:852-868`). -/
def saveMoments (old : Option (List UInt8)) (chunks : List (List UInt8)) : List (Option (List UInt8)) :=
  old :: some [] :: (List.range (chunks.length + 1)).map (fun k => some (saveHeader ++ (chunks.take k).flatten))

/-- One entry of `$Path` (`builtin_system.go:131-136`). -/
def dirPath (fn : String) : Ex → Option String
  | .str s => some (s ++ "/" ++ fn)
  | _ => none

/-- The paths tried (`builtin_system.go:130-141`). -/
def pathsToTry (dirs : List Ex) (fn : String) : List String :=
  dirs.filterMap (dirPath fn) ++ [fn]

/-- Files inside the program (`builtin_system.go:117-128`). -/
abbrev Assets := String → Option (List UInt8)

/-- `tryReadFile` (`builtin_system.go:97-150`); `assets` gives the contents for the names with one of the two prefixes. -/
def tryReadFile (assets : Assets) (D : Disk) (st : EState) (e : Ex) : Option (List UInt8) :=
  match getSymDef st.toDState "System`$Path" with
  | none => none
  | some p =>
    match argsOf "System`List" p, e with
    | some dirs, .str fn =>
      match assets fn with
      | some b => some b
      | none => (pathsToTry dirs fn).findSome? D.files
    | _, _ => none

/-- The loop that enters the definitions (`builtin_system.go:804-806`). -/
def enterDefs (st : EState) (defs : List (String × DefM)) : EState :=
  defs.foldl (fun st d => { st with defs := st.defs.set d.1 d.2 }) st

/-- `Get` (`builtin_system.go:781-812`). -/
def getFn (C : Codec) (assets : Assets) (rd : Reader) (ev : Evaluator) (n : Nat) (D : Disk) (st : EState) (ps : List Ex) : Res (EState × Ex) :=
  match ps with
  | [_, e] =>
    match tryReadFile assets D st e with
    | none => .ok (st, S "$Failed")
    | some data =>
      if saveHeader.isPrefixOf data then
        match C.unpack (data.drop saveHeader.length) with
        | none => .panic
        | some defs => .ok (enterDefs st defs, S "Null")
      else evalInterpMany rd ev n st data
  | _ => .ok (st, .expr ps)

end Expreduce
