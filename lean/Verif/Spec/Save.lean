import Verif.Model.Save

/-! # What saving and loading definitions is about -/

namespace Expreduce
open Ex

/-- What of a definition can be written: everything but the function of the interpreter itself. -/
def DefM.saved (d : DefM) : DefM := { d with builtin := false }

/-- The library is right: what it writes it reads back. (`gob` leaves out fields that hold functions.) -/
def Codec.Faithful (C : Codec) : Prop :=
  ∀ defs bytes, C.pack defs = some bytes → C.unpack bytes = some (defs.map (fun d => (d.1, d.2.saved)))

/-- `Get[fn]` finds the file `fn`: there is a list of directories, none of which has a file of this name, and no file inside
the program has it. -/
def FindsFile (assets : Assets) (D : Disk) (st : EState) (fn : String) : Prop :=
  assets fn = none ∧ ∃ dirs, getSymDef st.toDState "System`$Path" = some (.expr (S "List" :: dirs)) ∧
    ∀ d, .str d ∈ dirs → D.files (d ++ "/" ++ fn) = none

/-- The call `Save[fn, {names}]`. -/
def saveCall (fn : String) (names : List String) : List Ex :=
  [S "Save", .str fn, .expr (S "List" :: names.map .str)]

end Expreduce
