import Verif.Model.RecordIO
/-
Merging readers that are opened without a key function.
-/
namespace PJC.Rec

/-- recordio.cc:168-173 `Open` without a key function, on a reader with the default key `dflt`. -/
def Merge.openDefault {κ : Type} (files : Bytes → Option Bytes) (names : List Bytes)
    (dflt : Option (Bytes → κ)) (m : Merge κ) : Res Unit × Merge κ :=
  match dflt with
  | none => (.err .invalidArgument, m)
  | some key => m.open files names key

/-- recordio.cc:386-393, the default key of `MultiSortedReader<std::string>`: the record. -/
def stringKey : Option (Bytes → Bytes) := some fun s => s

/-- recordio.cc:395-401, the default key of `MultiSortedReader<int64_t>`: 0.  (`int64_t` is `Int`.) -/
def intKey : Option (Bytes → Int) := some fun _ => 0

end PJC.Rec
