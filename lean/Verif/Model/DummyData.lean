import Verif.Model.DataUtil
/-
Model of the program /repo/private_join_and_compute/generate_dummy_data.cc.
-/
namespace PJC.Data

/-- generate_dummy_data.cc:29-46, the command line flags. -/
structure DummyFlags where
  serverDataSize : Int
  clientDataSize : Int
  intersectionSize : Int
  maxAssociatedValue : Int
  serverDataFile : Bytes
  clientDataFile : Bytes

/-- Exit code, lines printed to the standard output, and the files afterwards. -/
structure DummyExit where
  code : Nat
  stdout : List Bytes
  files : Bytes → Option Bytes

/-- Replaces the content of one file. -/
def setFile (files : Bytes → Option Bytes) (name content : Bytes) : Bytes → Option Bytes :=
  fun n => if n = name then some content else files n

/-- generate_dummy_data.cc:48-95 `main`.  `ioS`, `ioC`: how opening and writing the two files goes;
`torn name` is what a failed write leaves in the file.  Output to the standard error stream is not
modelled. -/
def dummyMain (rnd : DbRand) (flags : DummyFlags) (ioS ioC : WriteIo) (torn : Bytes → Option Bytes)
    (files : Bytes → Option Bytes) : Res DummyExit :=
  match generateRandomDatabases rnd flags.serverDataSize flags.clientDataSize
      flags.intersectionSize flags.maxAssociatedValue with
  | .err _ => .ok ⟨1, [], files⟩
  | .crash => .crash
  | .ub => .ub
  | .ok (server, (ids, vals), sum) =>
    match writeServerDataset ioS server with
    | .err _ => .ok ⟨1, [], fun n => if n = flags.serverDataFile then torn n else files n⟩
    | .crash => .crash
    | .ub => .ub
    | .ok sc =>
      let files := setFile files flags.serverDataFile sc
      match writeClientDataset ioC ids vals with
      | .err _ => .ok ⟨1, [], fun n => if n = flags.clientDataFile then torn n else files n⟩
      | .crash => .crash
      | .ub => .ub
      | .ok cc =>
        .ok ⟨0,
          [str "Generated Server dataset of size " ++ intToDec flags.clientDataSize ++
            str ", Client dataset of size " ++ intToDec flags.clientDataSize,
           str "Intersection size = " ++ intToDec flags.intersectionSize,
           str "Intersection sum = " ++ intToDec sum],
          setFile files flags.clientDataFile cc⟩

end PJC.Data
