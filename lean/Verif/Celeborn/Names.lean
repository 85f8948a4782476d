import Verif.Sql.Display

/-!
# The texts of Celeborn

Model of `crates/sail-celeborn/src/common.rs`: the text of a worker, of a compression codec and
of a location, and of what is read from them. A text is a list of characters.
-/

namespace Verif.Celeborn.Names

open Verif.Sql (intText parseDigits parseInt)

abbrev Text := List Char

/-- `WorkerIdentity` (`common.rs:56-63`); the ports are `u16`. -/
structure Identity where
  host : Text
  rpc : Nat
  push : Nat
  fetch : Nat
  replicate : Nat
deriving DecidableEq, Repr

/-- `Display` (`common.rs:65-73`). -/
def Identity.show (w : Identity) : Text :=
  w.host ++ ':' :: (Nat.toDigits 10 w.rpc ++ ':' :: (Nat.toDigits 10 w.push ++ ':' ::
    (Nat.toDigits 10 w.fetch ++ ':' :: Nat.toDigits 10 w.replicate)))

/-- A part of `rsplitn(_, ':')` (`common.rs:79`), from what is left, and what is left after
it. -/
def rnext : Option Text → Option (Text × Option Text)
  | none => none
  | some s =>
    let tail := (s.reverse.takeWhile (· ≠ ':')).reverse
    match s.reverse.dropWhile (· ≠ ':') with
    | [] => some (tail, none)
    | _ :: before => some (tail, some before.reverse)

/-- `str::parse::<u16>`. -/
def parsePort (s : Text) : Option Nat :=
  let v := match s with
    | [] => none
    | c :: r => if c = '+' then parseDigits r else parseDigits (c :: r)
  match v with
  | none => none
  | some n => if n < 2 ^ 16 then some n else none

/-- `parse_worker_port` (`common.rs:100-115`) on the next part. -/
def port (left : Option Text) : Option (Nat × Option Text) :=
  match rnext left with
  | none => none
  | some (t, left) => (parsePort t).map fun n => (n, left)

/-- `FromStr` (`common.rs:75-98`); the errors are one. The fifth part is all that is left. -/
def Identity.parse (s : Text) : Option Identity :=
  match port (some s) with
  | none => none
  | some (replicate, left) =>
    match port left with
    | none => none
    | some (fetch, left) =>
      match port left with
      | none => none
      | some (push, left) =>
        match port left with
        | none => none
        | some (rpc, left) =>
          match left with
          | none => none
          | some host => if host = [] then none else some ⟨host, rpc, push, fetch, replicate⟩

/-- `CompressionCodec` (`common.rs:117-126`); the level is an `i8`. -/
inductive Compression
  | none
  | lz4
  | zstd (level : Int)
deriving DecidableEq, Repr

/-- `Display` (`common.rs:158-166`). -/
def Compression.show : Compression → Text
  | .none => "none".toList
  | .lz4 => "lz4".toList
  | .zstd l => "zstd(".toList ++ intText l ++ [')']

/-- `FromStr` (`common.rs:168-201`). -/
def Compression.parse (s : Text) : Option Compression :=
  if s = "none".toList then some .none
  else if s = "lz4".toList then some .lz4
  else
    match s with
    | 'z' :: 's' :: 't' :: 'd' :: '(' :: r =>
      if r.getLast? = some ')' then
        match parseInt 8 r.dropLast with
        | Option.none => Option.none
        | some l => if -5 ≤ l ∧ l ≤ 22 then some (.zstd l) else Option.none
      else Option.none
    | _ => Option.none

/-- `PartitionLocation::unique_id` (`common.rs:241-243`), by which a location is pushed to and
committed. -/
def uniqueId (id epoch : Int) : Text := intText id ++ '-' :: intText epoch

/-- The name of the file that is read (`worker/client.rs:225`). -/
def fileName (id epoch : Int) : Text := intText id ++ '-' :: (intText epoch ++ "-0".toList)

/-- `shuffle_key` (`shuffle/actor/handler.rs:455-457`). -/
def shuffleKey (app : Text) (sid : Int) : Text := app ++ '-' :: intText sid

end Verif.Celeborn.Names
