import Verif.Arrays.Layout
/-!
# Building map columns from keys and values

`map`, `map_from_arrays` and `map_concat` hand two list columns to the same function,
`map_from_entries` the two fields of a column of structs.
-/
namespace Verif.Arrays

variable {κ ν : Type} [DecidableEq κ]

/-- The state of `map_deduplicate_keys` (`crates/sail-function/src/scalar/map/utils.rs` 152-170):
the mask over the keys, the positions of the values, the offsets written, the last of them, and
the hash map from a key of the current row to its position in the output. -/
structure DedupSt (κ : Type) where
  mask : List Bool
  valueIndices : List Nat
  offsets : List Nat
  lastOffset : Nat
  seen : List (Option κ × Nat)
deriving Repr, DecidableEq

/-- One entry (`crates/sail-function/src/scalar/map/utils.rs` 192-209): a key met before in the row
either moves the position of its value (last value wins) or is an error (`none`).  Keys are
compared by equality; the equality of floating point keys is not modelled. -/
def dedupEntry (lastWins : Bool) (key : Option κ) (valueIndex : Nat) (st : DedupSt κ) :
    Option (DedupSt κ) :=
  match st.seen.lookup key with
  | some out =>
    if lastWins then
      some { st with valueIndices := st.valueIndices.set out valueIndex, mask := st.mask ++ [false] }
    else none
  | none =>
    some { st with mask := st.mask ++ [true], seen := (key, st.valueIndices.length) :: st.seen, valueIndices := st.valueIndices ++ [valueIndex], lastOffset := st.lastOffset + 1 }

/-- The entries of a row (`crates/sail-function/src/scalar/map/utils.rs` 189-210), given as the
keys between the two offsets and the position of the first value. -/
def dedupEntries (lastWins : Bool) : List (Option κ) → Nat → DedupSt κ → Option (DedupSt κ)
  | [], _, st => some st
  | k :: ks, vi, st =>
    match dedupEntry lastWins k vi st with
    | none => none
    | some st' => dedupEntries lastWins ks (vi + 1) st'

/-- The loop over the rows (`crates/sail-function/src/scalar/map/utils.rs` 171-216): a row in which
keys and values are valid must have as many keys as values; the keys of any other row are masked
out. -/
def dedupRows (lastWins : Bool) (keys : List (Option κ)) :
    Nat → Nat → List (Nat × Bool) → List (Nat × Bool) → DedupSt κ → Option (DedupSt κ)
  | ko, vo, (kn, kv) :: krest, (vn, vv) :: vrest, st =>
    if kv && vv then
      if kn = vn then
        match dedupEntries lastWins ((keys.drop ko).take kn) vo { st with seen := [] } with
        | none => none
        | some st' =>
          dedupRows lastWins keys (ko + kn) (vo + vn) krest vrest { st' with offsets := st'.offsets ++ [st'.lastOffset] }
      else none
    else
      dedupRows lastWins keys (ko + kn) (vo + vn) krest vrest { st with mask := st.mask ++ List.replicate kn false, offsets := st.offsets ++ [st.lastOffset] }
  | _, _, _, _, st => some st

/-- The key column of a map must have no NULL (`crates/sail-function/src/scalar/map/utils.rs`
118-129: the struct array is built with a key field that is not nullable). -/
def nonNull : List (Option κ) → Option (List κ)
  | [] => some []
  | none :: _ => none
  | some k :: ks => (nonNull ks).map (k :: ·)

/-- `map_from_keys_values_offsets_nulls` (`crates/sail-function/src/scalar/map/utils.rs` 99-139
and 217-220).  The mask covers the keys of the rows; `filter` applies it to the whole buffer of
keys, while the values are taken by their positions in the buffer. -/
def mapFrom (lastWins : Bool) (keys : ListCol (Option κ)) (vals : ListCol ν) :
    Option (ListCol (κ × ν)) :=
  match dedupRows lastWins keys.values keys.first vals.first keys.rows vals.rows ⟨[], [], [0], 0, []⟩ with
  | none => none
  | some st =>
    match arrowFilter keys.values st.mask, arrowTake vals.values st.valueIndices with
    | some ks, some vs =>
      match nonNull ks with
      | none => none
      | some ks' =>
        if ks'.length = vs.length then
          mkList (ks'.zip vs) st.offsets
            (List.zipWith (fun (x y : Nat × Bool) => x.2 && y.2) keys.rows vals.rows)
        else none
    | _, _ => none

/-- A struct of the array given to `map_from_entries`: its own validity and its two fields, which
are present even when the struct is NULL. -/
structure Entry (κ ν : Type) where
  present : Bool
  key : Option κ
  value : ν
deriving Repr, DecidableEq

/-- The validity of the rows (`crates/sail-function/src/scalar/map/map_from.rs` 146-166): a row
with a NULL struct is NULL. -/
def entryRows (values : List (Entry κ ν)) : Nat → List (Nat × Bool) → List (Nat × Bool)
  | _, [] => []
  | o, (n, v) :: rest =>
    (n, v && ((values.drop o).take n).all (fun e : Entry κ ν => e.present)) ::
      entryRows values (o + n) rest

/-- `map_from_entries_inner` (`crates/sail-function/src/scalar/map/map_from.rs` 133-177). -/
def mapFromEntries (lastWins : Bool) (c : ListCol (Entry κ ν)) : Option (ListCol (κ × ν)) :=
  mapFrom lastWins
    ⟨c.values.map (fun e : Entry κ ν => e.key), c.first, c.rows.map (fun r : Nat × Bool => (r.1, true))⟩
    ⟨c.values.map (fun e : Entry κ ν => e.value), c.first, entryRows c.values c.first c.rows⟩

/-- The keys and the values of the maps of a row one behind the other
(`crates/sail-plan/src/function/scalar/map.rs` 224-251, `map_concat`): a row with a NULL map is
NULL, and the others build a map from the concatenated keys and values.  The columns of the
concatenation start at offset zero because they are made afresh; the CASE around them only
evaluates the function on the rows without a NULL map. -/
def mapConcat (lastWins : Bool) (rows : List (List (Option (List (κ × ν))))) :
    Option (List (Option (List (κ × ν)))) :=
  let kept := rows.filter (fun ms => ms.all Option.isSome)
  let flat := kept.map (fun ms => (ms.map (fun m : Option (List (κ × ν)) => m.getD [])).flatten)
  match mapFrom lastWins
      ⟨(flat.flatten).map (fun e : κ × ν => some e.1), 0, flat.map (fun es => (es.length, true))⟩
      ⟨(flat.flatten).map (fun e : κ × ν => e.2), 0, flat.map (fun es => (es.length, true))⟩ with
  | none => none
  | some c => some (spread rows c.cells)
where
  /-- The results of the rows that were evaluated, at their places. -/
  spread : List (List (Option (List (κ × ν)))) → List (Option (List (κ × ν))) →
      List (Option (List (κ × ν)))
    | [], _ => []
    | ms :: rest, cs =>
      if ms.all Option.isSome then (cs.head?.getD none) :: spread rest cs.tail
      else none :: spread rest cs

end Verif.Arrays
