import Verif.Catalog.Assoc

/-!
# Metadata locations of catalog-managed tables

`sail-common-datafusion/src/catalog/managed.rs` and
`sail-catalog-memory/src/managed_table.rs`.
-/

namespace Verif.Catalog

/-- A Rust string as its characters. -/
abbrev Name := List Char

/-- Table properties in the order in which they were set. -/
abbrev Properties := List (Name × Name)

/-- `str::eq_ignore_ascii_case`. -/
def eqIgnoreCase (a b : Name) : Bool := a.map Char.toLower == b.map Char.toLower

/-- The characters with the Unicode property White_Space, as trimmed by `str::trim`. -/
def isSpace (c : Char) : Bool :=
  let n := c.toNat
  (9 ≤ n && n ≤ 13) || n == 32 || n == 0x85 || n == 0xA0 || n == 0x1680 ||
    (0x2000 ≤ n && n ≤ 0x200A) || n == 0x2028 || n == 0x2029 || n == 0x202F || n == 0x205F ||
    n == 0x3000

/-- `str::trim`. -/
def trim (s : Name) : Name := ((s.dropWhile isSpace).reverse.dropWhile isSpace).reverse

/-- `METADATA_LOCATION_KEY` (managed.rs:3). -/
def hyphenKey : Name := "metadata-location".toList

/-- `METADATA_LOCATION_UNDERSCORE_KEY` (managed.rs:4). -/
def underscoreKey : Name := "metadata_location".toList

/-- `PREVIOUS_METADATA_LOCATION_KEY` (managed.rs:7). -/
def previousKey : Name := "previous_metadata_location".toList

/-- `is_metadata_location_key` (managed.rs:14-18). -/
def isLocationKey (k : Name) : Bool := eqIgnoreCase k hyphenKey || eqIgnoreCase k underscoreKey

/-- `property_value` (managed.rs:29-37). -/
def propertyValue (ps : Properties) (k : Name) : Option Name :=
  (ps.find? fun p => eqIgnoreCase (trim p.1) k).map (·.2)

/-- `metadata_location_value` (managed.rs:39-48). -/
def locationValue (ps : Properties) : Option Name :=
  match propertyValue ps hyphenKey with
  | some v => some v
  | none => propertyValue ps underscoreKey

/-- `metadata_location_update` (managed.rs:50-55). -/
def locationUpdate (ps : Properties) : Option Name :=
  (ps.find? fun p => isLocationKey p.1).map (·.2)

/-- `previous_metadata_location_update` (managed.rs:57-62). -/
def previousUpdate (ps : Properties) : Option Name :=
  (ps.find? fun p => eqIgnoreCase p.1 previousKey).map (·.2)

/-- `existing_metadata_location_key` (managed.rs:64-69). -/
def existingKey (ps : Properties) : Option Name :=
  (ps.find? fun p => isLocationKey p.1).map (·.1)

/-- `validate_metadata_location_precondition` (managed_table.rs:6-29): false is the
`Conflict` error. -/
def validLocation (current new : Properties) : Bool :=
  match previousUpdate new with
  | none => true
  | some expected =>
    if (locationUpdate new).isNone then true else decide (locationValue current = some expected)

/-- One round of the loop over the new properties in `alter_table`
(sail-catalog-memory/src/provider.rs:349-355): the first entry with the key is overwritten,
and the pair is appended when there is none. -/
def setProperty (ps : Properties) (k v : Name) : Properties :=
  match ps with
  | [] => [(k, v)]
  | (k', v') :: ps => if k' = k then (k, v) :: ps else (k', v') :: setProperty ps k v

/-- The loop over the new properties (provider.rs:349-355). -/
def setProperties (ps new : Properties) : Properties :=
  new.foldl (fun ps p => setProperty ps p.1 p.2) ps

/-- The properties that `update_metadata_location`
(sail-iceberg/src/catalog_support/commit.rs:229-255) sends to the catalog. -/
def commitUpdate (existing : Properties) (previous : Option Name) (new : Name) : Properties :=
  ((existingKey existing).getD underscoreKey, new) ::
    match previous with
    | none => []
    | some p => [(previousKey, p)]

end Verif.Catalog
