/-!
# Upgrading the protocol of a Delta table

Models `Protocol` and its upgrade in crates/sail-delta-lake/src/spec/protocol.rs.
-/

namespace Verif.Delta.Upgrade

/-- `TableFeature`, spec/protocol.rs:27-68: the features that legacy versions imply; all others are
known by their names. -/
inductive Feature where
  | appendOnly
  | invariants
  | checkConstraints
  | changeDataFeed
  | generatedColumns
  | columnMapping
  | identityColumns
  | other (name : String)
  deriving Repr, DecidableEq

/-- `Protocol`, spec/protocol.rs:334-342. -/
structure Protocol where
  reader : Int
  writer : Int
  readerFeatures : Option (List Feature)
  writerFeatures : Option (List Feature)
  deriving Repr, DecidableEq

/-- `push_writer_feature` and the pushes to the reader features, spec/protocol.rs:407-411. -/
def push (fs : List Feature) (f : Feature) : List Feature :=
  if fs.contains f then fs else fs ++ [f]

/-- `if condition { push(feature) }`. -/
def pushIf (c : Bool) (f : Feature) (fs : List Feature) : List Feature :=
  if c then push fs f else fs

/-- The reader features of `table_features_for_upgrade`, spec/protocol.rs:394-433. -/
def readerForUpgrade (p : Protocol) : List Feature :=
  let rs := p.readerFeatures.getD []
  let ws := p.writerFeatures.getD []
  if p.writer ≥ 7 then
    pushIf (decide (p.reader = 2) && ws.contains .columnMapping) .columnMapping rs
  else pushIf (decide (p.reader ≥ 2) && decide (p.writer ≥ 5)) .columnMapping rs

/-- The writer features of `table_features_for_upgrade`, spec/protocol.rs:394-433. -/
def writerForUpgrade (p : Protocol) : List Feature :=
  let ws := p.writerFeatures.getD []
  if p.writer ≥ 7 then ws
  else
    pushIf (decide (p.writer ≥ 6)) .identityColumns
      (pushIf (decide (p.reader ≥ 2) && decide (p.writer ≥ 5)) .columnMapping
        (pushIf (decide (p.writer ≥ 4)) .generatedColumns
          (pushIf (decide (p.writer ≥ 4)) .changeDataFeed
            (pushIf (decide (p.writer ≥ 3)) .checkConstraints
              (pushIf (decide (p.writer ≥ 2)) .invariants
                (pushIf (decide (p.writer ≥ 2)) .appendOnly ws))))))

/-- `append_requirements`, spec/protocol.rs:449-455. -/
def appendReq (fs required : List Feature) : List Feature :=
  required.foldl push fs

/-- `merge_upgrade_requirements`, spec/protocol.rs:438-476. -/
def merge (self req : Protocol) : Protocol :=
  let r := max self.reader req.reader
  let w := max self.writer req.writer
  { reader := r, writer := w,
    readerFeatures :=
      if r ≥ 3 then some (appendReq (readerForUpgrade self) (readerForUpgrade req)) else self.readerFeatures,
    writerFeatures :=
      if w ≥ 7 then some (appendReq (writerForUpgrade self) (writerForUpgrade req)) else self.writerFeatures }

end Verif.Delta.Upgrade
