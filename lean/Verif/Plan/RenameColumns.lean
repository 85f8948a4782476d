/-!
# withColumnsRenamed

Models `resolve_query_with_columns_renamed` of crates/sail-plan/src/resolver/query/column_op.rs (`co`).

Simplifications. A hash map is the list of its entries in the order in which it happens to be iterated; a hash set is a
list. A column is its visible name with its contents.
-/

namespace Verif.Plan.RenameColumns

/-- The sets of the entries of a key; a hash map has at most one. -/
def froms (m : List (String × List String)) (key : String) : List String :=
  (m.filter fun e => e.1 == key).flatMap Prod.snd

/-- A hash map without a key. -/
def without (m : List (String × List String)) (key : String) : List (String × List String) :=
  m.filter fun e => e.1 != key

/-- One pass of the loop over the renamings, co:92-100. -/
def step (m : List (String × List String)) (r : String × String) : List (String × List String) :=
  let rest := without m r.1
  (r.2, List.insert r.1 (froms rest r.2 ++ froms m r.1)) :: without rest r.2

/-- `inverse_map`, co:91-100. -/
def inverse (renames : List (String × String)) : List (String × List String) := renames.foldl step []

/-- The pairs of which the forward map is collected, co:102-104. -/
def pairs (m : List (String × List String)) : List (String × String) :=
  m.flatMap fun e => e.2.map fun f => (f, e.1)

/-- A look-up in the map collected from `l`, co:105 and co:112: the last pair with the key was inserted last. -/
def target (l : List (String × String)) (name : String) : Option String :=
  (l.reverse.find? fun p => p.1 == name).map Prod.snd

/-- The columns after the renaming, co:107-117; `l` is the order in which `inverse_map` and its sets were iterated. -/
def renamed {β : Type} (l : List (String × String)) (columns : List (String × β)) : List (String × β) :=
  columns.map fun c => ((target l c.1).getD c.1, c.2)

end Verif.Plan.RenameColumns
