import Verif.Catalog.Memory

/-!
# C83: the in-memory catalog is a map
-/

namespace Verif.Catalog

variable {α : Type}

namespace Spec

/-- Three independent maps: databases by name, tables and views by database and name. -/
structure Flat (α : Type) where
  name : Name
  db : Namespace → Option (DbStatus α)
  table : Namespace → Name → Option (Status α)
  view : Namespace → Name → Option (Status α)

/-- The map with one entry changed. -/
def set (f : Namespace → Name → Option (Status α)) (db : Namespace) (n : Name)
    (v : Option (Status α)) : Namespace → Name → Option (Status α) :=
  fun x y => if x = db ∧ y = n then v else f x y

/-- The map without the entries of one database. -/
def clear (f : Namespace → Name → Option (Status α)) (db : Namespace) :
    Namespace → Name → Option (Status α) :=
  fun x y => if x = db then none else f x y

open Classical in
/-- What a request answers and changes, in terms of the three maps. The change of a table by
ALTER TABLE is `alter`. -/
noncomputable def step (alter : Status α → Alter α → Except Err Unit × Status α) (f : Flat α) :
    Request α → Except Err (Reply α) × Flat α
  | .createDatabase db ine info =>
    match f.db db with
    | some s => (if ine then .ok (.database s) else .error (.alreadyExists .database), f)
    | none => (.ok (.database ⟨f.name, db, info⟩),
        { f with db := fun x => if x = db then some ⟨f.name, db, info⟩ else f.db x })
  | .dropDatabase db ie cascade =>
    if f.db db = none then (if ie then .ok .done else .error (.notFound .database), f)
    else if cascade = false ∧ ∃ n, f.table db n ≠ none ∨ f.view db n ≠ none then
      (.error .invalidArgument, f)
    else (.ok .done,
      { f with
        db := fun x => if x = db then none else f.db x
        table := clear f.table db
        view := clear f.view db })
  | .createTable db n o =>
    if o.valid = false then (.error .notSupported, f)
    else if f.db db = none then (.error (.notFound .database), f)
    else
      match f.table db n, o.mode with
      | some s, .createIfNotExists => (.ok (.object s), f)
      | some _, .create => (.error (.alreadyExists .table), f)
      | none, .replace => (.error (.notFound .table), f)
      | _, _ => (.ok (.object (o.status f.name db n)),
          { f with table := set f.table db n (some (o.status f.name db n)) })
  | .dropTable db n ie =>
    if f.db db = none then (if ie then .ok .done else .error (.notFound .database), f)
    else
      match f.table db n with
      | none => (if ie then .ok .done else .error (.notFound .table), f)
      | some _ => (.ok .done, { f with table := set f.table db n none })
  | .alterTable db n o =>
    if f.db db = none then (.error (.notFound .database), f)
    else
      match f.table db n with
      | none => (.error (.notFound .table), f)
      | some s => ((alter s o).1.map fun _ => .done,
          { f with table := set f.table db n (some (alter s o).2) })
  | .createView db n o =>
    if f.db db = none then (.error (.notFound .database), f)
    else
      match f.view db n, o.ifNotExists, o.replace with
      | some s, true, _ => (.ok (.object s), f)
      | some _, false, false => (.error (.alreadyExists .view), f)
      | _, _, _ => (.ok (.object (o.status f.name db n)),
          { f with view := set f.view db n (some (o.status f.name db n)) })
  | .dropView db n ie =>
    if f.db db = none then (if ie then .ok .done else .error (.notFound .database), f)
    else
      match f.view db n with
      | none => (if ie then .ok .done else .error (.notFound .view), f)
      | some _ => (.ok .done, { f with view := set f.view db n none })

/-- A history in terms of the three maps. -/
noncomputable def run (alter : Status α → Alter α → Except Err Unit × Status α) (f : Flat α)
    (rs : List (Request α)) : Flat α :=
  rs.foldl (fun f r => (step alter f r).2) f

/-- The three maps that lookups in a catalog show. -/
def answers (m : Mem α) : Flat α where
  name := m.name
  db x := match m.getDatabase x with | .ok s => some s | .error _ => none
  table x y := match m.getTable x y with | .ok s => some s | .error _ => none
  view x y := match m.getView x y with | .ok s => some s | .error _ => none

theorem Flat.ext' {f g : Flat α} (h1 : f.name = g.name) (h2 : ∀ x, f.db x = g.db x)
    (h3 : ∀ x y, f.table x y = g.table x y) (h4 : ∀ x y, f.view x y = g.view x y) : f = g := by
  obtain ⟨a, b, c, d⟩ := f
  obtain ⟨a', b', c', d'⟩ := g
  obtain rfl : a = a' := h1
  obtain rfl : b = b' := funext h2
  obtain rfl : c = c' := funext fun x => funext (h3 x)
  obtain rfl : d = d' := funext fun x => funext (h4 x)
  rfl

end Spec

open Spec

theorem answers_db (m : Mem α) (x : Namespace) :
    (answers m).db x = (find m.dbs x).map (·.status) := by
  simp only [answers, Mem.getDatabase]
  cases find m.dbs x <;> rfl

theorem answers_table (m : Mem α) (x : Namespace) (y : Name) :
    (answers m).table x y = (find m.dbs x).bind fun d => find d.tables y := by
  simp only [answers, Mem.getTable]
  cases find m.dbs x with
  | none => rfl
  | some d =>
    simp only [Option.bind_some]
    cases find d.tables y <;> rfl

theorem answers_view (m : Mem α) (x : Namespace) (y : Name) :
    (answers m).view x y = (find m.dbs x).bind fun d => find d.views y := by
  simp only [answers, Mem.getView]
  cases find m.dbs x with
  | none => rfl
  | some d =>
    simp only [Option.bind_some]
    cases find d.views y <;> rfl

theorem answers_put_tables {m : Mem α} {db : Namespace} {d : Db α} (hd : find m.dbs db = some d)
    (n : Name) (v : Option (Status α)) (ts : List (Name × Status α))
    (hts : ∀ y, find ts y = if n = y then v else find d.tables y) :
    answers { m with dbs := put m.dbs db { d with tables := ts } } =
      { answers m with table := Spec.set (answers m).table db n v } := by
  apply Flat.ext'
  · rfl
  · intro x
    simp only [answers_db, find_put]
    split_ifs with h
    · subst h
      rw [hd]
      rfl
    · rfl
  · intro x y
    simp only [answers_table, find_put, Spec.set]
    by_cases h : db = x
    · subst h
      simp only [if_true, true_and, Option.bind_some, hts, hd, eq_comm (a := y)]
    · rw [if_neg h, if_neg (fun h' => h h'.1.symm)]
  · intro x y
    simp only [answers_view, find_put]
    split_ifs with h
    · subst h
      rw [hd]
      rfl
    · rfl

theorem answers_put_views {m : Mem α} {db : Namespace} {d : Db α} (hd : find m.dbs db = some d)
    (n : Name) (v : Option (Status α)) (ts : List (Name × Status α))
    (hts : ∀ y, find ts y = if n = y then v else find d.views y) :
    answers { m with dbs := put m.dbs db { d with views := ts } } =
      { answers m with view := Spec.set (answers m).view db n v } := by
  apply Flat.ext'
  · rfl
  · intro x
    simp only [answers_db, find_put]
    split_ifs with h
    · subst h
      rw [hd]
      rfl
    · rfl
  · intro x y
    simp only [answers_table, find_put]
    split_ifs with h
    · subst h
      rw [hd]
      rfl
    · rfl
  · intro x y
    simp only [answers_view, find_put, Spec.set]
    by_cases h : db = x
    · subst h
      simp only [if_true, true_and, Option.bind_some, hts, hd, eq_comm (a := y)]
    · rw [if_neg h, if_neg (fun h' => h h'.1.symm)]

theorem set_none_self {f : Namespace → Name → Option (Status α)} {db : Namespace} {n : Name}
    {v : Option (Status α)} (h : f db n = v) : Spec.set f db n v = f := by
  funext x y
  rw [Spec.set]
  split_ifs with h'
  · rw [h'.1, h'.2, h]
  · rfl

/-- Every request answers and changes what it answers and changes in the three maps. -/
theorem C83_request (nested : α → List Name → α → Option α) (m : Mem α) (r : Request α) :
    (m.step nested r).1 = (Spec.step (alterStatus nested) (answers m) r).1 ∧
      answers (m.step nested r).2 = (Spec.step (alterStatus nested) (answers m) r).2 := by
  cases r with
  | createDatabase db ine info =>
    simp only [Mem.step, Mem.createDatabase, Spec.step, answers_db]
    cases hd : find m.dbs db with
    | some d => cases ine <;> exact ⟨rfl, rfl⟩
    | none =>
      simp only [Option.map_none]
      refine ⟨rfl, ?_⟩
      apply Flat.ext'
      · rfl
      · intro x
        simp only [answers_db, find_put, eq_comm (a := x)]
        split_ifs <;> rfl
      · intro x y
        simp only [answers_table, find_put]
        split_ifs with h
        · subst h
          rw [hd]
          rfl
        · rfl
      · intro x y
        simp only [answers_view, find_put]
        split_ifs with h
        · subst h
          rw [hd]
          rfl
        · rfl
  | dropDatabase db ie cascade =>
    simp only [Mem.step, Mem.dropDatabase, Spec.step]
    rw [answers_db]
    cases hd : find m.dbs db with
    | none => cases ie <;> exact ⟨rfl, rfl⟩
    | some d =>
      have he : (∃ n, (answers m).table db n ≠ none ∨ (answers m).view db n ≠ none) ↔
          (!d.tables.isEmpty || !d.views.isEmpty) = true := by
        simp only [answers_table, answers_view, hd, Option.bind_some]
        rw [Bool.or_eq_true, Bool.not_eq_true', Bool.not_eq_true']
        rw [List.isEmpty_eq_false_iff, List.isEmpty_eq_false_iff]
        rw [ne_eq, ne_eq, find_nil_iff, find_nil_iff, Classical.not_forall, Classical.not_forall,
          ← exists_or]
      have key : answers { m with dbs := erase m.dbs db } =
          { answers m with
            db := fun x => if x = db then none else (answers m).db x
            table := Spec.clear (answers m).table db
            view := Spec.clear (answers m).view db } := by
        refine Flat.ext' rfl (fun x => ?_) (fun x y => ?_) (fun x y => ?_)
        · simp only [answers_db, find_erase, eq_comm (a := x)]
          split_ifs <;> rfl
        · simp only [answers_table, find_erase, Spec.clear, eq_comm (a := x)]
          split_ifs <;> rfl
        · simp only [answers_view, find_erase, Spec.clear, eq_comm (a := x)]
          split_ifs <;> rfl
      rw [if_neg (fun h : Option.map (fun x : Db α => x.status) (some d) = none => nomatch h)]
      dsimp only
      by_cases h : cascade = false ∧ ∃ n, (answers m).table db n ≠ none ∨ (answers m).view db n ≠ none
      · rw [if_pos h, if_pos (by rw [h.1, ← he.1 h.2]; rfl)]
        exact ⟨rfl, rfl⟩
      · rw [if_neg h, if_neg]
        · exact ⟨rfl, key⟩
        · intro h'
          rw [Bool.and_eq_true, Bool.not_eq_true'] at h'
          exact h ⟨h'.1, he.2 h'.2⟩
  | createTable db n o =>
    simp only [Mem.step, Mem.createTable, Spec.step, answers_db, answers_table]
    cases hv : o.valid with
    | false => exact ⟨rfl, rfl⟩
    | true =>
      simp only [if_true, reduceCtorEq, if_false]
      cases hd : find m.dbs db with
      | none => exact ⟨rfl, rfl⟩
      | some d =>
        have key := answers_put_tables hd n (some (o.status m.name db n)) _
          (fun y => find_put d.tables n y (o.status m.name db n))
        simp only [Option.map_some, reduceCtorEq, if_false, Option.bind_some]
        cases ht : find d.tables n with
        | some s => cases o.mode <;> first | exact ⟨rfl, rfl⟩ | exact ⟨rfl, key⟩
        | none => cases o.mode <;> first | exact ⟨rfl, rfl⟩ | exact ⟨rfl, key⟩
  | dropTable db n ie =>
    simp only [Mem.step, Mem.dropTable, Spec.step, answers_db, answers_table]
    cases hd : find m.dbs db with
    | none => cases ie <;> exact ⟨rfl, rfl⟩
    | some d =>
      have key := answers_put_tables hd n none _ (fun y => find_erase d.tables n y)
      simp only [Option.map_some, reduceCtorEq, if_false, Option.bind_some]
      cases ht : find d.tables n with
      | some s => exact ⟨rfl, key⟩
      | none =>
        have h0 : (answers m).table db n = none := by
          rw [answers_table, hd, Option.bind_some, ht]
        rw [set_none_self h0] at key
        cases ie <;> exact ⟨rfl, key⟩
  | alterTable db n o =>
    simp only [Mem.step, Mem.alterTable, Spec.step, answers_db, answers_table]
    cases hd : find m.dbs db with
    | none => exact ⟨rfl, rfl⟩
    | some d =>
      simp only [Option.map_some, reduceCtorEq, if_false, Option.bind_some]
      cases ht : find d.tables n with
      | none => exact ⟨rfl, rfl⟩
      | some s =>
        exact ⟨rfl, answers_put_tables hd n (some (alterStatus nested s o).2) _
          (fun y => find_put d.tables n y _)⟩
  | createView db n o =>
    simp only [Mem.step, Mem.createView, Spec.step, answers_db, answers_view]
    cases hd : find m.dbs db with
    | none => exact ⟨rfl, rfl⟩
    | some d =>
      have key := answers_put_views hd n (some (o.status m.name db n)) _
        (fun y => find_put d.views n y (o.status m.name db n))
      simp only [Option.map_some, reduceCtorEq, if_false, Option.bind_some]
      cases ht : find d.views n with
      | some s =>
        cases o.ifNotExists <;> cases o.replace <;> first | exact ⟨rfl, rfl⟩ | exact ⟨rfl, key⟩
      | none => exact ⟨rfl, key⟩
  | dropView db n ie =>
    simp only [Mem.step, Mem.dropView, Spec.step, answers_db, answers_view]
    cases hd : find m.dbs db with
    | none => cases ie <;> exact ⟨rfl, rfl⟩
    | some d =>
      have key := answers_put_views hd n none _ (fun y => find_erase d.views n y)
      simp only [Option.map_some, reduceCtorEq, if_false, Option.bind_some]
      cases ht : find d.views n with
      | some s => exact ⟨rfl, key⟩
      | none =>
        have h0 : (answers m).view db n = none := by
          rw [answers_view, hd, Option.bind_some, ht]
        rw [set_none_self h0] at key
        cases ie <;> exact ⟨rfl, key⟩

/-- After any history of requests, the lookups answer as the three maps do after the same
history. -/
theorem C83_history (nested : α → List Name → α → Option α) (m : Mem α) (rs : List (Request α)) :
    answers (m.run nested rs) = Spec.run (alterStatus nested) (answers m) rs := by
  induction rs generalizing m with
  | nil => rfl
  | cons r rs ih =>
    rw [Mem.run, List.foldl_cons, ← Mem.run, ih, Spec.run, Spec.run, List.foldl_cons,
      (C83_request nested m r).2]

/-- The first database of a catalog, and nothing else. -/
theorem C83_initial (name : Name) (db : Namespace) (info : α) :
    (∀ x, (answers (Mem.init name db info)).db x = if x = db then some ⟨name, db, info⟩ else none) ∧
      (∀ x y, (answers (Mem.init name db info)).table x y = none) ∧
      ∀ x y, (answers (Mem.init name db info)).view x y = none := by
  refine ⟨fun x => ?_, fun x y => ?_, fun x y => ?_⟩
  · simp only [answers_db, Mem.init, find, eq_comm (a := x)]
    split_ifs <;> rfl
  · simp only [answers_table, Mem.init, find]
    split_ifs <;> rfl
  · simp only [answers_view, Mem.init, find]
    split_ifs <;> rfl

/-! ## What a request leaves alone -/

namespace Spec

/-- The requests that may change a table. -/
def TouchesTable (db : Namespace) (n : Name) : Request α → Prop
  | .dropDatabase db' _ _ => db' = db
  | .createTable db' n' _ => db' = db ∧ n' = n
  | .dropTable db' n' _ => db' = db ∧ n' = n
  | .alterTable db' n' _ => db' = db ∧ n' = n
  | _ => False

/-- The requests that may change a view. -/
def TouchesView (db : Namespace) (n : Name) : Request α → Prop
  | .dropDatabase db' _ _ => db' = db
  | .createView db' n' _ => db' = db ∧ n' = n
  | .dropView db' n' _ => db' = db ∧ n' = n
  | _ => False

/-- The requests that may change a database. -/
def TouchesDatabase (db : Namespace) : Request α → Prop
  | .createDatabase db' _ _ => db' = db
  | .dropDatabase db' _ _ => db' = db
  | _ => False

end Spec

theorem set_ne {f : Namespace → Name → Option (Status α)} {db x : Namespace} {n y : Name}
    {v : Option (Status α)} (h : ¬(db = x ∧ n = y)) : Spec.set f db n v x y = f x y := by
  rw [Spec.set, if_neg (fun h' => h ⟨h'.1.symm, h'.2.symm⟩)]

theorem clear_ne {f : Namespace → Name → Option (Status α)} {db x : Namespace} {y : Name}
    (h : ¬db = x) : Spec.clear f db x y = f x y := by
  rw [Spec.clear, if_neg (fun h' => h h'.symm)]

/-- A table changes only by a request that names it, or by dropping its own database: the
tables of child databases, in particular, stay. -/
theorem C83_other_tables_stay (nested : α → List Name → α → Option α) (m : Mem α) (r : Request α)
    (db : Namespace) (n : Name) (h : ¬TouchesTable db n r) :
    (answers (m.step nested r).2).table db n = (answers m).table db n := by
  rw [(C83_request nested m r).2]
  generalize answers m = f
  cases r <;> simp only [Spec.step, TouchesTable] at h ⊢ <;> (repeat' split) <;>
    first | rfl | exact set_ne h | exact clear_ne h

/-- A view changes only by a request that names it, or by dropping its own database. -/
theorem C83_other_views_stay (nested : α → List Name → α → Option α) (m : Mem α) (r : Request α)
    (db : Namespace) (n : Name) (h : ¬TouchesView db n r) :
    (answers (m.step nested r).2).view db n = (answers m).view db n := by
  rw [(C83_request nested m r).2]
  generalize answers m = f
  cases r <;> simp only [Spec.step, TouchesView] at h ⊢ <;> (repeat' split) <;>
    first | rfl | exact set_ne h | exact clear_ne h

/-- A database changes only by a request that names it. -/
theorem C83_other_databases_stay (nested : α → List Name → α → Option α) (m : Mem α)
    (r : Request α) (db : Namespace) (h : ¬TouchesDatabase db r) :
    (answers (m.step nested r).2).db db = (answers m).db db := by
  rw [(C83_request nested m r).2]
  generalize answers m = f
  cases r <;> simp only [Spec.step, TouchesDatabase] at h ⊢ <;> (repeat' split) <;>
    first | rfl | exact if_neg (fun h' => h h'.symm)

end Verif.Catalog
