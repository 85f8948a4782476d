import Verif.Catalog.MemoryProps

/-!
# C83: listings, failed requests, DROP DATABASE and ALTER TABLE
-/

namespace Verif.Catalog

open Spec

variable {α : Type}

/-! ## The shape of the catalog -/

/-- The entries of one database: distinct names, each under its own name. -/
structure Db.Ok (cat : Name) (db : Namespace) (d : Db α) : Prop where
  status : d.status.catalog = cat ∧ d.status.database = db
  tables : Distinct d.tables
  views : Distinct d.views
  table : ∀ n s, (n, s) ∈ d.tables → s.catalog = cat ∧ s.database = db ∧ s.name = n
  view : ∀ n s, (n, s) ∈ d.views → s.catalog = cat ∧ s.database = db ∧ s.name = n

/-- The catalog: distinct databases, each in order. -/
structure Mem.Ok (m : Mem α) : Prop where
  dbs : Distinct m.dbs
  db : ∀ x d, (x, d) ∈ m.dbs → Db.Ok m.name x d

theorem mem_put {κ ν : Type} [DecidableEq κ] {m : List (κ × ν)} {k : κ} {v : ν} {e : κ × ν}
    (h : e ∈ put m k v) : e = (k, v) ∨ e ∈ m := by
  rcases List.mem_cons.1 h with h | h
  · exact .inl h
  · exact .inr (List.mem_filter.1 h).1

theorem Mem.Ok.put {m : Mem α} (h : m.Ok) {x : Namespace} {d : Db α} (hd : Db.Ok m.name x d) :
    Mem.Ok { m with dbs := put m.dbs x d } := by
  refine ⟨h.dbs.put x d, fun y e he => ?_⟩
  rcases mem_put he with he | he
  · cases he
    exact hd
  · exact h.db y e he

theorem Mem.Ok.erase {m : Mem α} (h : m.Ok) (x : Namespace) :
    Mem.Ok { m with dbs := erase m.dbs x } :=
  ⟨h.dbs.erase x, fun y e he => h.db y e (List.mem_filter.1 he).1⟩

theorem Db.Ok.putTable {cat : Name} {x : Namespace} {d : Db α} (h : Db.Ok cat x d) (n : Name)
    (s : Status α) (hs : s.catalog = cat ∧ s.database = x ∧ s.name = n) :
    Db.Ok cat x { d with tables := put d.tables n s } := by
  refine ⟨h.status, h.tables.put n s, h.views, fun k t ht => ?_, h.view⟩
  rcases mem_put ht with ht | ht
  · cases ht
    exact hs
  · exact h.table k t ht

theorem Db.Ok.putView {cat : Name} {x : Namespace} {d : Db α} (h : Db.Ok cat x d) (n : Name)
    (s : Status α) (hs : s.catalog = cat ∧ s.database = x ∧ s.name = n) :
    Db.Ok cat x { d with views := put d.views n s } := by
  refine ⟨h.status, h.tables, h.views.put n s, h.table, fun k t ht => ?_⟩
  rcases mem_put ht with ht | ht
  · cases ht
    exact hs
  · exact h.view k t ht

theorem Db.Ok.eraseTable {cat : Name} {x : Namespace} {d : Db α} (h : Db.Ok cat x d) (n : Name) :
    Db.Ok cat x { d with tables := Catalog.erase d.tables n } :=
  ⟨h.status, h.tables.erase n, h.views, fun k t ht => h.table k t (List.mem_filter.1 ht).1, h.view⟩

theorem Db.Ok.eraseView {cat : Name} {x : Namespace} {d : Db α} (h : Db.Ok cat x d) (n : Name) :
    Db.Ok cat x { d with views := Catalog.erase d.views n } :=
  ⟨h.status, h.tables, h.views.erase n, h.table, fun k t ht => h.view k t (List.mem_filter.1 ht).1⟩

theorem alterStatus_same (nested : α → List Name → α → Option α) (s : Status α) (o : Alter α) :
    (alterStatus nested s o).2.catalog = s.catalog ∧
      (alterStatus nested s o).2.database = s.database ∧
      (alterStatus nested s o).2.name = s.name := by
  simp only [alterStatus]
  repeat' split
  all_goals exact ⟨rfl, rfl, rfl⟩

theorem Mem.Ok.step {m : Mem α} (h : m.Ok) (nested : α → List Name → α → Option α)
    (r : Request α) : (m.step nested r).2.Ok := by
  cases r with
  | createDatabase db ine info =>
    simp only [Mem.step, Mem.createDatabase]
    split
    · split <;> exact h
    · exact h.put ⟨⟨rfl, rfl⟩, List.nodup_nil, List.nodup_nil, (fun _ _ h => nomatch h),
        (fun _ _ h => nomatch h)⟩
  | dropDatabase db ie c =>
    simp only [Mem.step, Mem.dropDatabase]
    split
    · split
      · exact h
      · exact h.erase db
    · split <;> exact h
  | createTable db n o =>
    simp only [Mem.step, Mem.createTable]
    split
    · split
      · exact h
      · rename_i d hd
        have hs := h.put ((h.db _ _ (mem_of_find hd)).putTable n (o.status m.name db n) ⟨rfl, rfl, rfl⟩)
        split
        · split <;> first | exact h | exact hs
        · split
          · exact h
          · exact hs
    · exact h
  | dropTable db n ie =>
    simp only [Mem.step, Mem.dropTable]
    split
    · rename_i d hd
      have hs := h.put ((h.db _ _ (mem_of_find hd)).eraseTable n)
      split <;> exact hs
    · split <;> exact h
  | alterTable db n o =>
    simp only [Mem.step, Mem.alterTable]
    split
    · exact h
    · rename_i d hd
      split
      · exact h
      · rename_i s hs
        have hd' := h.db _ _ (mem_of_find hd)
        have := hd'.table _ _ (mem_of_find hs)
        have ha := alterStatus_same nested s o
        exact h.put (hd'.putTable n _
          ⟨ha.1.trans this.1, ha.2.1.trans this.2.1, ha.2.2.trans this.2.2⟩)
  | createView db n o =>
    simp only [Mem.step, Mem.createView]
    split
    · exact h
    · rename_i d hd
      have hs := h.put ((h.db _ _ (mem_of_find hd)).putView n (o.status m.name db n) ⟨rfl, rfl, rfl⟩)
      repeat' split
      all_goals first | exact h | exact hs
  | dropView db n ie =>
    simp only [Mem.step, Mem.dropView]
    split
    · rename_i d hd
      have hs := h.put ((h.db _ _ (mem_of_find hd)).eraseView n)
      split <;> exact hs
    · split <;> exact h

theorem Mem.Ok.init (name : Name) (db : Namespace) (info : α) : (Mem.init name db info).Ok := by
  refine ⟨List.nodup_cons.2 ⟨List.not_mem_nil, List.nodup_nil⟩, fun x d h => ?_⟩
  cases List.mem_singleton.1 h
  exact ⟨⟨rfl, rfl⟩, List.nodup_nil, List.nodup_nil, (fun _ _ h => nomatch h),
    (fun _ _ h => nomatch h)⟩

theorem Mem.Ok.run {m : Mem α} (h : m.Ok) (nested : α → List Name → α → Option α)
    (rs : List (Request α)) : (m.run nested rs).Ok := by
  induction rs generalizing m with
  | nil => exact h
  | cons r rs ih => exact ih (h.step nested r)

/-! ## Listings -/

/-- Listing a database that exists shows exactly the tables that lookups find, each once and
under its name. -/
theorem C83_list_tables (nested : α → List Name → α → Option α) (name : Name) (first : Namespace)
    (info : α) (rs : List (Request α)) (db : Namespace) :
    let m := (Mem.init name first info).run nested rs
    (∀ l, m.listTables db = .ok l →
      (∀ s, s ∈ l ↔ m.getTable db s.name = .ok s) ∧
      (∀ n s, m.getTable db n = .ok s → s ∈ l ∧ s.name = n) ∧
      (l.map (·.name)).Nodup) ∧
    ((∃ l, m.listTables db = .ok l) ↔ ∃ s, m.getDatabase db = .ok s) := by
  intro m
  have hm : m.Ok := (Mem.Ok.init name first info).run nested rs
  constructor
  · intro l hl
    simp only [Mem.listTables] at hl
    split at hl
    · rename_i d hd
      cases hl
      have hd' := hm.db _ _ (mem_of_find hd)
      have get : ∀ n s, m.getTable db n = .ok s ↔ (n, s) ∈ d.tables := by
        intro n s
        rw [← find_iff hd'.tables, Mem.getTable, hd]
        dsimp only
        cases find d.tables n <;> simp
      refine ⟨fun s => ?_, fun n s h => ?_, ?_⟩
      · rw [get, List.mem_map]
        constructor
        · rintro ⟨e, he, rfl⟩
          have := (hd'.table _ _ he).2.2
          rwa [this]
        · exact fun h => ⟨_, h, rfl⟩
      · exact ⟨List.mem_map.2 ⟨_, (get n s).1 h, rfl⟩, (hd'.table _ _ ((get n s).1 h)).2.2⟩
      · have : (d.tables.map (·.2)).map (·.name) = d.tables.map (·.1) := by
          rw [List.map_map]
          exact List.map_congr_left fun e he => (hd'.table _ _ he).2.2
        rw [this]
        exact hd'.tables
    · exact nomatch hl
  · simp only [Mem.listTables, Mem.getDatabase]
    cases find m.dbs db <;> simp

/-- Listing a database that exists shows exactly the views that lookups find, each once and
under its name. -/
theorem C83_list_views (nested : α → List Name → α → Option α) (name : Name) (first : Namespace)
    (info : α) (rs : List (Request α)) (db : Namespace) :
    let m := (Mem.init name first info).run nested rs
    (∀ l, m.listViews db = .ok l →
      (∀ s, s ∈ l ↔ m.getView db s.name = .ok s) ∧
      (∀ n s, m.getView db n = .ok s → s ∈ l ∧ s.name = n) ∧
      (l.map (·.name)).Nodup) ∧
    ((∃ l, m.listViews db = .ok l) ↔ ∃ s, m.getDatabase db = .ok s) := by
  intro m
  have hm : m.Ok := (Mem.Ok.init name first info).run nested rs
  constructor
  · intro l hl
    simp only [Mem.listViews] at hl
    split at hl
    · rename_i d hd
      cases hl
      have hd' := hm.db _ _ (mem_of_find hd)
      have get : ∀ n s, m.getView db n = .ok s ↔ (n, s) ∈ d.views := by
        intro n s
        rw [← find_iff hd'.views, Mem.getView, hd]
        dsimp only
        cases find d.views n <;> simp
      refine ⟨fun s => ?_, fun n s h => ?_, ?_⟩
      · rw [get, List.mem_map]
        constructor
        · rintro ⟨e, he, rfl⟩
          have := (hd'.view _ _ he).2.2
          rwa [this]
        · exact fun h => ⟨_, h, rfl⟩
      · exact ⟨List.mem_map.2 ⟨_, (get n s).1 h, rfl⟩, (hd'.view _ _ ((get n s).1 h)).2.2⟩
      · have : (d.views.map (·.2)).map (·.name) = d.views.map (·.1) := by
          rw [List.map_map]
          exact List.map_congr_left fun e he => (hd'.view _ _ he).2.2
        rw [this]
        exact hd'.views
    · exact nomatch hl
  · simp only [Mem.listViews, Mem.getDatabase]
    cases find m.dbs db <;> simp

theorem isChildOf_iff (n m : Namespace) :
    n.isChildOf m = true ↔ ∃ last, n.parts = m.parts ++ [last] := by
  have hz : ∀ a b : List Name, (decide (a.length = b.length + 1) &&
      (a.zip b).all fun p => decide (p.1 = p.2)) = true ↔ ∃ x, a = b ++ [x] := by
    intro a
    induction a with
    | nil => intro b; simp
    | cons x a ih =>
      intro b
      cases b with
      | nil =>
        cases a <;> simp
      | cons y b =>
        have := ih b
        simp only [List.length_cons, Nat.add_right_cancel_iff, List.zip_cons_cons, List.all_cons,
          List.cons_append, List.cons.injEq, Bool.and_eq_true, decide_eq_true_eq] at this ⊢
        constructor
        · rintro ⟨h1, h2, h3⟩
          obtain ⟨z, hz⟩ := this.1 ⟨h1, h3⟩
          exact ⟨z, h2, hz⟩
        · rintro ⟨z, h1, h2⟩
          exact ⟨(this.2 ⟨z, h2⟩).1, h1, (this.2 ⟨z, h2⟩).2⟩
  rw [Namespace.isChildOf, Bool.and_assoc, Bool.and_eq_true, hz, decide_eq_true_eq]
  simp only [Namespace.parts, List.cons_append, List.cons.injEq]
  constructor
  · rintro ⟨h, x, hx⟩
    exact ⟨x, h, hx⟩
  · rintro ⟨x, h, hx⟩
    exact ⟨h, x, hx⟩

/-- The parts of a prefix, none without a prefix. -/
def Spec.prefixParts : Option Namespace → List Name
  | some p => p.head :: p.tail
  | none => []

/-- Listing databases under a prefix shows exactly the databases with one more part, without
a prefix exactly those with a single part; each once. -/
theorem C83_list_databases (nested : α → List Name → α → Option α) (name : Name)
    (first : Namespace) (info : α) (rs : List (Request α)) (pre : Option Namespace)
    (s : DbStatus α) :
    let m := (Mem.init name first info).run nested rs
    (s ∈ m.listDatabases pre ↔ m.getDatabase s.database = .ok s ∧
      ∃ last, s.database.parts = Spec.prefixParts pre ++ [last]) ∧
    ((m.listDatabases pre).map (·.database)).Nodup := by
  intro m
  have hm : m.Ok := (Mem.Ok.init name first info).run nested rs
  have get : ∀ x s, m.getDatabase x = .ok s ↔ ∃ d, (x, d) ∈ m.dbs ∧ d.status = s := by
    intro x s
    simp only [← find_iff hm.dbs, Mem.getDatabase]
    cases find m.dbs x <;> simp
  have hk : ∀ x : Namespace, listed pre x = true ↔
      ∃ last, x.parts = Spec.prefixParts pre ++ [last] := by
    intro x
    cases pre with
    | some p => exact isChildOf_iff x p
    | none =>
      simp only [listed, Spec.prefixParts, List.isEmpty_iff, Namespace.parts, List.nil_append, List.cons.injEq]
      exact ⟨fun h => ⟨_, rfl, h⟩, fun ⟨_, _, h⟩ => h⟩
  constructor
  · rw [Mem.listDatabases, List.mem_map, get]
    constructor
    · rintro ⟨e, he, rfl⟩
      rw [List.mem_filter, hk] at he
      have := (hm.db _ _ he.1).status.2
      rw [this]
      exact ⟨⟨_, he.1, rfl⟩, he.2⟩
    · rintro ⟨⟨d, hd, rfl⟩, h⟩
      exact ⟨_, List.mem_filter.2 ⟨hd, (hk _).2 h⟩, rfl⟩
  · have : (m.listDatabases pre).map (·.database) = (m.dbs.filter fun e => listed pre e.1).map (·.1) := by
      rw [Mem.listDatabases, List.map_map]
      exact List.map_congr_left fun e he => (hm.db _ _ (List.mem_filter.1 he).1).status.2
    rw [this]
    exact List.Nodup.sublist (List.Sublist.map _ List.filter_sublist) hm.dbs

/-! ## DROP DATABASE -/

/-- Without CASCADE, a database that has a table or a view is not dropped. -/
theorem C83_drop_keeps_contents (m : Mem α) (db : Namespace) (ie : Bool) (n : Name) (s : Status α)
    (h : m.getTable db n = .ok s ∨ m.getView db n = .ok s) :
    m.dropDatabase db ie false = (.error .invalidArgument, m) := by
  rw [Mem.dropDatabase]
  cases hd : find m.dbs db with
  | none =>
    rcases h with h | h
    · rw [Mem.getTable, hd] at h
      exact nomatch h
    · rw [Mem.getView, hd] at h
      exact nomatch h
  | some d =>
    refine if_pos ?_
    rw [Bool.not_false, Bool.true_and, Bool.or_eq_true, Bool.not_eq_true', Bool.not_eq_true',
      List.isEmpty_eq_false_iff, List.isEmpty_eq_false_iff]
    rcases h with h | h
    · rw [Mem.getTable, hd] at h
      exact .inl fun he => by dsimp only at h; rw [he] at h; exact nomatch h
    · rw [Mem.getView, hd] at h
      exact .inr fun he => by dsimp only at h; rw [he] at h; exact nomatch h

/-- A database that is dropped is gone with all its tables and views, and a database created
under the same name starts empty. -/
theorem C83_drop_and_create (m : Mem α) (db : Namespace) (ie c : Bool)
    (h : (m.dropDatabase db ie c).1 = .ok .done) (ine : Bool) (info : α) :
    let m1 := (m.dropDatabase db ie c).2
    let m2 := (m1.createDatabase db ine info).2
    m1.getDatabase db = .error (.notFound .database) ∧
      (∀ n, m1.getTable db n = .error (.notFound .table)) ∧
      (∀ n, m1.getView db n = .error (.notFound .view)) ∧
      m2.listTables db = .ok [] ∧ m2.listViews db = .ok [] := by
  have h0 : find (m.dropDatabase db ie c).2.dbs db = none := by
    revert h
    rw [Mem.dropDatabase]
    cases hd : find m.dbs db with
    | none =>
      dsimp only
      split
      · exact fun _ => hd
      · exact fun h => nomatch h
    | some d =>
      dsimp only
      split
      · exact fun h => nomatch h
      · intro _
        rw [find_erase, if_pos rfl]
  refine ⟨?_, fun n => ?_, fun n => ?_, ?_, ?_⟩
  · rw [Mem.getDatabase, h0]
  · rw [Mem.getTable, h0]
  · rw [Mem.getView, h0]
  · simp only [Mem.createDatabase, h0, Mem.listTables, find_put, if_true, List.map_nil]
  · simp only [Mem.createDatabase, h0, Mem.listViews, find_put, if_true, List.map_nil]

/-! ## Failed requests -/

theorem unsetProperties_ifExists (keys : List Name) (ps : Properties) :
    (unsetProperties ps true keys).1 = true := by
  induction keys generalizing ps with
  | nil => rfl
  | cons k ks ih =>
    rw [unsetProperties, Bool.not_true, Bool.and_false, if_neg Bool.false_ne_true]
    exact ih _

theorem unsetProperties_fst_one (ps : Properties) (b : Bool) (keys : List Name)
    (h : keys.length ≤ 1 ∨ b = true) :
    (unsetProperties ps b keys).1 = false → (unsetProperties ps b keys).2 = ps := by
  rcases h with h | rfl
  · cases keys with
    | nil => exact fun h => nomatch h
    | cons k ks =>
      cases ks with
      | cons _ _ => simp at h
      | nil =>
        rw [unsetProperties]
        split
        · exact fun _ => rfl
        · exact fun h => nomatch h
  · intro hf
    rw [unsetProperties_ifExists] at hf
    exact nomatch hf

/-- A request that reports an error changes no answer, except that ALTER TABLE unsetting
several properties may have unset the first ones. -/
theorem C83_failed_request_partial (nested : α → List Name → α → Option α) (m : Mem α)
    (r : Request α) (e : Err) (h : (m.step nested r).1 = .error e)
    (hu : ∀ db n keys ie, r = .alterTable db n (.unsetProperties keys ie) →
      keys.length ≤ 1 ∨ ie = true) :
    answers (m.step nested r).2 = answers m := by
  obtain ⟨h1, h2⟩ := C83_request nested m r
  rw [h1] at h
  rw [h2]
  revert h
  generalize answers m = f
  cases r with
  | alterTable db n o =>
    simp only [Spec.step]
    split
    · exact fun _ => rfl
    · cases ht : f.table db n with
      | none => exact fun _ => rfl
      | some s =>
        intro h
        have : (alterStatus nested s o).2 = s := by
          revert h
          simp only [alterStatus]
          cases hk : s.kind with
          | view => exact fun _ => rfl
          | table cs fm pb bb ps r =>
            cases o with
            | setProperties new =>
              dsimp only
              split
              · exact fun h => nomatch h
              · exact fun _ => rfl
            | unsetProperties keys ie =>
              dsimp only
              cases hb : (unsetProperties ps ie keys).1 with
              | true => exact fun h => nomatch h
              | false =>
                intro _
                rw [unsetProperties_fst_one ps ie keys (hu _ _ _ _ rfl) hb, ← hk]
            | columnType p t =>
              dsimp only
              split
              · exact fun h => nomatch h
              · exact fun _ => rfl
            | columnDefault p t =>
              dsimp only
              split
              · exact fun h => nomatch h
              · exact fun _ => rfl
            | addCheck => exact fun _ => rfl
        dsimp only
        rw [this, set_none_self ht]
  | createDatabase db ine info =>
    simp only [Spec.step]
    split
    · exact fun _ => rfl
    · exact fun h => nomatch h
  | dropDatabase db ie c =>
    simp only [Spec.step]
    split
    · exact fun _ => rfl
    · split
      · exact fun _ => rfl
      · exact fun h => nomatch h
  | createTable db n o =>
    simp only [Spec.step]
    repeat' split
    all_goals first | exact fun _ => rfl | exact fun h => nomatch h
  | dropTable db n ie =>
    simp only [Spec.step]
    repeat' split
    all_goals first | exact fun _ => rfl | exact fun h => nomatch h
  | createView db n o =>
    simp only [Spec.step]
    repeat' split
    all_goals first | exact fun _ => rfl | exact fun h => nomatch h
  | dropView db n ie =>
    simp only [Spec.step]
    repeat' split
    all_goals first | exact fun _ => rfl | exact fun h => nomatch h

/-! ## ALTER TABLE -/

theorem find_setProperty (ps : Properties) (k v k' : Name) :
    find (setProperty ps k v) k' = if k = k' then some v else find ps k' := by
  induction ps with
  | nil => simp only [setProperty, find]
  | cons p ps ih =>
    obtain ⟨a, w⟩ := p
    rw [setProperty]
    split_ifs with h1 h2 h2
    · subst h2
      rw [find, if_pos rfl]
    · rw [find, if_neg h2, find, if_neg (fun h => h2 (h1.symm.trans h))]
    · subst h2
      rw [find, if_neg h1, ih, if_pos rfl]
    · rw [find, ih, if_neg h2, find]

/-- SET TBLPROPERTIES: the last value given for a key, and the old value for other keys. -/
theorem C83_set_properties (nested : α → List Name → α → Option α) (s t : Status α)
    (cs : List (Column α)) (f : Name) (pb : List (Name × Bool)) (bb : Option (List Name))
    (ps new : Properties) (r : α) (hs : s.kind = .table cs f pb bb ps r)
    (h : alterStatus nested s (.setProperties new) = (.ok (), t)) :
    ∃ ps', t = { s with kind := .table cs f pb bb ps' r } ∧
      ∀ k, find ps' k = match find new.reverse k with | some v => some v | none => find ps k := by
  rw [alterStatus, hs] at h
  dsimp only at h
  split at h
  · cases h
    rename_i hv
    refine ⟨_, rfl, fun k => ?_⟩
    clear hs hv
    rw [setProperties]
    have : ∀ a b : Properties, find (a ++ b) k = match find a k with
        | some v => some v
        | none => find b k := by
      intro a b
      induction a with
      | nil => rfl
      | cons p a ih =>
        obtain ⟨x, y⟩ := p
        rw [List.cons_append, find, find]
        split
        · rfl
        · exact ih
    induction new generalizing ps with
    | nil => rfl
    | cons p new ih =>
      rw [List.foldl_cons, ih, List.reverse_cons, this, find_setProperty]
      cases find new.reverse k with
      | some v => rfl
      | none =>
        dsimp only
        rw [find]
        split_ifs <;> rfl
  · cases h

/-- UNSET TBLPROPERTIES: the keys are gone, every other property stays. -/
theorem C83_unset_properties (nested : α → List Name → α → Option α) (s t : Status α)
    (cs : List (Column α)) (f : Name) (pb : List (Name × Bool)) (bb : Option (List Name))
    (ps : Properties) (keys : List Name) (ie : Bool) (r : α)
    (hs : s.kind = .table cs f pb bb ps r)
    (h : alterStatus nested s (.unsetProperties keys ie) = (.ok (), t)) :
    t = { s with kind := .table cs f pb bb (ps.filter fun p => decide (p.1 ∉ keys)) r } := by
  have key : ∀ (keys : List Name) (ps : Properties), (unsetProperties ps ie keys).1 = true →
      (unsetProperties ps ie keys).2 = ps.filter fun p => decide (p.1 ∉ keys) := by
    intro keys
    induction keys with
    | nil =>
      intro ps _
      exact (List.filter_eq_self.2 fun p _ => by simp).symm
    | cons k keys ih =>
      intro ps
      rw [unsetProperties]
      split
      · exact fun h => nomatch h
      · intro h
        rw [ih _ h, List.filter_filter]
        refine List.filter_congr fun p _ => ?_
        rw [← Bool.decide_and]
        refine decide_eq_decide.2 ?_
        rw [List.mem_cons, not_or]
        exact And.comm
  rw [alterStatus, hs] at h
  dsimp only at h
  rw [Prod.mk.injEq] at h
  split at h
  · rename_i h'
    rw [← h.2, key keys ps h']
  · exact nomatch h.1

/-- ALTER COLUMN … SET/DROP DEFAULT: the default of the first column with this name, and
nothing else of the table. -/
theorem C83_column_default (nested : α → List Name → α → Option α) (s t : Status α)
    (cs : List (Column α)) (f : Name) (pb : List (Name × Bool)) (bb : Option (List Name))
    (ps : Properties) (path : List Name) (d : Option Name) (r : α)
    (hs : s.kind = .table cs f pb bb ps r)
    (h : alterStatus nested s (.columnDefault path d) = (.ok (), t)) :
    ∃ n before c after, path = [n] ∧ cs = before ++ c :: after ∧ c.name = n ∧
      (∀ b ∈ before, b.name ≠ n) ∧
      t = { s with kind := .table (before ++ { c with default := d } :: after) f pb bb ps r } := by
  have key : ∀ (n : Name) (cs cs' : List (Column α)),
      modifyColumn (fun c => some { c with default := d }) n cs = some cs' →
      ∃ before c after, cs = before ++ c :: after ∧ c.name = n ∧ (∀ b ∈ before, b.name ≠ n) ∧
        cs' = before ++ { c with default := d } :: after := by
    intro n cs
    induction cs with
    | nil => exact fun cs' h => nomatch h
    | cons c cs ih =>
      intro cs' h
      rw [modifyColumn] at h
      split at h
      · rename_i hc
        cases h
        exact ⟨[], c, cs, rfl, hc, (fun _ h => nomatch h), rfl⟩
      · rename_i hc
        cases hm : modifyColumn (fun c => some { c with default := d }) n cs with
        | none =>
          rw [hm] at h
          exact nomatch h
        | some l =>
          rw [hm] at h
          cases h
          obtain ⟨b, c', a, rfl, h2, h3, rfl⟩ := ih l hm
          refine ⟨c :: b, c', a, rfl, h2, ?_, rfl⟩
          intro x hx
          rcases List.mem_cons.1 hx with rfl | hx
          · exact hc
          · exact h3 x hx
  rw [alterStatus, hs] at h
  dsimp only at h
  cases ha : alterColumnDefault cs path d with
  | none =>
    rw [ha] at h
    cases h
  | some cs' =>
    rw [ha] at h
    cases h
    match path, ha with
    | [n], ha =>
      obtain ⟨b, c, a, h1, h2, h3, rfl⟩ := key n cs cs' ha
      exact ⟨n, b, c, a, rfl, h1, h2, h3, rfl⟩

/-- ALTER COLUMN … TYPE: the type of the first column with this name, and nothing else of the
table; inside a column, the type becomes what the change at the rest of the path makes it. -/
theorem C83_column_type (nested : α → List Name → α → Option α) (s t : Status α)
    (cs : List (Column α)) (f : Name) (pb : List (Name × Bool)) (bb : Option (List Name))
    (ps : Properties) (path : List Name) (ty : α) (r : α)
    (hs : s.kind = .table cs f pb bb ps r)
    (h : alterStatus nested s (.columnType path ty) = (.ok (), t)) :
    ∃ n rest before c after ty', path = n :: rest ∧ cs = before ++ c :: after ∧ c.name = n ∧
      (∀ b ∈ before, b.name ≠ n) ∧
      (rest = [] → ty' = ty) ∧ (rest ≠ [] → nested c.type rest ty = some ty') ∧
      t = { s with kind := .table (before ++ { c with type := ty' } :: after) f pb bb ps r } := by
  have key : ∀ (g : α → Option α) (n : Name) (cs cs' : List (Column α)),
      modifyColumn (fun c => (g c.type).map fun t => { c with type := t }) n cs = some cs' →
      ∃ before c after ty', cs = before ++ c :: after ∧ c.name = n ∧ (∀ b ∈ before, b.name ≠ n) ∧
        g c.type = some ty' ∧ cs' = before ++ { c with type := ty' } :: after := by
    intro g n cs
    induction cs with
    | nil => exact fun cs' h => nomatch h
    | cons c cs ih =>
      intro cs' h
      rw [modifyColumn] at h
      split at h
      · rename_i hc
        cases hg : g c.type with
        | none =>
          rw [hg] at h
          exact nomatch h
        | some ty' =>
          rw [hg] at h
          cases h
          exact ⟨[], c, cs, ty', rfl, hc, (fun _ h => nomatch h), hg, rfl⟩
      · rename_i hc
        cases hm : modifyColumn (fun c => (g c.type).map fun t => { c with type := t }) n cs with
        | none =>
          rw [hm] at h
          exact nomatch h
        | some l =>
          rw [hm] at h
          cases h
          obtain ⟨b, c', a, ty', rfl, h2, h3, h4, rfl⟩ := ih l hm
          refine ⟨c :: b, c', a, ty', rfl, h2, ?_, h4, rfl⟩
          intro x hx
          rcases List.mem_cons.1 hx with rfl | hx
          · exact hc
          · exact h3 x hx
  rw [alterStatus, hs] at h
  dsimp only at h
  cases ha : alterColumnType nested cs path ty with
  | none =>
    rw [ha] at h
    cases h
  | some cs' =>
    rw [ha] at h
    cases h
    match path, ha with
    | [n], ha =>
      obtain ⟨b, c, a, ty', h1, h2, h3, h4, rfl⟩ := key (fun _ => some ty) n cs cs' ha
      cases h4
      exact ⟨n, [], b, c, a, ty, rfl, h1, h2, h3, fun _ => rfl, fun h => absurd rfl h, rfl⟩
    | n :: k :: rest, ha =>
      obtain ⟨b, c, a, ty', h1, h2, h3, h4, rfl⟩ :=
        key (fun t => nested t (k :: rest) ty) n cs cs' ha
      exact ⟨n, k :: rest, b, c, a, ty', rfl, h1, h2, h3, (fun h => nomatch h), fun _ => h4, rfl⟩

/-! ## Examples -/

section Examples

/-- A namespace with one part. -/
def single (s : String) : Namespace := ⟨s.toList, []⟩

/-- CREATE TABLE t (id) with two properties, in a mode. -/
def sampleTable (mode : Mode) : TableOptions Nat where
  mode := mode
  columns := [⟨"id".toList, 1, none, 0⟩, ⟨"Day".toList, 2, none, 0⟩]
  format := "parquet".toList
  partitionBy := [("day".toList, false)]
  bucketBy := none
  properties := [("a".toList, "1".toList), ("b".toList, "2".toList)]
  rest := 0

/-- CREATE VIEW. -/
def sampleView : ViewOptions Nat :=
  ⟨false, false, [⟨"id".toList, 1, none, 0⟩], "SELECT 1 AS id".toList, [], 0⟩

/-- Types without parts. -/
def noNested : Nat → List Name → Nat → Option Nat := fun _ _ _ => none

/-- A history with a child database, a table, a view and a table in the child database. -/
def sampleHistory : List (Request Nat) :=
  [.createDatabase ⟨"d".toList, ["e".toList]⟩ false 7,
   .createTable (single "d") "t".toList (sampleTable .create),
   .createView (single "d") "v".toList sampleView,
   .createTable ⟨"d".toList, ["e".toList]⟩ "t".toList (sampleTable .replace),
   .createTable ⟨"d".toList, ["e".toList]⟩ "t".toList (sampleTable .createOrReplace),
   .alterTable (single "d") "t".toList (.columnDefault ["id".toList] (some "0".toList))]

/-- The catalog after the history. -/
def sampleMem : Mem Nat := (Mem.init "c".toList (single "d") 0).run noNested sampleHistory

example : (sampleMem.listTables (single "d")).map (fun l => l.map (·.name)) = .ok ["t".toList] ∧
    (sampleMem.listViews (single "d")).map (fun l => l.map (·.name)) = .ok ["v".toList] ∧
    (sampleMem.listDatabases none).map (·.database) = [single "d"] ∧
    (sampleMem.listDatabases (some (single "d"))).map (·.info) = [7] ∧
    ((sampleMem.getTable (single "d") "t".toList).map fun s => match s.kind with
      | .table cs .. => cs.map fun c => (c.default, c.isPartition)
      | .view .. => []) = .ok [(some "0".toList, false), (none, true)] := by
  decide +kernel

-- DROP DATABASE without CASCADE fails, with CASCADE it leaves the child database.
example : (sampleMem.dropDatabase (single "d") false false).1 = .error .invalidArgument ∧
    (sampleMem.dropDatabase (single "d") false true).1 = .ok .done ∧
    ((sampleMem.dropDatabase (single "d") false true).2.getTable
      ⟨"d".toList, ["e".toList]⟩ "t".toList).isOk = true := by
  decide +kernel

-- A failed request other than an unset of several keys.
example : (sampleMem.step noNested (.createTable (single "d") "t".toList (sampleTable .create))).1 =
    .error (.alreadyExists .table) := by
  decide +kernel

example : ¬TouchesTable (single "d") "t".toList
    (.dropDatabase ⟨"d".toList, ["e".toList]⟩ false true : Request Nat) := by
  simp [TouchesTable, single]

/-- The properties of a table. -/
def Spec.propertiesOf (r : Except Err (Status Nat)) : Properties :=
  match r with
  | .ok s => match s.kind with
    | .table _ _ _ _ ps _ => ps
    | .view .. => []
  | .error _ => []

/-- ALTER TABLE t UNSET TBLPROPERTIES ('a', 'missing') fails and removes the property `a`. -/
theorem C83_failed_unset_removes_property :
    let r : Request Nat := .alterTable (single "d") "t".toList
      (.unsetProperties ["a".toList, "missing".toList] false)
    (sampleMem.step noNested r).1 = .error (.notFound .table) ∧
      propertiesOf (sampleMem.getTable (single "d") "t".toList) =
        [("a".toList, "1".toList), ("b".toList, "2".toList)] ∧
      propertiesOf ((sampleMem.step noNested r).2.getTable (single "d") "t".toList) =
        [("b".toList, "2".toList)] := by
  decide +kernel

/-- A view can be created beside a table of the same name. -/
theorem C83_view_beside_table :
    let m := (sampleMem.createView (single "d") "t".toList sampleView).2
    (m.getTable (single "d") "t".toList).isOk = true ∧
      (m.getView (single "d") "t".toList).isOk = true := by
  decide +kernel

end Examples

end Verif.Catalog
