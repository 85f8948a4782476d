import Verif.Catalog.ManagerProps

/-!
# C83 and C84: contents of new objects, and listings of databases
-/

namespace Verif.Catalog

variable {α : Type}

namespace Spec

/-- The same name without regard to the case of ASCII letters. -/
def SameIgnoringCase (a b : Name) : Prop := a.map Char.toLower = b.map Char.toLower

end Spec

open Spec

theorem eqIgnoreCase_iff (a b : Name) : eqIgnoreCase a b = true ↔ SameIgnoringCase a b := by
  simp [eqIgnoreCase, SameIgnoringCase]

/-- A table can be created unless it has a partition transform and its format is not Iceberg. -/
theorem C83_new_table_refused (m : Mem α) (db : Namespace) (name : Name) (o : TableOptions α) :
    (m.createTable db name o).1 = .error .notSupported ↔
      (∃ p ∈ o.partitionBy, p.2 = true) ∧ ¬ SameIgnoringCase o.format "iceberg".toList := by
  have hv : o.valid = false ↔
      (∃ p ∈ o.partitionBy, p.2 = true) ∧ ¬ SameIgnoringCase o.format "iceberg".toList := by
    rw [TableOptions.valid, Bool.or_eq_false_iff, ← Bool.not_eq_true, eqIgnoreCase_iff]
    simp only [Bool.not_eq_false', List.any_eq_true]
    exact And.comm
  rw [← hv, Mem.createTable]
  cases hx : o.valid with
  | false => simp
  | true =>
    simp only [if_true, Bool.true_eq_false, iff_false]
    split
    · exact fun h => nomatch h
    · split
      · split <;> exact fun h => nomatch h
      · split <;> exact fun h => nomatch h

example : (∃ p ∈ [("a".toList, false), ("b".toList, true)], p.2 = true) ∧
    ¬ SameIgnoringCase "parquet".toList "iceberg".toList := ⟨⟨("b".toList, true), by decide, rfl⟩, by
  unfold SameIgnoringCase; decide⟩

/-- A new table is found under its name with the columns as given; a column is marked as a
partition or bucket column exactly when it is named as one, without regard to case. -/
theorem C83_new_table (m : Mem α) (db : Namespace) (name : Name) (o : TableOptions α) (s : Status α)
    (h : (m.createTable db name o).1 = .ok (.object s)) :
    (m.getTable db name = .ok s ∧ (m.createTable db name o).2 = m ∧ o.mode = .createIfNotExists) ∨
    ((m.createTable db name o).2.getTable db name = .ok s ∧
      s.catalog = m.name ∧ s.database = db ∧ s.name = name ∧
      ∃ cs : List (Column α),
        s.kind = .table cs o.format o.partitionBy o.bucketBy o.properties o.rest ∧
        cs.length = o.columns.length ∧
        ∀ (i : Nat) (c : Column α) (n : NewColumn α), cs[i]? = some c → o.columns[i]? = some n →
          c.name = n.name ∧ c.type = n.type ∧ c.default = n.default ∧ c.rest = n.rest ∧
          (c.isPartition = true ↔ ∃ p ∈ o.partitionBy, SameIgnoringCase p.1 n.name) ∧
          (c.isBucket = true ↔ ∃ bs, o.bucketBy = some bs ∧ ∃ b ∈ bs, SameIgnoringCase b n.name)) := by
  have key : ∀ d : Db α, Mem.getTable { m with
        dbs := put m.dbs db { d with tables := put d.tables name (o.status m.name db name) } } db name =
      .ok (o.status m.name db name) := by
    intro d
    simp only [Mem.getTable, find_put, if_true]
  have st : (o.status m.name db name).catalog = m.name ∧ (o.status m.name db name).database = db ∧
      (o.status m.name db name).name = name ∧
      ∃ cs : List (Column α), (o.status m.name db name).kind =
          .table cs o.format o.partitionBy o.bucketBy o.properties o.rest ∧
        cs.length = o.columns.length ∧
        ∀ (i : Nat) (c : Column α) (n : NewColumn α), cs[i]? = some c → o.columns[i]? = some n →
          c.name = n.name ∧ c.type = n.type ∧ c.default = n.default ∧ c.rest = n.rest ∧
          (c.isPartition = true ↔ ∃ p ∈ o.partitionBy, SameIgnoringCase p.1 n.name) ∧
          (c.isBucket = true ↔ ∃ bs, o.bucketBy = some bs ∧ ∃ b ∈ bs, SameIgnoringCase b n.name) := by
    refine ⟨rfl, rfl, rfl, o.columnStatuses, rfl, by simp [TableOptions.columnStatuses], ?_⟩
    intro i c n hc hn
    simp only [TableOptions.columnStatuses, List.getElem?_map, hn, Option.map_some,
      Option.some.injEq] at hc
    subst hc
    refine ⟨rfl, rfl, rfl, rfl, ?_, ?_⟩
    · simp only [List.any_eq_true, eqIgnoreCase_iff]
    · cases o.bucketBy with
      | none => simp
      | some bs => simp only [List.any_eq_true, eqIgnoreCase_iff, Option.some.injEq, exists_eq_left']
  rw [Mem.createTable] at h ⊢
  split at h
  · rename_i hv
    rw [if_pos hv]
    cases hd : find m.dbs db with
    | none => rw [hd] at h; exact nomatch h
    | some d =>
      rw [hd] at h
      simp only at h ⊢
      cases ht : find d.tables name with
      | none =>
        rw [ht] at h
        simp only at h ⊢
        split at h
        · exact nomatch h
        · rename_i hm
          rw [if_neg hm]
          cases h
          exact .inr ⟨key d, st⟩
      | some old =>
        rw [ht] at h
        simp only at h ⊢
        cases hmode : o.mode with
        | createIfNotExists =>
          rw [hmode] at h
          cases h
          refine .inl ⟨?_, rfl, rfl⟩
          simp only [Mem.getTable, hd, ht]
        | createOrReplace =>
          rw [hmode] at h
          cases h
          exact .inr ⟨key d, st⟩
        | replace =>
          rw [hmode] at h
          cases h
          exact .inr ⟨key d, st⟩
        | create => rw [hmode] at h; exact nomatch h
  · exact nomatch h

example : ∃ s, ((Mem.init "c".toList ⟨"d".toList, []⟩ 0).createTable ⟨"d".toList, []⟩ "t".toList
    { mode := .create, columns := [⟨"A".toList, 1, some "7".toList, 2⟩], format := "delta".toList,
      partitionBy := [("a".toList, false)], bucketBy := none, properties := [], rest := 0 }).1 =
    .ok (.object s) := ⟨_, rfl⟩

/-- A new view has the columns as given, without defaults, partitions and buckets. -/
theorem C83_new_view (m : Mem α) (db : Namespace) (name : Name) (o : ViewOptions α) (s : Status α)
    (h : (m.createView db name o).1 = .ok (.object s)) :
    (m.getView db name = .ok s ∧ (m.createView db name o).2 = m ∧ o.ifNotExists = true) ∨
    ((m.createView db name o).2.getView db name = .ok s ∧
      s.catalog = m.name ∧ s.database = db ∧ s.name = name ∧
      ∃ cs : List (Column α), s.kind = .view cs o.definition o.properties o.rest ∧
        cs.length = o.columns.length ∧
        ∀ (i : Nat) (c : Column α) (n : NewColumn α), cs[i]? = some c → o.columns[i]? = some n →
          c = ⟨n.name, n.type, none, false, false, n.rest⟩) := by
  have st : (o.status m.name db name).catalog = m.name ∧ (o.status m.name db name).database = db ∧
      (o.status m.name db name).name = name ∧
      ∃ cs : List (Column α), (o.status m.name db name).kind = .view cs o.definition o.properties o.rest ∧
        cs.length = o.columns.length ∧
        ∀ (i : Nat) (c : Column α) (n : NewColumn α), cs[i]? = some c → o.columns[i]? = some n →
          c = ⟨n.name, n.type, none, false, false, n.rest⟩ := by
    refine ⟨rfl, rfl, rfl, o.columns.map fun c => ⟨c.name, c.type, none, false, false, c.rest⟩, rfl,
      by simp, ?_⟩
    intro i c n hc hn
    simp only [List.getElem?_map, hn, Option.map_some, Option.some.injEq] at hc
    exact hc.symm
  rw [Mem.createView] at h ⊢
  cases hd : find m.dbs db with
  | none => rw [hd] at h; exact nomatch h
  | some d =>
    rw [hd] at h
    simp only at h ⊢
    cases ht : find d.views name with
    | none =>
      rw [ht] at h
      cases h
      exact .inr ⟨by simp only [Mem.getView, find_put, if_true], st⟩
    | some old =>
      rw [ht] at h
      simp only at h ⊢
      split at h
      · rename_i hi
        rw [if_pos hi]
        cases h
        exact .inl ⟨by simp only [Mem.getView, hd, ht], rfl, hi⟩
      · rename_i hi
        rw [if_neg hi]
        split at h
        · rename_i hr
          rw [if_pos hr]
          cases h
          exact .inr ⟨by simp only [Mem.getView, find_put, if_true], st⟩
        · exact nomatch h

example : ∃ s, ((Mem.init "c".toList ⟨"d".toList, []⟩ 0).createView ⟨"d".toList, []⟩ "v".toList
    { ifNotExists := false, replace := false, columns := [⟨"a".toList, 1, none, 2⟩],
      definition := "SELECT 1".toList, properties := [], rest := 0 }).1 = .ok (.object s) := ⟨_, rfl⟩

/-- SHOW DATABASES IN a catalog lists the databases of that catalog that fit the pattern; without a
name, those of the default catalog. -/
theorem C84_list_databases (s : Session α) (keep : DbStatus α → Bool) :
    (∀ m, find s.catalogs s.defaultCatalog = some m → ∃ l, s.listDatabases keep [] = .ok l ∧
      ∀ d, d ∈ l ↔ d ∈ m.listDatabases none ∧ keep d = true) ∧
    (∀ c m, find s.catalogs c = some m → ∃ l, s.listDatabases keep [c] = .ok l ∧
      ∀ d, d ∈ l ↔ d ∈ m.listDatabases none ∧ keep d = true) ∧
    (∀ n m, find s.catalogs n = none → find s.catalogs s.defaultCatalog = some m →
      ∃ l, s.listDatabases keep [n] = .ok l ∧
        ∀ d, d ∈ l ↔ d ∈ m.listDatabases (some ⟨n, []⟩) ∧ keep d = true) := by
  refine ⟨fun m hm => ⟨(m.listDatabases none).filter keep, ?_, fun d => by simp⟩,
    fun c m hm => ⟨(m.listDatabases none).filter keep, ?_, fun d => by simp⟩,
    fun n m hn hm => ⟨(m.listDatabases (some ⟨n, []⟩)).filter keep, ?_, fun d => by simp⟩⟩
  · simp [Session.listDatabases, Session.resolveOptionalDatabase, Session.getCatalog, hm, Except.map]
  · simp [Session.listDatabases, Session.resolveOptionalDatabase, Session.getCatalog, hm, Except.map]
  · simp [Session.listDatabases, Session.resolveOptionalDatabase, Session.getCatalog, hm, hn,
      toNamespace, Except.map]

example : ∃ l, Session.listDatabases (α := Nat)
    { catalogs := [("c".toList, Mem.init "c".toList ⟨"d".toList, []⟩ 0)], defaultCatalog := "c".toList,
      defaultDatabase := ⟨"d".toList, []⟩, globalDatabase := ⟨"g".toList, []⟩, temp := [] }
    (fun _ => true) ["c".toList] = .ok l ∧ l.length = 1 := ⟨_, rfl, rfl⟩

end Verif.Catalog
