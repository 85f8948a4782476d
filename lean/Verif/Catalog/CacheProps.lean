import Verif.Catalog.Cache
import Verif.Catalog.MemoryListProps

/-!
# C85: cached listings
-/

namespace Verif.Catalog

variable {σ ρ δ τ : Type}

namespace Spec

/-- What the cache expects of a catalog: a failed request changes no listing that exists, a
request about a table or a view changes only listings of this kind and of its database, and
creating a database changes no listing of tables or views that exists. -/
structure Lawful (P : Provider σ ρ δ τ) : Prop where
  databases : ∀ s c, (P.change s c).1 ≠ .ok () ∨ (c.kind ≠ .createDatabase ∧ c.kind ≠ .dropDatabase) →
    ∀ pre v, P.listDatabases s pre = .ok v → P.listDatabases (P.change s c).2 pre = .ok v
  tables : ∀ s c db, (P.change s c).1 ≠ .ok () ∨ c.db ≠ db ∨ c.kind = .createDatabase ∨
      c.kind = .createView ∨ c.kind = .dropView →
    ∀ v, P.listTables s db = .ok v → P.listTables (P.change s c).2 db = .ok v
  views : ∀ s c db, (P.change s c).1 ≠ .ok () ∨ c.db ≠ db ∨ c.kind = .createDatabase ∨
      c.kind = .createTable ∨ c.kind = .dropTable ∨ c.kind = .alterTable ∨ c.kind = .commitTable →
    ∀ v, P.listViews s db = .ok v → P.listViews (P.change s c).2 db = .ok v

/-- The requests that reach the catalog. -/
def changes : List (CacheEvent ρ) → List (Change ρ)
  | [] => []
  | .change _ c :: evs => c :: changes evs
  | _ :: evs => changes evs

/-- The catalog without the cache. -/
def direct (P : Provider σ ρ δ τ) (s : σ) (cs : List (Change ρ)) : σ :=
  cs.foldl (fun s c => (P.change s c).2) s

/-- With caches of sessions, only one session changes the catalog. -/
def OneWriter (t : CacheType) (i : Nat) (evs : List (CacheEvent ρ)) : Prop :=
  t = .session → ∀ j c, .change j c ∈ evs → j = i

end Spec

open Spec

/-! ## The catalog behind the cache -/

theorem inner_step (P : Provider σ ρ δ τ) (cfg : CacheConfig) (s : Cached σ δ τ)
    (e : CacheEvent ρ) :
    (s.step P cfg e).inner = match e with
      | .change _ c => (P.change s.inner c).2
      | _ => s.inner := by
  cases e with
  | change i c =>
    simp only [Cached.step, Cached.change]
    cases h : P.change s.inner c with
    | mk r inner =>
      cases r with
      | error e => rfl
      | ok _ => cases hk : c.kind <;> rfl
  | listDatabases i pre =>
    simp only [Cached.step, Cached.listDatabases]
    split
    · rfl
    · split <;> rfl
  | listTables i db =>
    simp only [Cached.step, Cached.listTables]
    split
    · rfl
    · split <;> rfl
  | listViews i db =>
    simp only [Cached.step, Cached.listViews]
    split
    · rfl
    · split <;> rfl
  | evictDatabases i pre => rfl
  | evictTables i db => rfl
  | evictViews i db => rfl

/-- The cache passes all changes on, in order, and their results back. -/
theorem C85_changes_pass (P : Provider σ ρ δ τ) (cfg : CacheConfig) (s : Cached σ δ τ)
    (evs : List (CacheEvent ρ)) :
    (s.run P cfg evs).inner = direct P s.inner (changes evs) ∧
      ∀ i c, (s.change P cfg i c).1 = (P.change s.inner c).1 := by
  constructor
  · induction evs generalizing s with
    | nil => rfl
    | cons e evs ih =>
      show ((s.step P cfg e).run P cfg evs).inner = _
      rw [ih, inner_step]
      cases e <;> rfl
  · intro i c
    rw [Cached.change]
    cases h : P.change s.inner c with
    | mk r inner =>
      cases r with
      | error e => rfl
      | ok u => rfl

/-! ## Slots -/

section Slots
variable {κ ν : Type} [DecidableEq κ]

theorem get_modify (t : CacheType) (i j : Nat) (f : List (κ × ν) → List (κ × ν)) (s : Slot κ ν)
    (k : κ) (v : ν) (h : (s.modify t j f).get t i k = some v) :
    (s.get t i k = some v ∧ t = .session ∧ j ≠ i) ∨
      ((∃ m, (∀ k v, find m k = some v → s.get t i k = some v) ∧ find (f m) k = some v)) := by
  cases t with
  | none => exact nomatch h
  | global => exact .inr ⟨s.shared, fun _ _ h => h, h⟩
  | session =>
    simp only [Slot.modify, Slot.get] at h
    split_ifs at h with hij
    · subst hij
      exact .inr ⟨s.own i, fun _ _ h => h, h⟩
    · exact .inl ⟨h, rfl, fun h => hij h.symm⟩

/-- An entry of a session's cache is current. -/
def Spec.Current (t : CacheType) (i : Nat) (s : Slot κ ν) (list : κ → Except Err ν) : Prop :=
  ∀ k v, s.get t i k = some v → list k = .ok v

theorem current_put {t : CacheType} {i : Nat} {s : Slot κ ν} {list : κ → Except Err ν}
    (h : Current t i s list) (j : Nat) (k : κ) (v : ν) (hv : list k = .ok v) :
    Current t i (s.modify t j fun m => put m k v) list := by
  intro k' v' hk
  rcases get_modify t i j _ s k' v' hk with ⟨h1, _⟩ | ⟨m, h1, h2⟩
  · exact h k' v' h1
  · rw [find_put] at h2
    split_ifs at h2 with hkk
    · cases h2
      subst hkk
      exact hv
    · exact h k' v' (h1 k' v' h2)

theorem current_erase {t : CacheType} {i : Nat} {s : Slot κ ν} {list : κ → Except Err ν}
    (h : Current t i s list) (j : Nat) (k : κ) :
    Current t i (s.modify t j fun m => erase m k) list := by
  intro k' v' hk
  rcases get_modify t i j _ s k' v' hk with ⟨h1, _⟩ | ⟨m, h1, h2⟩
  · exact h k' v' h1
  · rw [find_erase] at h2
    split_ifs at h2
    exact h k' v' (h1 k' v' h2)

theorem current_erase_change {t : CacheType} {i j : Nat} {s : Slot κ ν}
    {list list' : κ → Except Err ν} (h : Current t i s list) (hij : t = .session → j = i) (k : κ)
    (hl : ∀ k', k ≠ k' → ∀ v, list k' = .ok v → list' k' = .ok v) :
    Current t i (s.modify t j fun m => erase m k) list' := by
  intro k' v' hk
  rcases get_modify t i j _ s k' v' hk with ⟨_, h1, h2⟩ | ⟨m, h1, h2⟩
  · exact absurd (hij h1) h2
  · rw [find_erase] at h2
    split_ifs at h2 with hkk
    exact hl k' hkk v' (h k' v' (h1 k' v' h2))

theorem current_clear {t : CacheType} {i j : Nat} {s : Slot κ ν} {list : κ → Except Err ν}
    (hij : t = .session → j = i) : Current t i (s.modify t j fun _ => []) list := by
  intro k' v' hk
  rcases get_modify t i j _ s k' v' hk with ⟨_, h1, h2⟩ | ⟨m, h1, h2⟩
  · exact absurd (hij h1) h2
  · exact nomatch h2

end Slots

/-! ## The invariant -/

theorem change_error {P : Provider σ ρ δ τ} {cfg : CacheConfig} {s : Cached σ δ τ} {j : Nat}
    {c : Change ρ} (h : (P.change s.inner c).1 ≠ .ok ()) :
    (s.change P cfg j c).2 = { s with inner := (P.change s.inner c).2 } := by
  rw [Cached.change]
  cases hc : P.change s.inner c with
  | mk r inner =>
    cases r with
    | error e => rfl
    | ok u =>
      rw [hc] at h
      exact absurd rfl h

theorem change_ok {P : Provider σ ρ δ τ} {cfg : CacheConfig} {s : Cached σ δ τ} {j : Nat}
    {c : Change ρ} (h : (P.change s.inner c).1 = .ok ()) :
    ((s.change P cfg j c).2.databases =
      if c.kind = .createDatabase ∨ c.kind = .dropDatabase then
        s.databases.modify cfg.database j fun _ => [] else s.databases) ∧
    ((s.change P cfg j c).2.tables =
      if c.kind = .createDatabase ∨ c.kind = .createView ∨ c.kind = .dropView then s.tables
      else s.tables.modify cfg.table j fun m => erase m c.db) ∧
    ((s.change P cfg j c).2.views =
      if c.kind = .dropDatabase ∨ c.kind = .createView ∨ c.kind = .dropView then
        s.views.modify cfg.view j fun m => erase m c.db else s.views) := by
  rw [Cached.change]
  cases hc : P.change s.inner c with
  | mk r inner =>
    cases r with
    | error e =>
      rw [hc] at h
      exact nomatch h
    | ok u => cases hk : c.kind <;> simp

theorem current_databases {P : Provider σ ρ δ τ} (hP : Lawful P) (cfg : CacheConfig)
    (s : Cached σ δ τ) (i : Nat) (evs : List (CacheEvent ρ)) (hw : OneWriter cfg.database i evs)
    (h : Current cfg.database i s.databases (P.listDatabases s.inner)) :
    Current cfg.database i (s.run P cfg evs).databases
      (P.listDatabases (s.run P cfg evs).inner) := by
  induction evs generalizing s with
  | nil => exact h
  | cons e evs ih =>
    refine ih (s.step P cfg e) (fun ht j c hj => hw ht j c (List.mem_cons_of_mem _ hj)) ?_
    rw [inner_step]
    cases e with
    | change j c =>
      have hij : cfg.database = .session → j = i := fun ht => hw ht j c List.mem_cons_self
      show Current _ _ (s.change P cfg j c).2.databases _
      by_cases hok : (P.change s.inner c).1 = .ok ()
      · rw [(change_ok hok).1]
        split_ifs with hk
        · exact current_clear hij
        · exact fun k v hv => hP.databases s.inner c
            (.inr ⟨fun h => hk (.inl h), fun h => hk (.inr h)⟩) k v (h k v hv)
      · rw [change_error hok]
        exact fun k v hv => hP.databases s.inner c (.inl hok) k v (h k v hv)
    | listDatabases j pre =>
      show Current _ _ (s.listDatabases P cfg j pre).2.databases _
      rw [Cached.listDatabases]
      split
      · exact h
      · split
        · exact h
        · exact current_put h j pre _ ‹_›
    | listTables j db =>
      have : (s.step P cfg (.listTables j db)).databases = s.databases := by
        simp only [Cached.step, Cached.listTables]
        split
        · rfl
        · split <;> rfl
      rw [this]
      exact h
    | listViews j db =>
      have : (s.step P cfg (.listViews j db)).databases = s.databases := by
        simp only [Cached.step, Cached.listViews]
        split
        · rfl
        · split <;> rfl
      rw [this]
      exact h
    | evictDatabases j pre => exact current_erase h j pre
    | evictTables j db => exact h
    | evictViews j db => exact h

theorem current_tables {P : Provider σ ρ δ τ} (hP : Lawful P) (cfg : CacheConfig)
    (s : Cached σ δ τ) (i : Nat) (evs : List (CacheEvent ρ)) (hw : OneWriter cfg.table i evs)
    (h : Current cfg.table i s.tables (P.listTables s.inner)) :
    Current cfg.table i (s.run P cfg evs).tables (P.listTables (s.run P cfg evs).inner) := by
  induction evs generalizing s with
  | nil => exact h
  | cons e evs ih =>
    refine ih (s.step P cfg e) (fun ht j c hj => hw ht j c (List.mem_cons_of_mem _ hj)) ?_
    rw [inner_step]
    cases e with
    | change j c =>
      have hij : cfg.table = .session → j = i := fun ht => hw ht j c List.mem_cons_self
      show Current _ _ (s.change P cfg j c).2.tables _
      by_cases hok : (P.change s.inner c).1 = .ok ()
      · rw [(change_ok hok).2.1]
        split_ifs with hk
        · exact fun k v hv => hP.tables s.inner c k (.inr (.inr hk)) v (h k v hv)
        · exact current_erase_change h hij c.db fun k' hk' v hv =>
            hP.tables s.inner c k' (.inr (.inl hk')) v hv
      · rw [change_error hok]
        exact fun k v hv => hP.tables s.inner c k (.inl hok) v (h k v hv)
    | listDatabases j pre =>
      have : (s.step P cfg (.listDatabases j pre)).tables = s.tables := by
        simp only [Cached.step, Cached.listDatabases]
        split
        · rfl
        · split <;> rfl
      rw [this]
      exact h
    | listTables j db =>
      show Current _ _ (s.listTables P cfg j db).2.tables _
      rw [Cached.listTables]
      split
      · exact h
      · split
        · exact h
        · exact current_put h j db _ ‹_›
    | listViews j db =>
      have : (s.step P cfg (.listViews j db)).tables = s.tables := by
        simp only [Cached.step, Cached.listViews]
        split
        · rfl
        · split <;> rfl
      rw [this]
      exact h
    | evictDatabases j pre => exact h
    | evictTables j db => exact current_erase h j db
    | evictViews j db => exact h

theorem current_views {P : Provider σ ρ δ τ} (hP : Lawful P) (cfg : CacheConfig)
    (s : Cached σ δ τ) (i : Nat) (evs : List (CacheEvent ρ)) (hw : OneWriter cfg.view i evs)
    (h : Current cfg.view i s.views (P.listViews s.inner)) :
    Current cfg.view i (s.run P cfg evs).views (P.listViews (s.run P cfg evs).inner) := by
  induction evs generalizing s with
  | nil => exact h
  | cons e evs ih =>
    refine ih (s.step P cfg e) (fun ht j c hj => hw ht j c (List.mem_cons_of_mem _ hj)) ?_
    rw [inner_step]
    cases e with
    | change j c =>
      have hij : cfg.view = .session → j = i := fun ht => hw ht j c List.mem_cons_self
      show Current _ _ (s.change P cfg j c).2.views _
      by_cases hok : (P.change s.inner c).1 = .ok ()
      · rw [(change_ok hok).2.2]
        split_ifs with hk
        · exact current_erase_change h hij c.db fun k' hk' v hv =>
            hP.views s.inner c k' (.inr (.inl hk')) v hv
        · refine fun k v hv => hP.views s.inner c k (.inr (.inr ?_)) v (h k v hv)
          cases hc : c.kind <;> simp_all
      · rw [change_error hok]
        exact fun k v hv => hP.views s.inner c k (.inl hok) v (h k v hv)
    | listDatabases j pre =>
      have : (s.step P cfg (.listDatabases j pre)).views = s.views := by
        simp only [Cached.step, Cached.listDatabases]
        split
        · rfl
        · split <;> rfl
      rw [this]
      exact h
    | listTables j db =>
      have : (s.step P cfg (.listTables j db)).views = s.views := by
        simp only [Cached.step, Cached.listTables]
        split
        · rfl
        · split <;> rfl
      rw [this]
      exact h
    | listViews j db =>
      show Current _ _ (s.listViews P cfg j db).2.views _
      rw [Cached.listViews]
      split
      · exact h
      · split
        · exact h
        · exact current_put h j db _ ‹_›
    | evictDatabases j pre => exact h
    | evictTables j db => exact h
    | evictViews j db => exact current_erase h j db

theorem current_empty {κ ν : Type} [DecidableEq κ] (t : CacheType) (i : Nat)
    (list : κ → Except Err ν) : Current t i ⟨[], fun _ => []⟩ list := by
  intro k v h
  cases t <;> exact nomatch h

/-- After any requests of any sessions and any evictions, a session that lists databases,
tables or views gets what the catalog itself would return after the same changes. Caches of
sessions need all changes to come from this session. -/
theorem C85_listings_current (P : Provider σ ρ δ τ) (hP : Lawful P) (cfg : CacheConfig) (inner : σ)
    (evs : List (CacheEvent ρ)) (i : Nat) :
    (OneWriter cfg.database i evs → ∀ pre,
      (((Cached.init inner).run P cfg evs).listDatabases P cfg i pre).1 =
        P.listDatabases (direct P inner (changes evs)) pre) ∧
    (OneWriter cfg.table i evs → ∀ db,
      (((Cached.init inner).run P cfg evs).listTables P cfg i db).1 =
        P.listTables (direct P inner (changes evs)) db) ∧
    (OneWriter cfg.view i evs → ∀ db,
      (((Cached.init inner).run P cfg evs).listViews P cfg i db).1 =
        P.listViews (direct P inner (changes evs)) db) := by
  have hin := (C85_changes_pass P cfg (Cached.init inner) evs).1
  have hin : ((Cached.init inner).run P cfg evs).inner = direct P inner (changes evs) := hin
  refine ⟨fun hw pre => ?_, fun hw db => ?_, fun hw db => ?_⟩
  · have h := current_databases hP cfg (Cached.init inner) i evs hw (current_empty _ _ _)
    rw [hin] at h
    rw [Cached.listDatabases, hin]
    split
    · exact (h _ _ ‹_›).symm
    · cases P.listDatabases (direct P inner (changes evs)) pre <;> rfl
  · have h := current_tables hP cfg (Cached.init inner) i evs hw (current_empty _ _ _)
    rw [hin] at h
    rw [Cached.listTables, hin]
    split
    · exact (h _ _ ‹_›).symm
    · cases P.listTables (direct P inner (changes evs)) db <;> rfl
  · have h := current_views hP cfg (Cached.init inner) i evs hw (current_empty _ _ _)
    rw [hin] at h
    rw [Cached.listViews, hin]
    split
    · exact (h _ _ ‹_›).symm
    · cases P.listViews (direct P inner (changes evs)) db <;> rfl

/-! ## The in-memory catalog behind a cache -/

section Memory
variable {α : Type}

/-- The kind of a request. -/
def Request.kind : Request α → ChangeKind
  | .createDatabase .. => .createDatabase
  | .dropDatabase .. => .dropDatabase
  | .createTable .. => .createTable
  | .dropTable .. => .dropTable
  | .alterTable .. => .alterTable
  | .createView .. => .createView
  | .dropView .. => .dropView

/-- The database that a request names. -/
def Request.db : Request α → Namespace
  | .createDatabase db .. => db
  | .dropDatabase db .. => db
  | .createTable db .. => db
  | .dropTable db .. => db
  | .alterTable db .. => db
  | .createView db .. => db
  | .dropView db .. => db

/-- A request as a change. -/
def Request.change (r : Request α) : Change (Request α) := ⟨r.kind, r.db, r⟩

/-- The in-memory catalog as a catalog behind a cache. -/
def memProvider (nested : α → List Name → α → Option α) :
    Provider (Mem α) (Request α) (List (DbStatus α)) (List (Status α)) where
  change m c :=
    if c.payload.kind = c.kind ∧ c.payload.db = c.db then
      ((m.step nested c.payload).1.map fun _ => (), (m.step nested c.payload).2)
    else (.error .invalidArgument, m)
  listDatabases m pre := .ok (m.listDatabases pre)
  listTables m db := m.listTables db
  listViews m db := m.listViews db

/-- The in-memory catalogs that can arise. -/
def Reached (nested : α → List Name → α → Option α) : Type :=
  { m : Mem α // ∃ name first info rs, m = (Mem.init name first info).run nested rs }

theorem reached_step (nested : α → List Name → α → Option α) (m : Reached nested) (r : Request α) :
    ∃ name first info rs, (m.1.step nested r).2 = (Mem.init name first info).run nested rs := by
  obtain ⟨m, name, first, info, rs, rfl⟩ := m
  refine ⟨name, first, info, rs ++ [r], ?_⟩
  simp only [Mem.run, List.foldl_append]
  rfl

/-- Requests that fail as a whole: all but removing several properties at once. -/
def Whole (α : Type) : Type :=
  { r : Request α // ∀ db n keys ie, r = .alterTable db n (.unsetProperties keys ie) →
    keys.length ≤ 1 ∨ ie = true }

/-- The in-memory catalog with listings as sets. -/
def setProvider (nested : α → List Name → α → Option α) :
    Provider (Reached nested) (Whole α) (DbStatus α → Prop) (Status α → Prop) where
  change m c :=
    if c.payload.1.kind = c.kind ∧ c.payload.1.db = c.db then
      ((m.1.step nested c.payload.1).1.map fun _ => (),
        ⟨(m.1.step nested c.payload.1).2, reached_step nested m c.payload.1⟩)
    else (.error .invalidArgument, m)
  listDatabases m pre := .ok fun s => s ∈ m.1.listDatabases pre
  listTables m db := (m.1.listTables db).map fun l s => s ∈ l
  listViews m db := (m.1.listViews db).map fun l s => s ∈ l

theorem mem_of_answers {o : Except Err (Status α)} {s : Status α} :
    o = .ok s ↔ (match o with | .ok s => some s | .error _ => none) = some s := by
  cases o <;> simp

theorem set_listTables (nested : α → List Name → α → Option α) (m : Reached nested)
    (db : Namespace) (v : Status α → Prop) :
    (setProvider nested).listTables m db = .ok v ↔
      (answers m.1).db db ≠ none ∧ v = fun s => (answers m.1).table db s.name = some s := by
  obtain ⟨m, hm⟩ := m
  have h : (∀ l, m.listTables db = .ok l → ∀ s, s ∈ l ↔ m.getTable db s.name = .ok s) ∧
      ((∃ l, m.listTables db = .ok l) ↔ ∃ s, m.getDatabase db = .ok s) := by
    obtain ⟨name, first, info, rs, rfl⟩ := hm
    exact ⟨fun l hl => ((C83_list_tables nested name first info rs db).1 l hl).1,
      (C83_list_tables nested name first info rs db).2⟩
  obtain ⟨h1, h2⟩ := h
  have hdb : (answers m).db db ≠ none ↔ ∃ s, m.getDatabase db = .ok s := by
    simp only [answers]
    cases m.getDatabase db <;> simp
  show (m.listTables db).map (fun l s => s ∈ l) = .ok v ↔ _
  rw [hdb, ← h2]
  cases hl : m.listTables db with
  | error e =>
    simp only [Except.map, reduceCtorEq, exists_false, false_and]
  | ok l =>
    have := h1 l hl
    simp only [Except.map, Except.ok.injEq, exists_eq', true_and]
    have heq : (fun s => s ∈ l) = fun s => (answers m).table db s.name = some s := by
      funext s
      rw [this s, mem_of_answers]
      rfl
    rw [heq]
    exact eq_comm

theorem set_listViews (nested : α → List Name → α → Option α) (m : Reached nested)
    (db : Namespace) (v : Status α → Prop) :
    (setProvider nested).listViews m db = .ok v ↔
      (answers m.1).db db ≠ none ∧ v = fun s => (answers m.1).view db s.name = some s := by
  obtain ⟨m, hm⟩ := m
  have h : (∀ l, m.listViews db = .ok l → ∀ s, s ∈ l ↔ m.getView db s.name = .ok s) ∧
      ((∃ l, m.listViews db = .ok l) ↔ ∃ s, m.getDatabase db = .ok s) := by
    obtain ⟨name, first, info, rs, rfl⟩ := hm
    exact ⟨fun l hl => ((C83_list_views nested name first info rs db).1 l hl).1,
      (C83_list_views nested name first info rs db).2⟩
  obtain ⟨h1, h2⟩ := h
  have hdb : (answers m).db db ≠ none ↔ ∃ s, m.getDatabase db = .ok s := by
    simp only [answers]
    cases m.getDatabase db <;> simp
  show (m.listViews db).map (fun l s => s ∈ l) = .ok v ↔ _
  rw [hdb, ← h2]
  cases hl : m.listViews db with
  | error e =>
    simp only [Except.map, reduceCtorEq, exists_false, false_and]
  | ok l =>
    have := h1 l hl
    simp only [Except.map, Except.ok.injEq, exists_eq', true_and]
    have heq : (fun s => s ∈ l) = fun s => (answers m).view db s.name = some s := by
      funext s
      rw [this s, mem_of_answers]
      rfl
    rw [heq]
    exact eq_comm

theorem set_listDatabases (nested : α → List Name → α → Option α) (m : Reached nested)
    (pre : Option Namespace) :
    (setProvider nested).listDatabases m pre = .ok fun s => (answers m.1).db s.database = some s ∧
      ∃ last, s.database.parts = Spec.prefixParts pre ++ [last] := by
  obtain ⟨m, name, first, info, rs, rfl⟩ := m
  show Except.ok _ = _
  congr 1
  funext s
  have h := (C83_list_databases nested name first info rs pre s).1
  dsimp only at h ⊢
  rw [h]
  simp only [answers]
  cases (Mem.getDatabase _ s.database) <;> simp

theorem map_ne_ok {β : Type} {r : Except Err β} (h : r.map (fun _ => ()) ≠ .ok ()) :
    ∃ e, r = .error e := by
  cases r with
  | error e => exact ⟨e, rfl⟩
  | ok b => exact absurd rfl h

/-- The in-memory catalog meets the expectations of the cache, as long as no request removes
several properties at once. -/
theorem C85_memory_lawful (nested : α → List Name → α → Option α) : Lawful (setProvider nested) := by
  have step : ∀ m (c : Change (Whole α)), (((setProvider nested).change m c).2 = m) ∨
      (((setProvider nested).change m c).2.1 = (m.1.step nested c.payload.1).2 ∧
        ((setProvider nested).change m c).1 = (m.1.step nested c.payload.1).1.map (fun _ => ()) ∧
        c.payload.1.kind = c.kind ∧ c.payload.1.db = c.db) := by
    intro m c
    by_cases h : c.payload.1.kind = c.kind ∧ c.payload.1.db = c.db
    · right
      simp only [setProvider, if_pos h]
      exact ⟨trivial, trivial, h⟩
    · left
      simp only [setProvider, if_neg h]
  have fail : ∀ m (c : Change (Whole α)), ((setProvider nested).change m c).1 ≠ .ok () →
      answers ((setProvider nested).change m c).2.1 = answers m.1 := by
    intro m c h
    rcases step m c with he | ⟨h1, h2, _⟩
    · rw [he]
    · rw [h1]
      rw [h2] at h
      obtain ⟨e, he⟩ := map_ne_ok h
      exact C83_failed_request_partial nested m.1 c.payload.1 e he c.payload.2
  have dbs : ∀ m (c : Change (Whole α)) x, (answers m.1).db x ≠ none →
      ((setProvider nested).change m c).1 ≠ .ok () ∨ c.db ≠ x ∨ c.kind ≠ .dropDatabase →
      (answers ((setProvider nested).change m c).2.1).db x = (answers m.1).db x := by
    intro m c x hx h
    rcases h with h | h
    · rw [fail m c h]
    · rcases step m c with he | ⟨h1, _, h3, h4⟩
      · rw [he]
      · rw [h1]
        generalize c.payload.1 = r at *
        cases r with
        | createDatabase db ine info =>
          by_cases hdb : db = x
          · subst hdb
            rw [(C83_request nested m.1 _).2]
            simp only [Spec.step]
            split
            · rfl
            · exact absurd ‹_› hx
          · exact C83_other_databases_stay nested m.1 _ x hdb
        | dropDatabase db ie cs =>
          refine C83_other_databases_stay nested m.1 _ x fun (hdb : db = x) => ?_
          rcases h with h | h
          · exact h (h4.symm.trans hdb)
          · exact h h3.symm
        | _ => exact C83_other_databases_stay nested m.1 _ x (fun h => h)
  refine ⟨fun m c h pre v hv => ?_, fun m c db h v hv => ?_, fun m c db h v hv => ?_⟩
  · rw [set_listDatabases] at hv ⊢
    rw [← hv]
    congr 1
    funext s
    have : (answers ((setProvider nested).change m c).2.1).db s.database =
        (answers m.1).db s.database := by
      rcases h with h | h
      · rw [fail m c h]
      · rcases step m c with he | ⟨h1, _, h3, _⟩
        · rw [he]
        · rw [h1]
          refine C83_other_databases_stay nested m.1 _ _ fun ht => ?_
          generalize c.payload.1 = r at *
          cases r with
          | createDatabase => exact h.1 h3.symm
          | dropDatabase => exact h.2 h3.symm
          | _ => exact ht
    rw [this]
  · rw [set_listTables] at hv ⊢
    obtain ⟨h1, rfl⟩ := hv
    have hd := dbs m c db h1 (by
      rcases h with h | h | h
      · exact .inl h
      · exact .inr (.inl h)
      · exact .inr (.inr (by rcases h with h | h | h <;> rw [h] <;> decide)))
    refine ⟨by rw [hd]; exact h1, ?_⟩
    funext s
    have : (answers ((setProvider nested).change m c).2.1).table db s.name =
        (answers m.1).table db s.name := by
      rcases h with h | h
      · rw [fail m c h]
      · rcases step m c with he | ⟨h1, _, h3, h4⟩
        · rw [he]
        · rw [h1]
          refine C83_other_tables_stay nested m.1 _ _ _ fun ht => ?_
          generalize c.payload.1 = r at *
          cases r <;> simp only [Request.kind, Request.db, TouchesTable] at h3 h4 ht
          all_goals
            rw [← h3, ← h4] at h
            rcases h with h | h | h | h <;> first | exact h ht | exact h ht.1 | cases h
    rw [this]
  · rw [set_listViews] at hv ⊢
    obtain ⟨h1, rfl⟩ := hv
    have hd := dbs m c db h1 (by
      rcases h with h | h | h
      · exact .inl h
      · exact .inr (.inl h)
      · exact .inr (.inr (by rcases h with h | h | h | h | h <;> rw [h] <;> decide)))
    refine ⟨by rw [hd]; exact h1, ?_⟩
    funext s
    have : (answers ((setProvider nested).change m c).2.1).view db s.name =
        (answers m.1).view db s.name := by
      rcases h with h | h
      · rw [fail m c h]
      · rcases step m c with he | ⟨h1, _, h3, h4⟩
        · rw [he]
        · rw [h1]
          refine C83_other_views_stay nested m.1 _ _ _ fun ht => ?_
          generalize c.payload.1 = r at *
          cases r <;> simp only [Request.kind, Request.db, TouchesView] at h3 h4 ht
          all_goals
            rw [← h3, ← h4] at h
            rcases h with h | h | h | h | h | h <;> first | exact h ht | exact h ht.1 | cases h
    rw [this]

end Memory

/-! ## Examples and negations -/

section Examples

/-- Listings as names. -/
def Spec.names (r : Except Err (List (Status Nat))) : Option (List Name) :=
  match r with
  | .ok l => some (l.map (·.name))
  | .error _ => none

/-- Two sessions share the caches, list and change. -/
def sampleEvents : List (CacheEvent (Request Nat)) :=
  [.listTables 0 (single "d"), .listViews 1 (single "d"),
   .change 1 (Request.change (.createTable (single "d") "u".toList (sampleTable .create))),
   .listTables 1 (single "d"), .evictTables 0 (single "d"), .listTables 0 (single "d"),
   .change 0 (Request.change (.dropView (single "d") "v".toList false))]

-- Both sessions see the changes of the other.
example :
    let s := (Cached.init sampleMem).run (memProvider noNested) ⟨.global, .global, .global⟩ sampleEvents
    names (s.listTables (memProvider noNested) ⟨.global, .global, .global⟩ 0 (single "d")).1 =
        some ["u".toList, "t".toList] ∧
      names (s.listViews (memProvider noNested) ⟨.global, .global, .global⟩ 1 (single "d")).1 =
        some [] := by
  decide +kernel

example : OneWriter .global 0 sampleEvents := fun h => nomatch h

example : OneWriter .session 1 (sampleEvents.take 6) := by
  intro _ j c h
  simp [sampleEvents] at h
  exact h.1

/-- Caches of sessions: another session has created a table, and the listing misses it for
as long as the entry lives. -/
theorem C85_other_session_stale :
    let cfg : CacheConfig := ⟨.none, .session, .none⟩
    let s := (Cached.init sampleMem).run (memProvider noNested) cfg (sampleEvents.take 4)
    names (s.listTables (memProvider noNested) cfg 0 (single "d")).1 = some ["t".toList] ∧
      names (s.inner.listTables (single "d")) = some ["u".toList, "t".toList] := by
  decide +kernel

/-- A listing was read, then a table was created, then the listing was stored: the new table
is missing from all later listings. -/
theorem C85_overlap_stale :
    let cfg : CacheConfig := ⟨.none, .global, .none⟩
    let s : Cached (Mem Nat) (List (DbStatus Nat)) (List (Status Nat)) := Cached.init sampleMem
    let read := ((memProvider noNested).listTables s.inner (single "d")).toOption.getD []
    let s := (s.change (memProvider noNested) cfg 1
      (Request.change (.createTable (single "d") "u".toList (sampleTable .create)))).2
    let s := s.storeTables cfg 0 (single "d") read
    names (s.listTables (memProvider noNested) cfg 0 (single "d")).1 = some ["t".toList] ∧
      names (s.inner.listTables (single "d")) = some ["u".toList, "t".toList] := by
  decide +kernel

/-- Properties of the tables in a listing. -/
def Spec.propertyLists (r : Except Err (List (Status Nat))) : List Properties :=
  match r with
  | .ok l => l.map fun s => propertiesOf (.ok s)
  | .error _ => []

/-- A failed request with a partial effect leaves the old listing in the cache. -/
theorem C85_partial_failure_stale :
    let cfg : CacheConfig := ⟨.none, .global, .none⟩
    let s := (Cached.init sampleMem).run (memProvider noNested) cfg [.listTables 0 (single "d"),
      .change 0 (Request.change (.alterTable (single "d") "t".toList
        (.unsetProperties ["a".toList, "missing".toList] false)))]
    propertyLists (s.listTables (memProvider noNested) cfg 0 (single "d")).1 =
        [[("a".toList, "1".toList), ("b".toList, "2".toList)]] ∧
      propertyLists (s.inner.listTables (single "d")) = [[("b".toList, "2".toList)]] := by
  decide +kernel

end Examples

end Verif.Catalog
