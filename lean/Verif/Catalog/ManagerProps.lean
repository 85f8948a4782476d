import Verif.Catalog.Manager
import Verif.Catalog.MemoryListProps

/-!
# C84: what names in statements mean
-/

namespace Verif.Catalog

variable {α : Type}

namespace Spec

/-- The catalog, the database and the name that a reference means: a single part is a name in
the default database; with more parts, the first part is a catalog if there is one of this
name, and otherwise the default catalog is meant. -/
inductive Means (s : Session α) : List Name → Name → Namespace → Name → Prop
  | single (n : Name) : Means s [n] s.defaultCatalog s.defaultDatabase n
  | qualified (c : Name) (db : Namespace) (n : Name) (hc : ∃ m, find s.catalogs c = some m) :
      Means s (c :: db.head :: db.tail ++ [n]) c db n
  | byDefault (db : Namespace) (n : Name) (hc : ∀ m, find s.catalogs db.head ≠ some m) :
      Means s (db.head :: db.tail ++ [n]) s.defaultCatalog db n

/-- Where an object can be. -/
inductive Place
  | temp (session : Nat) (n : Name)
  | global (n : Name)
  | table (session : Nat) (c : Name) (db : Namespace) (n : Name)
  | view (session : Nat) (c : Name) (db : Namespace) (n : Name)
deriving DecidableEq

/-- The object at a place. -/
def objectAt (w : World α) : Place → Option (Found α)
  | .temp i n => (find (w.sessions i).temp n).map (Found.temp n)
  | .global n => (find w.global n).map (Found.global n)
  | .table i c db n =>
    match find (w.sessions i).catalogs c with
    | none => none
    | some m => ((answers m).table db n).map Found.table
  | .view i c db n =>
    match find (w.sessions i).catalogs c with
    | none => none
    | some m => ((answers m).view db n).map Found.view

/-- The places where a name may find an object, the first occupied one wins: temporary views
for names with one part, global temporary views for names in the global temporary database,
and tables before views otherwise. -/
def places (s : Session α) (i : Nat) (ref : List Name) (c : Name) (db : Namespace) (n : Name) :
    List Place :=
  (if ref = [n] then [.temp i n] else []) ++
    if ref = s.globalDatabase.parts ++ [n] then [.global n] else [.table i c db n, .view i c db n]

end Spec

open Spec

/-! ## Resolution -/

theorem resolveDatabase_iff (s : Session α) (ref : List Name) (c : Name) (db : Namespace) :
    s.resolveDatabase ref = .ok (c, db) ↔
      ((∃ m, find s.catalogs c = some m) ∧ ref = c :: db.parts) ∨
        (c = s.defaultCatalog ∧ ref = db.parts ∧ ∀ m, find s.catalogs db.head ≠ some m) := by
  cases ref with
  | nil => simp [Session.resolveDatabase, Namespace.parts]
  | cons h t =>
    rw [Session.resolveDatabase]
    cases hf : find s.catalogs h with
    | some m =>
      simp only [Option.isSome_some, if_true]
      constructor
      · intro he
        cases t with
        | nil => exact nomatch he
        | cons a t =>
          cases he
          exact .inl ⟨⟨m, hf⟩, rfl⟩
      · rintro (⟨_, he⟩ | ⟨_, he, hn⟩)
        · cases he
          rfl
        · cases he
          exact absurd hf (hn m)
    | none =>
      simp only [Option.isSome_none, Bool.false_eq_true, if_false]
      constructor
      · intro he
        cases he
        refine .inr ⟨rfl, rfl, fun m hm => ?_⟩
        rw [hf] at hm
        exact nomatch hm
      · rintro (⟨⟨m, hm⟩, he⟩ | ⟨hc, he, _⟩)
        · cases he
          rw [hf] at hm
          exact nomatch hm
        · cases he
          rw [hc]
          rfl

/-- A reference resolves exactly to what it means. -/
theorem C84_resolve (s : Session α) (ref : List Name) (c : Name) (db : Namespace) (n : Name) :
    s.resolveObject ref = .ok (c, db, n) ↔ Means s ref c db n := by
  rw [Session.resolveObject]
  rcases List.eq_nil_or_concat ref with rfl | ⟨q, last, rfl⟩
  · constructor
    · exact fun h => nomatch h
    · intro h
      cases h
  · rw [List.concat_eq_append, List.getLast?_append, List.getLast?_singleton, Option.some_or]
    dsimp only
    rw [List.dropLast_concat]
    cases q with
    | nil =>
      constructor
      · intro h
        cases h
        exact .single _
      · intro h
        generalize hr : ([] : List Name) ++ [last] = ref at h
        cases h with
        | single _ =>
          cases hr
          rfl
        | qualified => simp at hr
        | byDefault => simp at hr
    | cons a q =>
      dsimp only
      constructor
      · intro h
        cases hd : s.resolveDatabase (a :: q) with
        | error e =>
          rw [hd] at h
          exact nomatch h
        | ok p =>
          obtain ⟨c', db'⟩ := p
          rw [hd] at h
          cases h
          rcases (resolveDatabase_iff s (a :: q) c' db').1 hd with ⟨hc, he⟩ | ⟨hc, he, hn⟩
          · rw [he]
            exact .qualified c' db' _ hc
          · rw [he, hc]
            exact .byDefault db' _ hn
      · intro h
        generalize hr : a :: q ++ [last] = ref at h
        cases h with
        | single _ => simp at hr
        | qualified _ _ _ hc =>
          have := List.append_inj' hr rfl
          cases this.2
          have hd : s.resolveDatabase (c :: db.head :: db.tail) = .ok (c, db) :=
            (resolveDatabase_iff s _ c db).2 (.inl ⟨hc, rfl⟩)
          rw [this.1, hd]
          rfl
        | byDefault _ _ hc =>
          have := List.append_inj' hr rfl
          cases this.2
          have hd : s.resolveDatabase (db.head :: db.tail) = .ok (s.defaultCatalog, db) :=
            (resolveDatabase_iff s _ s.defaultCatalog db).2 (.inr ⟨rfl, rfl, hc⟩)
          rw [this.1, hd]
          rfl

/-- References without a meaning are the empty one and a catalog followed by a single name. -/
theorem C84_meaningless (s : Session α) (ref : List Name) (e : Err) :
    s.resolveObject ref = .error e ↔
      e = .invalidArgument ∧ (ref = [] ∨ ∃ c n m, ref = [c, n] ∧ find s.catalogs c = some m) := by
  rcases List.eq_nil_or_concat ref with rfl | ⟨q, last, rfl⟩
  · rw [Session.resolveObject]
    constructor
    · intro h
      cases h
      exact ⟨rfl, .inl rfl⟩
    · rintro ⟨rfl, _⟩
      rfl
  · rw [List.concat_eq_append, Session.resolveObject, List.getLast?_append, List.getLast?_singleton, Option.some_or]
    dsimp only
    rw [List.dropLast_concat]
    match q with
    | [] => simp
    | [a] =>
      simp only [Session.resolveDatabase]
      cases hf : find s.catalogs a with
      | none => simp [toNamespace, Except.map, hf]
      | some m =>
        constructor
        · intro h
          cases h
          exact ⟨rfl, .inr ⟨a, last, m, rfl, hf⟩⟩
        · rintro ⟨rfl, _⟩
          rfl
    | a :: b :: q =>
      simp only [Session.resolveDatabase]
      cases hf : find s.catalogs a <;> simp [toNamespace, Except.map]

/-! ## Lookup -/

theorem isGlobalDatabase_iff (s : Session α) (ref : List Name) :
    s.isGlobalDatabase ref = true ↔ ref = s.globalDatabase.parts := by
  cases ref with
  | nil => simp [Session.isGlobalDatabase, Namespace.parts]
  | cons h t => simp [Session.isGlobalDatabase, Namespace.parts]

theorem Spec.Means.last {s : Session α} {ref : List Name} {c : Name} {db : Namespace} {n : Name}
    (h : Means s ref c db n) : ref.getLast? = some n ∧ ref = ref.dropLast ++ [n] := by
  cases h with
  | single => exact ⟨rfl, rfl⟩
  | qualified =>
    rw [List.getLast?_append, List.getLast?_singleton, Option.some_or, List.dropLast_concat]
    exact ⟨rfl, rfl⟩
  | byDefault =>
    rw [List.getLast?_append, List.getLast?_singleton, Option.some_or, List.dropLast_concat]
    exact ⟨rfl, rfl⟩

theorem Spec.Means.global {s : Session α} {ref : List Name} {c : Name} {db : Namespace} {n : Name}
    (h : Means s ref c db n) :
    s.isGlobalDatabase ref.dropLast = decide (ref = s.globalDatabase.parts ++ [n]) := by
  rw [Bool.eq_iff_iff, isGlobalDatabase_iff, decide_eq_true_eq]
  constructor
  · intro h'
    rw [← h', ← h.last.2]
  · intro h'
    rw [h', List.dropLast_concat]

/-- The answer of a lookup when places are tried in order. -/
def Spec.answer (o : Option (Found α)) (r : Except Err (Found α)) : Prop :=
  match o with
  | some f => r = .ok f
  | none => ∃ x, r = .error (.notFound x)

theorem getStored_spec {w : World α} {i : Nat} {ref : List Name} {c : Name} {db : Namespace}
    {n : Name} (h : Means (w.sessions i) ref c db n) :
    Spec.answer ([Place.table i c db n, .view i c db n].findSome? (objectAt w))
      ((w.sessions i).getStored ref) := by
  have hr := (C84_resolve (w.sessions i) ref c db n).2 h
  simp only [Session.getStored, Session.getTable, Session.getView, hr, Session.getCatalog,
    List.findSome?_cons, objectAt, List.findSome?_nil]
  cases hm : find (w.sessions i).catalogs c with
  | none => exact ⟨_, rfl⟩
  | some m =>
    simp only [answers]
    simp only [Mem.getTable, Mem.getView]
    cases hd : find m.dbs db with
    | none => exact ⟨_, rfl⟩
    | some d =>
      dsimp only
      cases ht : find d.tables n with
      | some t => rfl
      | none =>
        dsimp only
        cases hv : find d.views n with
        | some v => rfl
        | none => exact ⟨_, rfl⟩

theorem getGlobalOrStored_spec {w : World α} {i : Nat} {ref : List Name} {c : Name} {db : Namespace}
    {n : Name} (h : Means (w.sessions i) ref c db n) :
    Spec.answer ((if ref = (w.sessions i).globalDatabase.parts ++ [n] then [Place.global n]
      else [.table i c db n, .view i c db n]).findSome? (objectAt w)) (w.getGlobalOrStored i ref) := by
  rw [World.getGlobalOrStored, h.last.1]
  dsimp only
  rw [h.global]
  by_cases hg : ref = (w.sessions i).globalDatabase.parts ++ [n]
  · rw [if_pos hg, if_pos (decide_eq_true hg)]
    simp only [List.findSome?_cons, objectAt, List.findSome?_nil]
    cases find w.global n with
    | some v => rfl
    | none => exact ⟨_, rfl⟩
  · rw [if_neg hg, if_neg (by rw [decide_eq_true_eq]; exact hg)]
    exact getStored_spec h

/-- A name finds the object at the first occupied one of its places, and nothing if all are
empty. -/
theorem C84_lookup (w : World α) (i : Nat) (ref : List Name) (c : Name) (db : Namespace) (n : Name)
    (h : Means (w.sessions i) ref c db n) :
    match (places (w.sessions i) i ref c db n).findSome? (objectAt w) with
    | some f => w.lookup i ref = .ok f
    | none => ∃ x, w.lookup i ref = .error (.notFound x) := by
  suffices Spec.answer ((places (w.sessions i) i ref c db n).findSome? (objectAt w))
      (w.lookup i ref) by
    revert this
    cases (places (w.sessions i) i ref c db n).findSome? (objectAt w) <;> exact fun h => h
  have hg := getGlobalOrStored_spec h
  rw [places, List.findSome?_append]
  by_cases h1 : ref = [n]
  · subst h1
    rw [if_pos rfl, World.lookup]
    simp only [List.findSome?_cons, objectAt, List.findSome?_nil]
    cases find (w.sessions i).temp n with
    | some v => rfl
    | none => exact hg
  · rw [if_neg h1, List.findSome?_nil, Option.none_or]
    have : w.lookup i ref = w.getGlobalOrStored i ref := by
      cases h with
      | single => exact absurd rfl h1
      | qualified => rfl
      | byDefault db n =>
        obtain ⟨hd, tl⟩ := db
        cases tl <;> rfl
    rw [this]
    exact hg

/-- A name in the global temporary database finds the global temporary view and nothing else. -/
theorem C84_global_lookup (w : World α) (i : Nat) (n : Name) :
    match find w.global n with
    | some v => w.lookup i ((w.sessions i).globalDatabase.parts ++ [n]) = .ok (.global n v)
    | none => w.lookup i ((w.sessions i).globalDatabase.parts ++ [n]) =
        .error (.notFound .temporaryView) := by
  have : w.lookup i ((w.sessions i).globalDatabase.parts ++ [n]) =
      w.getGlobalOrStored i ((w.sessions i).globalDatabase.parts ++ [n]) := by
    rcases (w.sessions i).globalDatabase with ⟨hd, tl⟩
    cases tl <;> rfl
  rw [this, World.getGlobalOrStored, List.getLast?_append, List.getLast?_singleton, Option.some_or]
  dsimp only
  rw [List.dropLast_concat, if_pos ((isGlobalDatabase_iff _ _).2 rfl)]
  cases find w.global n <;> rfl

end Verif.Catalog
