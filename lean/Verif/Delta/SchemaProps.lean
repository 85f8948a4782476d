import Verif.Delta.SchemaLemmas
/-!
# C112: the ids and physical names of Delta columns
-/

namespace Verif.Delta.Schema

open Spec

namespace Spec

/-- A field without mapping keys or type changes. -/
def fresh (name : String) : Hdr :=
  { name := name, nullable := true, id := none, phys := none, changes := none }

/-- The tables that a table goes through under a sequence of candidate schemas, each of which names
the fields of a struct apart and fits the schema it meets. -/
inductive Run : Table → Table → Prop
  | refl (t : Table) : Run t t
  | step {t u : Table} (cand : Flds) (r : Run t u) (names : NamesOk cand) (fits : Fits cand u.schema) :
      Run t (evolve u cand)

end Spec

/-- `a: bigint, s: struct<x: int, l: array<struct<y: string>>>`. -/
def sample : Flds :=
  .cons (fresh "a") (.prim .long)
    (.cons (fresh "s")
      (.struct (.cons (fresh "x") (.prim .integer)
        (.cons (fresh "l") (.array (.struct (.cons (fresh "y") (.prim .string) .nil)) true) .nil)))
      .nil)

/-- `s: struct<x: int, z: date, l: array<struct<w: int, y: string>>>, b: map<string, struct<v: int>>`:
`a` is dropped and `z`, `w`, `b` and `v` are added. -/
def sample' : Flds :=
  .cons (fresh "s")
    (.struct (.cons (fresh "x") (.prim .integer)
      (.cons (fresh "z") (.prim .date)
        (.cons (fresh "l") (.array (.struct (.cons (fresh "w") (.prim .integer)
          (.cons (fresh "y") (.prim .string) .nil))) true) .nil))))
    (.cons (fresh "b") (.map (.prim .string) (.struct (.cons (fresh "v") (.prim .integer) .nil)) true)
      .nil)

/-- **C112.** A table created with column mapping has the schema asked for; every column at every
level has an id and a physical name of its own, and the ids are at least 1 and at most
`maxColumnId`. -/
theorem C112_create {schema : Flds} (ok : NamesOk schema) (uuids : Nat) :
    plain (create schema uuids).schema = plain schema ∧ Sound (create schema uuids) ∧
    (∃ m, (create schema uuids).maxColumnId = some m) ∧
    (∀ x ∈ cols (create schema uuids).schema, ∀ k, x.2.id = some k → 1 ≤ k) ∧
    (∀ x ∈ cols (create schema uuids).schema, ∀ u, x.2.phys = some u → uuids ≤ u) := by
  obtain ⟨n, e, d⟩ := annotateFlds_drawn schema { next := 1, uuid := uuids } ok
  have pl := annotateFlds_plain schema { next := 1, uuid := uuids } ok
  have hs : (create schema uuids).schema = (annotateFlds schema { next := 1, uuid := uuids }).1 :=
    tryNew_eq (names_nodup pl.2.1)
  have hu : (create schema uuids).uuids = uuids + n := by
    show (annotateFlds schema { next := 1, uuid := uuids }).2.uuid = _
    rw [e]; rfl
  have hm : (create schema uuids).maxColumnId = some (maxId (create schema uuids).schema) := rfl
  rw [← hs] at d
  refine ⟨hs ▸ pl.1, ⟨hs ▸ pl.2.1, drawn_mapped d, ?_, ?_⟩, ⟨_, hm⟩, ?_, ?_⟩
  · intro m hm' x hx k hk
    rw [hm, Option.some.injEq] at hm'
    rw [← hm']
    exact (maxId_ge _).2 x.1 x.2 k hx hk
  · intro x hx u hx'
    obtain ⟨j, hj, _, a⟩ := d.some_ x.1 x.2 hx
    rw [hx', Option.some.injEq] at a
    have a : u = uuids + j := a
    omega
  · intro x hx k hk
    obtain ⟨j, hj, a, _⟩ := d.some_ x.1 x.2 hx
    rw [hk, Option.some.injEq] at a
    have a : k = 1 + j := a
    omega
  · intro x hx u hx'
    obtain ⟨j, hj, _, a⟩ := d.some_ x.1 x.2 hx
    rw [hx', Option.some.injEq] at a
    have a : u = uuids + j := a
    omega

example : NamesOk sample := by
  simp [sample, fresh, NamesOk, NamesOkTy, Flds.names]

example : (cols (create sample 7).schema).map (fun x => (x.2.name, x.2.id, x.2.phys)) =
    [("a", some 1, some 7), ("s", some 2, some 8), ("x", some 3, some 9), ("l", some 4, some 10),
      ("y", some 5, some 11)] := by decide +kernel

example : (create sample 7).maxColumnId = some 5 := by decide +kernel

/-- **C112.** A schema change to a candidate that fits gives the schema asked for and keeps the table
well mapped; a column whose path was in the schema keeps its id and physical name; a new column gets
an id above every id of the schema and above the previous `maxColumnId`, and a physical name never
generated before; and `maxColumnId` does not decrease.

Partial: a candidate that turns a column into a different kind of container with columns inside, or
that carries mapping keys of other columns, is excluded; see the refutations below. -/
theorem C112_evolve_partial {t : Table} {cand : Flds} (s : Sound t) (ok : NamesOk cand)
    (f : Fits cand t.schema) :
    plain (evolve t cand).schema = plain cand ∧ Sound (evolve t cand) ∧
    (∀ p h g, (p, h) ∈ cols (evolve t cand).schema → (p, g) ∈ cols t.schema →
      h.id = g.id ∧ h.phys = g.phys) ∧
    (∀ p h, (p, h) ∈ cols (evolve t cand).schema → (∀ g, (p, g) ∉ cols t.schema) →
      ∃ k u, h.id = some k ∧ h.phys = some u ∧ t.uuids ≤ u ∧
        (∀ m, t.maxColumnId = some m → m < k) ∧
        ∀ x ∈ cols t.schema, ∀ i, x.2.id = some i → i < k) ∧
    (∃ m, (evolve t cand).maxColumnId = some m ∧ ∀ m', t.maxColumnId = some m' → m' ≤ m) := by
  obtain ⟨pl, n, hm, hu, d, s'⟩ := evolve_spec s ok f
  refine ⟨pl, s', ?_, ?_, ?_⟩
  · intro p h g hh hg
    rcases d.each p h hh with ⟨g', hg', a, b⟩ | hn
    · have : g' = g := cols_functional s.names hg' hg
      exact this ▸ ⟨a, b⟩
    · exact absurd hg (hn g)
  · intro p h hh hn
    obtain ⟨j, hj, a, b⟩ := d.drawn.some_ p h ⟨hh, hn⟩
    refine ⟨_, _, a, b, ?_, ?_, ?_⟩
    · show t.uuids ≤ t.uuids + j
      omega
    · intro m e
      have : high t = m := by simp [high, e]
      show m < high t + 1 + j
      omega
    · intro x hx i hi
      have := high_ge s hx hi
      show i < high t + 1 + j
      omega
  · refine ⟨_, hm, fun m' e => ?_⟩
    have : high t = m' := by simp [high, e]
    omega

example : Sound (create sample 7) ∧ NamesOk sample' ∧ Fits sample' (create sample 7).schema := by
  refine ⟨(C112_create (by simp [sample, fresh, NamesOk, NamesOkTy, Flds.names]) 7).2.1, ?_, ?_⟩
  · simp [sample', fresh, NamesOk, NamesOkTy, Flds.names]
  · simp [sample', sample, fresh, create, annotateFlds, annotateTy, tryNew, Flds.names, mark,
      Ctr.take, Fits, FitsTy, lookup, colsTy]

example : (cols (evolve (create sample 7) sample').schema).map
      (fun x => (x.2.name, x.2.id, x.2.phys)) =
    [("s", some 2, some 8), ("x", some 3, some 9), ("z", some 6, some 12), ("l", some 4, some 10),
      ("w", some 7, some 13), ("y", some 5, some 11), ("b", some 8, some 14),
      ("v", some 9, some 15)] := by decide +kernel

example : (evolve (create sample 7) sample').maxColumnId = some 9 := by decide +kernel

theorem run_spec {t u : Table} (r : Run t u) (s : Sound t) {m : Int}
    (hm : t.maxColumnId = some m) : Sound u ∧ (∃ m', u.maxColumnId = some m' ∧ m ≤ m') ∧
      t.uuids ≤ u.uuids ∧
      ∀ p h, (p, h) ∈ cols u.schema → Kept (cols t.schema) p h ∨
        ∃ k x, h.id = some k ∧ m < k ∧ h.phys = some x ∧ t.uuids ≤ x := by
  induction r with
  | refl =>
    exact ⟨s, ⟨m, hm, Int.le_refl m⟩, Nat.le_refl _, fun p h hh => .inl ⟨h, hh, rfl, rfl⟩⟩
  | step cand r names fits ih =>
    obtain ⟨su, ⟨m', hm', le⟩, hu, old⟩ := ih
    obtain ⟨_, n, hmax, huu, d, s'⟩ := evolve_spec su names fits
    rw [huu]
    refine ⟨s', ⟨_, hmax, ?_⟩, by omega, ?_⟩
    · simp only [high, hm', Option.getD_some]
      omega
    · intro p h hh
      rcases d.each p h hh with ⟨g, hg, a, b⟩ | hn
      · rw [a, b]
        rcases old p g hg with ⟨g', hg', a', b'⟩ | hk
        · exact .inl ⟨g', hg', a.trans a', b.trans b'⟩
        · exact .inr hk
      · obtain ⟨j, hj, a, b⟩ := d.drawn.some_ p h ⟨hh, hn⟩
        refine .inr ⟨_, _, a, ?_, b, ?_⟩
        · simp only [high, hm', Option.getD_some]
          omega
        · exact Nat.le_trans hu (Nat.le_add_right _ j)

/-- **C112.** Through any number of schema changes an id or a physical name belongs to one column for
good: a column that has, at any later time, the id or the physical name of a column of the table, has
the same path as that column. This holds for columns that were dropped in between: a column added
again under the same name gets another id.

Partial: as `C112_evolve_partial`. -/
theorem C112_history_partial {t u : Table} (s : Sound t) {m : Int} (hm : t.maxColumnId = some m)
    (r : Run t u) :
    Sound u ∧
    ∀ p h q g, (p, h) ∈ cols u.schema → (q, g) ∈ cols t.schema →
      (h.id = g.id → p = q ∧ h.phys = g.phys) ∧ (h.phys = g.phys → p = q ∧ h.id = g.id) := by
  obtain ⟨su, _, _, old⟩ := run_spec r s hm
  refine ⟨su, fun p h q g hp hq => ?_⟩
  obtain ⟨k, x, hk, hx⟩ := s.mapped.some_ _ hq
  have hk : g.id = some k := hk
  have hx : g.phys = some x := hx
  rcases old p h hp with ⟨g', hg', a, b⟩ | ⟨k', x', hk', lt, hx', le⟩
  · constructor
    · intro e
      obtain rfl : p = q := s.mapped.ids (p, g') hg' (q, g) hq (a.symm.trans e)
      exact ⟨rfl, cols_functional s.names hg' hq ▸ b⟩
    · intro e
      obtain rfl : p = q := s.mapped.phys (p, g') hg' (q, g) hq (b.symm.trans e)
      exact ⟨rfl, cols_functional s.names hg' hq ▸ a⟩
  · constructor
    · intro e
      rw [hk', hk, Option.some.injEq] at e
      have := s.bound m hm _ hq k hk
      omega
    · intro e
      rw [hx', hx, Option.some.injEq] at e
      have := s.drawn _ hq x hx
      omega

example : Run (create sample 7) (evolve (evolve (create sample 7) sample') sample) := by
  refine .step sample (.step sample' (.refl _) ?_ ?_) ?_ ?_
  · simp [sample', fresh, NamesOk, NamesOkTy, Flds.names]
  · simp [sample', sample, fresh, create, annotateFlds, annotateTy, tryNew, Flds.names, mark,
      Ctr.take, Fits, FitsTy, lookup, colsTy]
  · simp [sample, fresh, NamesOk, NamesOkTy, Flds.names]
  · simp [evolve, mergeFlds, mergeTy, findMatching, findBy, Flds.find, mergeHdr, sample', sample,
      fresh, create, annotateFlds, annotateTy, tryNew, Flds.names, mark, Ctr.take, Fits, FitsTy,
      lookup, colsTy]

example : (cols (evolve (evolve (create sample 7) sample') sample).schema).map
      (fun x => (x.2.name, x.2.id, x.2.phys)) =
    [("a", some 10, some 16), ("s", some 2, some 8), ("x", some 3, some 9), ("l", some 4, some 10),
      ("y", some 5, some 11)] := by decide +kernel

/-- **C112, refuted without the restriction on kinds.** Overwriting the schema of a well mapped table
so that a column of a primitive type becomes a struct leaves the columns of the struct without an id
and without a physical name, and no later schema change to the same schema gives them one. -/
theorem C112_kind_change_refuted :
    ∃ (t : Table) (cand : Flds), Sound t ∧ NamesOk cand ∧
      (∀ x ∈ cols cand, x.2.id = none ∧ x.2.phys = none) ∧
      (∃ x ∈ cols (evolve t cand).schema, x.2.id = none ∧ x.2.phys = none) ∧
      (∃ x ∈ cols (evolve (evolve t cand) cand).schema, x.2.id = none ∧ x.2.phys = none) := by
  refine ⟨create (.cons (fresh "a") (.prim .long) .nil) 0,
    .cons (fresh "a") (.struct (.cons (fresh "x") (.prim .integer) .nil)) .nil, ?_, ?_, ?_, ?_, ?_⟩
  · exact (C112_create (by simp [NamesOk, NamesOkTy, Flds.names]) 0).2.1
  · simp [NamesOk, NamesOkTy, Flds.names]
  · decide +kernel
  · exact ⟨([.field "a", .field "x"], fresh "x"), by decide +kernel, rfl, rfl⟩
  · exact ⟨([.field "a", .field "x"], fresh "x"), by decide +kernel, rfl, rfl⟩

/-- **C112, refuted without the restriction on mapping keys.** A candidate whose new column carries
the column id that it had in another table, where that id is used in this table too, gives both
columns the same id and the same physical name. -/
theorem C112_foreign_keys_refuted :
    ∃ (t : Table) (cand : Flds), Sound t ∧ NamesOk cand ∧
      (∃ x ∈ cols (evolve t cand).schema, ∃ y ∈ cols (evolve t cand).schema,
        x.1 ≠ y.1 ∧ x.2.id = y.2.id ∧ x.2.phys = y.2.phys) := by
  refine ⟨create (.cons (fresh "a") (.prim .long) .nil) 0,
    .cons (fresh "a") (.prim .long) (.cons { fresh "b" with id := some 1, phys := some 99 }
      (.prim .long) .nil), ?_, ?_, ?_⟩
  · exact (C112_create (by simp [NamesOk, NamesOkTy, Flds.names]) 0).2.1
  · simp [NamesOk, NamesOkTy, Flds.names, fresh]
  · exact ⟨([.field "a"], { fresh "a" with id := some 1, phys := some 0 }), by decide +kernel,
      ([.field "b"], { fresh "b" with id := some 1, phys := some 0 }), by decide +kernel,
      by decide, rfl, rfl⟩

end Verif.Delta.Schema
