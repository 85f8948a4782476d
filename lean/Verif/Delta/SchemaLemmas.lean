import Verif.Delta.Schema
/-!
# Column mapping: specification and lemmas
-/

namespace Verif.Delta.Schema

namespace Spec

/-- A step into a schema: to a field of a struct, the element of an array, or the key or value of a
map. -/
inductive Step where
  | field (name : String)
  | element
  | key
  | value
  deriving Repr, DecidableEq

abbrev Path := List Step

mutual
/-- The columns inside a type with their paths. -/
def colsTy : Ty → List (Path × Hdr)
  | .prim _ => []
  | .struct fs => cols fs
  | .array e _ => (colsTy e).map (fun x => (.element :: x.1, x.2))
  | .map k v _ =>
    (colsTy k).map (fun x => (.key :: x.1, x.2)) ++ (colsTy v).map (fun x => (.value :: x.1, x.2))
/-- All columns of a schema, at every level, with their paths. -/
def cols : Flds → List (Path × Hdr)
  | .nil => []
  | .cons h t r =>
    ([.field h.name], h) :: (colsTy t).map (fun x => (.field h.name :: x.1, x.2)) ++ cols r
end

mutual
/-- No two fields of a struct inside the type have the same name. -/
def NamesOkTy : Ty → Prop
  | .prim _ => True
  | .struct fs => NamesOk fs
  | .array e _ => NamesOkTy e
  | .map k v _ => NamesOkTy k ∧ NamesOkTy v
/-- No two fields of a struct have the same name, at any level. -/
def NamesOk : Flds → Prop
  | .nil => True
  | .cons h t r => h.name ∉ r.names ∧ NamesOkTy t ∧ NamesOk r
end

mutual
/-- A type without the mapping keys and type changes of its columns. -/
def plainTy : Ty → Ty
  | .prim p => .prim p
  | .struct fs => .struct (plain fs)
  | .array e n => .array (plainTy e) n
  | .map k v n => .map (plainTy k) (plainTy v) n
/-- A schema without the mapping keys and type changes of its columns: what the user sees. -/
def plain : Flds → Flds
  | .nil => .nil
  | .cons h t r =>
    .cons { name := h.name, nullable := h.nullable, id := none, phys := none, changes := none }
      (plainTy t) (plain r)
end

/-- The field of a name. -/
def lookup (n : String) : Flds → Option (Hdr × Ty)
  | .nil => none
  | .cons h t r => if h.name = n then some (h, t) else lookup n r

mutual
/-- The new type of a column fits the previous one: columns inside a container go with a container
of the same kind. -/
def FitsTy : Ty → Ty → Prop
  | new, prev =>
    match new, prev with
    | .struct ns, .struct ps => Fits ns ps
    | .array e _, .array pe _ => FitsTy e pe
    | .map k v _, .map pk pv _ => FitsTy k pk ∧ FitsTy v pv
    | other, _ => colsTy other = []
/-- The candidate schema fits the existing one: an existing column either carries no mapping keys or
its own, and its type fits; a new column carries no mapping keys. -/
def Fits : Flds → Flds → Prop
  | .nil, _ => True
  | .cons h t r, ps =>
    (match lookup h.name ps with
     | some (g, u) => (h.id = none ∨ h.id = g.id) ∧ (h.phys = none ∨ h.phys = g.phys) ∧ FitsTy t u
     | none => h.id = none ∧ h.phys = none) ∧ Fits r ps
end

/-- A set of columns with their paths is well mapped: each has an id and a physical name and no two
share either. -/
structure Mapped (cs : List (Path × Hdr)) : Prop where
  some_ : ∀ x ∈ cs, ∃ k u, x.2.id = some k ∧ x.2.phys = some u
  ids : ∀ x ∈ cs, ∀ y ∈ cs, x.2.id = y.2.id → x.1 = y.1
  phys : ∀ x ∈ cs, ∀ y ∈ cs, x.2.phys = y.2.phys → x.1 = y.1

/-- A table is well mapped: no struct repeats a name, every column has an id and physical name of
its own, ids are at most `maxColumnId`, and all physical names have been generated. -/
structure Sound (t : Table) : Prop where
  names : NamesOk t.schema
  mapped : Mapped (cols t.schema)
  bound : ∀ m, t.maxColumnId = some m → ∀ x ∈ cols t.schema, ∀ k, x.2.id = some k → k ≤ m
  drawn : ∀ x ∈ cols t.schema, ∀ u, x.2.phys = some u → u < t.uuids

end Spec

open Spec

/-! ## Fields and columns -/

def Flds.toList : Flds → List (Hdr × Ty)
  | .nil => []
  | .cons h t r => (h, t) :: r.toList

theorem mem_names {fs : Flds} {n : String} : n ∈ fs.names ↔ ∃ x ∈ fs.toList, x.1.name = n := by
  match fs with
  | .nil => simp [Flds.names, Flds.toList]
  | .cons h t r =>
    simp only [Flds.names, Flds.toList, List.mem_cons, mem_names (fs := r)]
    constructor
    · rintro (rfl | ⟨x, hx, e⟩)
      · exact ⟨(h, t), .inl rfl, rfl⟩
      · exact ⟨x, .inr hx, e⟩
    · rintro ⟨x, rfl | hx, e⟩
      · exact .inl e.symm
      · exact .inr ⟨x, hx, e⟩

theorem mem_cols {fs : Flds} {p : Path} {h : Hdr} :
    (p, h) ∈ cols fs ↔ ∃ x ∈ fs.toList, (p = [.field x.1.name] ∧ h = x.1) ∨
      ∃ q, p = .field x.1.name :: q ∧ (q, h) ∈ colsTy x.2 := by
  match fs with
  | .nil => simp [cols, Flds.toList]
  | .cons g t r =>
    simp only [cols, Flds.toList, List.mem_cons, List.cons_append, List.mem_append, List.mem_map,
      mem_cols (fs := r), Prod.mk.injEq]
    constructor
    · rintro (⟨rfl, rfl⟩ | ⟨⟨q, g'⟩, hq, rfl, rfl⟩ | ⟨x, hx, e⟩)
      · exact ⟨(h, t), .inl rfl, .inl ⟨rfl, rfl⟩⟩
      · exact ⟨(g, t), .inl rfl, .inr ⟨q, rfl, hq⟩⟩
      · exact ⟨x, .inr hx, e⟩
    · rintro ⟨x, rfl | hx, e⟩
      · rcases e with ⟨rfl, rfl⟩ | ⟨q, rfl, hq⟩
        · exact .inl ⟨rfl, rfl⟩
        · exact .inr (.inl ⟨(q, h), hq, rfl, rfl⟩)
      · exact .inr (.inr ⟨x, hx, e⟩)

theorem mem_array {e : Ty} {n : Bool} {p : Path} {h : Hdr} :
    (p, h) ∈ colsTy (.array e n) ↔ ∃ q, p = .element :: q ∧ (q, h) ∈ colsTy e := by
  simp only [colsTy, List.mem_map, Prod.exists, Prod.mk.injEq]
  constructor
  · rintro ⟨q, g, hq, rfl, rfl⟩
    exact ⟨q, rfl, hq⟩
  · rintro ⟨q, rfl, hq⟩
    exact ⟨q, h, hq, rfl, rfl⟩

theorem mem_map {k v : Ty} {n : Bool} {p : Path} {h : Hdr} :
    (p, h) ∈ colsTy (.map k v n) ↔ (∃ q, p = .key :: q ∧ (q, h) ∈ colsTy k) ∨
      (∃ q, p = .value :: q ∧ (q, h) ∈ colsTy v) := by
  simp only [colsTy, List.mem_append, List.mem_map, Prod.exists, Prod.mk.injEq]
  constructor
  · rintro (⟨q, g, hq, rfl, rfl⟩ | ⟨q, g, hq, rfl, rfl⟩)
    · exact .inl ⟨q, rfl, hq⟩
    · exact .inr ⟨q, rfl, hq⟩
  · rintro (⟨q, rfl, hq⟩ | ⟨q, rfl, hq⟩)
    · exact .inl ⟨q, h, hq, rfl, rfl⟩
    · exact .inr ⟨q, h, hq, rfl, rfl⟩

/-- A path leads to one field, and no column has an empty path. -/
theorem toList_unique {fs : Flds} (ok : NamesOk fs) {x y : Hdr × Ty} (hx : x ∈ fs.toList)
    (hy : y ∈ fs.toList) (e : x.1.name = y.1.name) : x = y := by
  match fs with
  | .nil => cases hx
  | .cons h t r =>
    rw [NamesOk] at ok
    simp only [Flds.toList, List.mem_cons] at hx hy
    rcases hx with rfl | hx <;> rcases hy with rfl | hy
    · rfl
    · exact absurd (mem_names.2 ⟨y, hy, e.symm⟩) ok.1
    · exact absurd (mem_names.2 ⟨x, hx, e⟩) ok.1
    · exact toList_unique ok.2.2 hx hy e

theorem namesOk_mem {fs : Flds} (ok : NamesOk fs) {x : Hdr × Ty} (hx : x ∈ fs.toList) :
    NamesOkTy x.2 := by
  match fs with
  | .nil => cases hx
  | .cons h t r =>
    rw [NamesOk] at ok
    simp only [Flds.toList, List.mem_cons] at hx
    rcases hx with rfl | hx
    · exact ok.2.1
    · exact namesOk_mem ok.2.2 hx

theorem names_nodup {fs : Flds} (ok : NamesOk fs) : fs.names.Nodup := by
  match fs with
  | .nil => simp [Flds.names]
  | .cons h t r =>
    rw [NamesOk] at ok
    exact List.nodup_cons.2 ⟨ok.1, names_nodup ok.2.2⟩

theorem tryNew_eq {fs : Flds} (h : fs.names.Nodup) : tryNew fs = fs := by
  rw [tryNew, if_pos h]

theorem lookup_some {fs : Flds} {n : String} {x : Hdr × Ty} (h : lookup n fs = some x) :
    x ∈ fs.toList ∧ x.1.name = n := by
  match fs with
  | .nil => cases h
  | .cons g t r =>
    rw [lookup] at h
    split at h
    · cases h
      exact ⟨List.mem_cons_self, by assumption⟩
    · have := lookup_some h
      exact ⟨List.mem_cons_of_mem _ this.1, this.2⟩

theorem lookup_none {fs : Flds} {n : String} (h : lookup n fs = none) :
    ∀ x ∈ fs.toList, x.1.name ≠ n := by
  match fs with
  | .nil => intro x hx; cases hx
  | .cons g t r =>
    rw [lookup] at h
    split at h
    · cases h
    · intro x hx
      simp only [Flds.toList, List.mem_cons] at hx
      rcases hx with rfl | hx
      · assumption
      · exact lookup_none h x hx

theorem find_some {fs : Flds} {p : Hdr → Bool} {x : Hdr × Ty} (h : fs.find p = some x) :
    x ∈ fs.toList ∧ p x.1 = true := by
  match fs with
  | .nil => cases h
  | .cons g t r =>
    rw [Flds.find] at h
    split at h
    · cases h
      exact ⟨List.mem_cons_self, by assumption⟩
    · have := find_some h
      exact ⟨List.mem_cons_of_mem _ this.1, this.2⟩

theorem find_none {fs : Flds} {p : Hdr → Bool} (h : fs.find p = none) :
    ∀ x ∈ fs.toList, p x.1 = false := by
  match fs with
  | .nil => intro x hx; cases hx
  | .cons g t r =>
    rw [Flds.find] at h
    split at h
    · cases h
    · intro x hx
      simp only [Flds.toList, List.mem_cons] at hx
      rcases hx with rfl | hx
      · simpa using (by assumption : ¬ p g = true)
      · exact find_none h x hx

theorem find_name (fs : Flds) (n : String) : fs.find (fun g => g.name == n) = lookup n fs := by
  match fs with
  | .nil => rfl
  | .cons g t r =>
    rw [Flds.find, lookup, find_name r n]
    by_cases e : g.name = n <;> simp [e]

theorem lookup_unique {fs : Flds} (ok : NamesOk fs) {n : String} {x y : Hdr × Ty}
    (h : lookup n fs = some x) (hy : y ∈ fs.toList) (e : y.1.name = n) : y = x :=
  toList_unique ok hy (lookup_some h).1 (e.trans (lookup_some h).2.symm)

theorem mapped_mem {fs : Flds} (m : Mapped (cols fs)) {x : Hdr × Ty} (hx : x ∈ fs.toList) :
    Mapped (colsTy x.2) where
  some_ := fun y hy => m.some_ (.field x.1.name :: y.1, y.2) (mem_cols.2 ⟨x, hx, .inr ⟨_, rfl, hy⟩⟩)
  ids := fun y hy z hz e => by
    have := m.ids (.field x.1.name :: y.1, y.2) (mem_cols.2 ⟨x, hx, .inr ⟨_, rfl, hy⟩⟩)
      (.field x.1.name :: z.1, z.2) (mem_cols.2 ⟨x, hx, .inr ⟨_, rfl, hz⟩⟩) e
    exact (List.cons.inj this).2
  phys := fun y hy z hz e => by
    have := m.phys (.field x.1.name :: y.1, y.2) (mem_cols.2 ⟨x, hx, .inr ⟨_, rfl, hy⟩⟩)
      (.field x.1.name :: z.1, z.2) (mem_cols.2 ⟨x, hx, .inr ⟨_, rfl, hz⟩⟩) e
    exact (List.cons.inj this).2

theorem mapped_map {cs ds : List (Path × Hdr)} (s : Step) (m : Mapped ds)
    (h : ∀ x ∈ cs, (s :: x.1, x.2) ∈ ds) : Mapped cs where
  some_ := fun y hy => m.some_ (s :: y.1, y.2) (h y hy)
  ids := fun y hy z hz e => (List.cons.inj (m.ids _ (h y hy) _ (h z hz) e)).2
  phys := fun y hy z hz e => (List.cons.inj (m.phys _ (h y hy) _ (h z hz) e)).2

/-- With well mapped siblings, a candidate that carries the keys of the column of its name, or none,
matches the column of its name. -/
theorem findBy_own {α : Type} [DecidableEq α] {key : Hdr → Option α} {h : Hdr} {fs : Flds}
    {x : Hdr × Ty} (ok : NamesOk fs)
    (inj : ∀ y ∈ fs.toList, ∀ z ∈ fs.toList, key y.1 = key z.1 → y.1.name = z.1.name)
    (hx : lookup h.name fs = some x) (hk : key h = none ∨ key h = key x.1) :
    findBy key h fs = none ∨ findBy key h fs = some x := by
  unfold findBy
  cases e : key h with
  | none => exact .inl rfl
  | some k =>
    refine .inr ?_
    have hk : key x.1 = some k := by
      rcases hk with hk | hk
      · rw [e] at hk; cases hk
      · rw [← hk, e]
    show fs.find _ = some x
    cases f : fs.find (fun g => key g == some k) with
    | none =>
      have := find_none f x (lookup_some hx).1
      simp [hk] at this
    | some y =>
      have hy := find_some f
      have : key y.1 = some k := by simpa using hy.2
      have n := inj y hy.1 x (lookup_some hx).1 (this.trans hk.symm)
      rw [toList_unique ok hy.1 (lookup_some hx).1 n]

theorem findMatching_own {h : Hdr} {fs : Flds} {x : Hdr × Ty} (ok : NamesOk fs)
    (m : Mapped (cols fs)) (hx : lookup h.name fs = some x) (hi : h.id = none ∨ h.id = x.1.id)
    (hp : h.phys = none ∨ h.phys = x.1.phys) : findMatching h fs = some x := by
  have i := findBy_own (key := Hdr.id) ok (fun y hy z hz e => by
    have := m.ids ([.field y.1.name], y.1) (mem_cols.2 ⟨y, hy, .inl ⟨rfl, rfl⟩⟩)
      ([.field z.1.name], z.1) (mem_cols.2 ⟨z, hz, .inl ⟨rfl, rfl⟩⟩) e
    simpa using this) hx hi
  have p := findBy_own (key := Hdr.phys) ok (fun y hy z hz e => by
    have := m.phys ([.field y.1.name], y.1) (mem_cols.2 ⟨y, hy, .inl ⟨rfl, rfl⟩⟩)
      ([.field z.1.name], z.1) (mem_cols.2 ⟨z, hz, .inl ⟨rfl, rfl⟩⟩) e
    simpa using this) hx hp
  unfold findMatching
  rcases i with i | i <;> rcases p with p | p <;> simp [i, p, find_name, hx]

theorem findMatching_new {h : Hdr} {fs : Flds} (hx : lookup h.name fs = none) (hi : h.id = none)
    (hp : h.phys = none) : findMatching h fs = none := by
  simp [findMatching, findBy, hi, hp, find_name, hx]

/-! ## Annotation -/

mutual
theorem annotateTy_plain (t : Ty) (c : Ctr) (ok : NamesOkTy t) :
    plainTy (annotateTy t c).1 = plainTy t ∧ NamesOkTy (annotateTy t c).1 := by
  match t with
  | .prim p => exact ⟨rfl, trivial⟩
  | .struct fs =>
    have := annotateFlds_plain fs c ok
    rw [annotateTy, tryNew_eq (names_nodup this.2.1)]
    exact ⟨congrArg Ty.struct this.1, this.2.1⟩
  | .array e n =>
    have := annotateTy_plain e c ok
    exact ⟨congrArg (Ty.array · n) this.1, this.2⟩
  | .map k v n =>
    have a := annotateTy_plain k c ok.1
    have b := annotateTy_plain v (annotateTy k c).2 ok.2
    refine ⟨?_, a.2, b.2⟩
    simp only [annotateTy, plainTy, a.1, b.1]
theorem annotateFlds_plain (fs : Flds) (c : Ctr) (ok : NamesOk fs) :
    plain (annotateFlds fs c).1 = plain fs ∧ NamesOk (annotateFlds fs c).1 ∧
      (annotateFlds fs c).1.names = fs.names := by
  match fs with
  | .nil => exact ⟨rfl, trivial, rfl⟩
  | .cons h t r =>
    rw [NamesOk] at ok
    have a := annotateTy_plain t c.take ok.2.1
    have b := annotateFlds_plain r (annotateTy t c.take).2 ok.2.2
    refine ⟨?_, ⟨?_, a.2, b.2.1⟩, ?_⟩
    · simp only [annotateFlds, plain, a.1, b.1, mark]
    · show (mark h c).name ∉ _
      rw [b.2.2]
      exact ok.1
    · simp only [annotateFlds, Flds.names, b.2.2, mark]
end

/-- The counter after `n` ids and uuids. -/
def Ctr.plus (c : Ctr) (n : Nat) : Ctr :=
  { next := c.next + n, uuid := c.uuid + n }

theorem plus_zero (c : Ctr) : c.plus 0 = c := by
  simp [Ctr.plus]

theorem take_plus (c : Ctr) (n : Nat) : c.take.plus n = c.plus (n + 1) := by
  simp only [Ctr.plus, Ctr.take, Ctr.mk.injEq]
  constructor <;> omega

theorem plus_plus (c : Ctr) (n m : Nat) : (c.plus n).plus m = c.plus (n + m) := by
  simp only [Ctr.plus, Ctr.mk.injEq]
  constructor <;> omega

/-- The columns `cs` hold the ids and names drawn from `c` at the positions below `n`, each at most
once. -/
structure Drawn (c : Ctr) (n : Nat) (cs : Path → Hdr → Prop) : Prop where
  some_ : ∀ p h, cs p h → ∃ j, j < n ∧ h.id = some (c.next + j) ∧ h.phys = some (c.uuid + j)
  inj : ∀ p h q g, cs p h → cs q g → h.id = g.id → p = q

theorem Drawn.mono {c : Ctr} {n : Nat} {cs ds : Path → Hdr → Prop} (d : Drawn c n cs)
    (h : ∀ p g, ds p g → cs p g) : Drawn c n ds where
  some_ := fun p g hg => d.some_ p g (h p g hg)
  inj := fun p g q k hp hq e => d.inj p g q k (h p g hp) (h q k hq) e

theorem Drawn.step {c : Ctr} {n : Nat} {cs : Path → Hdr → Prop} (s : Step) (d : Drawn c n cs) :
    Drawn c n (fun p h => ∃ q, p = s :: q ∧ cs q h) where
  some_ := by
    rintro p h ⟨q, rfl, hq⟩
    exact d.some_ q h hq
  inj := by
    rintro p h q g ⟨p', rfl, hp⟩ ⟨q', rfl, hq⟩ e
    rw [d.inj p' h q' g hp hq e]

theorem Drawn.or {c : Ctr} {n m : Nat} {cs ds : Path → Hdr → Prop} (d : Drawn c n cs)
    (e : Drawn (c.plus n) m ds) : Drawn c (n + m) (fun p h => cs p h ∨ ds p h) where
  some_ := by
    rintro p h (hp | hp)
    · obtain ⟨j, hj, a, b⟩ := d.some_ p h hp
      exact ⟨j, by omega, a, b⟩
    · obtain ⟨j, hj, a, b⟩ := e.some_ p h hp
      refine ⟨n + j, by omega, ?_, ?_⟩
      · rw [a]; simp only [Ctr.plus, Option.some.injEq]; omega
      · rw [b]; simp only [Ctr.plus, Option.some.injEq]; omega
  inj := by
    have key : ∀ p h q g, cs p h → ds q g → h.id ≠ g.id := by
      intro p h q g hp hq
      obtain ⟨j, hj, a, _⟩ := d.some_ p h hp
      obtain ⟨k, hk, b, _⟩ := e.some_ q g hq
      rw [a, b]
      simp only [Ctr.plus, ne_eq, Option.some.injEq]
      omega
    rintro p h q g (hp | hp) (hq | hq) i
    · exact d.inj p h q g hp hq i
    · exact absurd i (key p h q g hp hq)
    · exact absurd i.symm (key q g p h hq hp)
    · exact e.inj p h q g hp hq i

theorem Drawn.one (c : Ctr) (x : Path) (g : Hdr) :
    Drawn c 1 (fun p h => p = x ∧ h = mark g c) where
  some_ := by
    rintro p h ⟨rfl, rfl⟩
    exact ⟨0, by omega, by simp [mark], by simp [mark]⟩
  inj := by
    rintro p h q g ⟨rfl, _⟩ ⟨rfl, _⟩ _
    rfl

theorem Drawn.none_ (c : Ctr) : Drawn c 0 (fun _ _ => False) where
  some_ := by rintro p h ⟨⟩
  inj := by rintro p h q g ⟨⟩

mutual
theorem annotateTy_drawn (t : Ty) (c : Ctr) (ok : NamesOkTy t) :
    ∃ n, (annotateTy t c).2 = c.plus n ∧
      Drawn c n (fun p h => (p, h) ∈ colsTy (annotateTy t c).1) := by
  match t with
  | .prim p =>
    refine ⟨0, (plus_zero c).symm, (Drawn.none_ c).mono ?_⟩
    intro p g hg
    cases hg
  | .struct fs =>
    obtain ⟨n, e, d⟩ := annotateFlds_drawn fs c ok
    refine ⟨n, e, d.mono ?_⟩
    intro p g hg
    rw [annotateTy, tryNew_eq (names_nodup (annotateFlds_plain fs c ok).2.1)] at hg
    exact hg
  | .array e n =>
    obtain ⟨m, e', d⟩ := annotateTy_drawn e c ok
    refine ⟨m, e', (d.step .element).mono ?_⟩
    intro p g hg
    exact mem_array.1 hg
  | .map k v n =>
    obtain ⟨a, ea, da⟩ := annotateTy_drawn k c ok.1
    obtain ⟨b, eb, db⟩ := annotateTy_drawn v (annotateTy k c).2 ok.2
    rw [ea, plus_plus] at eb
    rw [ea] at db
    refine ⟨a + b, ?_, ((da.step .key).or (db.step .value)).mono ?_⟩
    · rw [annotateTy, ← eb, ea]
    · intro p g hg
      have := mem_map.1 hg
      rw [ea] at this
      exact this
theorem annotateFlds_drawn (fs : Flds) (c : Ctr) (ok : NamesOk fs) :
    ∃ n, (annotateFlds fs c).2 = c.plus n ∧
      Drawn c n (fun p h => (p, h) ∈ cols (annotateFlds fs c).1) := by
  match fs with
  | .nil =>
    refine ⟨0, (plus_zero c).symm, (Drawn.none_ c).mono ?_⟩
    intro p g hg
    cases hg
  | .cons h t r =>
    rw [NamesOk] at ok
    obtain ⟨a, ea, da⟩ := annotateTy_drawn t c.take ok.2.1
    obtain ⟨b, eb, db⟩ := annotateFlds_drawn r (annotateTy t c.take).2 ok.2.2
    have e' : (annotateFlds r (annotateTy t c.take).2).2 = c.plus (1 + a + b) := by
      rw [eb, ea, plus_plus, take_plus]
      congr 1
      omega
    rw [ea] at db
    have one := Drawn.one c [.field h.name] h
    have h1 : c.take = c.plus 1 := rfl
    rw [h1] at da
    have two := one.or (da.step (.field h.name))
    rw [h1, plus_plus] at db
    refine ⟨1 + a + b, ?_, (two.or db).mono ?_⟩
    · exact e'
    · intro p g hg
      obtain ⟨x, hx, hg⟩ := mem_cols.1 hg
      simp only [annotateFlds, Flds.toList, List.mem_cons] at hx
      rcases hx with rfl | hx
      · rcases hg with ⟨rfl, rfl⟩ | ⟨q, rfl, hq⟩
        · exact .inl (.inl ⟨rfl, rfl⟩)
        · exact .inl (.inr ⟨q, rfl, hq⟩)
      · refine .inr (mem_cols.2 ⟨x, ?_, hg⟩)
        rw [← plus_plus, ← h1, ← ea]
        exact hx
end

/-! ## Merging -/

/-- The column at a path has the id and physical name of the one that was there. -/
def Kept (cs : List (Path × Hdr)) (p : Path) (h : Hdr) : Prop :=
  ∃ g, (p, g) ∈ cs ∧ h.id = g.id ∧ h.phys = g.phys

/-- No column was at the path. -/
def New (cs : List (Path × Hdr)) (p : Path) : Prop :=
  ∀ g, (p, g) ∉ cs

/-- What merging gives: every column is kept or new, and new ones draw from the counter. -/
structure Merged (c : Ctr) (n : Nat) (prev out : List (Path × Hdr)) : Prop where
  each : ∀ p h, (p, h) ∈ out → Kept prev p h ∨ New prev p
  drawn : Drawn c n (fun p h => (p, h) ∈ out ∧ New prev p)

theorem merged_nil (c : Ctr) (prev : List (Path × Hdr)) : Merged c 0 prev [] where
  each := by rintro p h ⟨⟩
  drawn := (Drawn.none_ c).mono (by rintro p g ⟨⟨⟩, _⟩)

theorem colsTy_ne_nil {t : Ty} {p : Path} {h : Hdr} (hp : (p, h) ∈ colsTy t) : p ≠ [] := by
  match t with
  | .prim _ => cases hp
  | .struct fs =>
    obtain ⟨x, _, ⟨rfl, _⟩ | ⟨q, rfl, _⟩⟩ := mem_cols.1 hp <;> simp
  | .array e n =>
    obtain ⟨q, rfl, _⟩ := mem_array.1 hp
    simp
  | .map k v n =>
    obtain ⟨q, rfl, _⟩ | ⟨q, rfl, _⟩ := mem_map.1 hp <;> simp

theorem kept_field {fs : Flds} {x : Hdr × Ty} {q : Path} {h : Hdr} (hx : x ∈ fs.toList)
    (k : Kept (colsTy x.2) q h) : Kept (cols fs) (.field x.1.name :: q) h := by
  obtain ⟨g, hg, e⟩ := k
  exact ⟨g, mem_cols.2 ⟨x, hx, .inr ⟨q, rfl, hg⟩⟩, e⟩

theorem new_field {fs : Flds} (ok : NamesOk fs) {x : Hdr × Ty} {q : Path} (hx : x ∈ fs.toList)
    (nq : q ≠ []) : New (cols fs) (.field x.1.name :: q) ↔ New (colsTy x.2) q := by
  constructor
  · intro n g hg
    exact n g (mem_cols.2 ⟨x, hx, .inr ⟨q, rfl, hg⟩⟩)
  · intro n g hg
    obtain ⟨y, hy, ⟨e, _⟩ | ⟨q', e, hq⟩⟩ := mem_cols.1 hg
    · simp only [List.cons.injEq] at e
      exact nq e.2
    · simp only [List.cons.injEq, Step.field.injEq] at e
      have := toList_unique ok hx hy e.1
      subst this
      rw [← e.2] at hq
      exact n g hq

theorem new_lookup {fs : Flds} {n : String} (h : lookup n fs = none) (q : Path) :
    New (cols fs) (.field n :: q) := by
  intro g hg
  obtain ⟨y, hy, e⟩ := mem_cols.1 hg
  have : y.1.name = n := by
    rcases e with ⟨e, _⟩ | ⟨q', e, _⟩ <;>
    · simp only [List.cons.injEq, Step.field.injEq] at e
      exact e.1.symm
  exact lookup_none h y hy this

theorem merged_step {c : Ctr} {n : Nat} {prev out prev' out' : List (Path × Hdr)} (s : Step)
    (m : Merged c n prev out)
    (ho : ∀ p h, (p, h) ∈ out' ↔ ∃ q, p = s :: q ∧ (q, h) ∈ out)
    (hp : ∀ q h, (s :: q, h) ∈ prev' ↔ (q, h) ∈ prev) : Merged c n prev' out' where
  each := by
    intro p h hh
    obtain ⟨q, rfl, hq⟩ := (ho p h).1 hh
    rcases m.each q h hq with ⟨g, hg, e⟩ | hn
    · exact .inl ⟨g, (hp q g).2 hg, e⟩
    · exact .inr (fun g hg => hn g ((hp q g).1 hg))
  drawn := by
    refine (m.drawn.step s).mono ?_
    rintro p h ⟨hh, hn⟩
    obtain ⟨q, rfl, hq⟩ := (ho p h).1 hh
    exact ⟨q, rfl, hq, fun g hg => hn g ((hp q g).2 hg)⟩

theorem merged_or {c : Ctr} {n k : Nat} {prev a b out : List (Path × Hdr)}
    (ha : Merged c n prev a) (hb : Merged (c.plus n) k prev b)
    (ho : ∀ p h, (p, h) ∈ out → (p, h) ∈ a ∨ (p, h) ∈ b) : Merged c (n + k) prev out where
  each := by
    intro p h hh
    rcases ho p h hh with hh | hh
    · exact ha.each p h hh
    · exact hb.each p h hh
  drawn := by
    refine (ha.drawn.or hb.drawn).mono ?_
    rintro p h ⟨hh, hn⟩
    rcases ho p h hh with hh | hh
    · exact .inl ⟨hh, hn⟩
    · exact .inr ⟨hh, hn⟩

/-- Containers of the same kind. -/
def sameKind : Ty → Ty → Bool
  | .struct _, .struct _ => true
  | .array _ _, .array _ _ => true
  | .map _ _ _, .map _ _ _ => true
  | _, _ => false

theorem mergeTy_other {new prev : Ty} (c : Ctr) (h : sameKind new prev = false) :
    mergeTy new prev c = (new, c) := by
  cases new <;> cases prev <;> first | (simp [sameKind] at h; done) | (simp [mergeTy]; done)

theorem fitsTy_other {new prev : Ty} (h : sameKind new prev = false) (f : FitsTy new prev) :
    colsTy new = [] := by
  cases new <;> cases prev <;> first | (simp [sameKind] at h; done) | (simpa [FitsTy] using f)

mutual
theorem mergeTy_plain (new prev : Ty) (c : Ctr) (ok : NamesOkTy new) :
    plainTy (mergeTy new prev c).1 = plainTy new ∧ NamesOkTy (mergeTy new prev c).1 := by
  match new with
  | .prim p =>
    rw [mergeTy_other c rfl]
    exact ⟨rfl, trivial⟩
  | .struct ns =>
    match prev with
    | .struct ps =>
      have := mergeFlds_plain ns ps c ok
      rw [mergeTy, tryNew_eq (names_nodup this.2.1)]
      exact ⟨congrArg Ty.struct this.1, this.2.1⟩
    | .prim _ | .array _ _ | .map _ _ _ =>
      rw [mergeTy_other c rfl]
      exact ⟨rfl, ok⟩
  | .array e n =>
    match prev with
    | .array pe _ =>
      have := mergeTy_plain e pe c ok
      rw [mergeTy]
      exact ⟨congrArg (Ty.array · n) this.1, this.2⟩
    | .prim _ | .struct _ | .map _ _ _ =>
      rw [mergeTy_other c rfl]
      exact ⟨rfl, ok⟩
  | .map k v n =>
    match prev with
    | .map pk pv _ =>
      have a := mergeTy_plain k pk c ok.1
      have b := mergeTy_plain v pv (mergeTy k pk c).2 ok.2
      rw [mergeTy]
      refine ⟨?_, a.2, b.2⟩
      simp only [plainTy, a.1, b.1]
    | .prim _ | .struct _ | .array _ _ =>
      rw [mergeTy_other c rfl]
      exact ⟨rfl, ok⟩
theorem mergeFlds_plain (ns ps : Flds) (c : Ctr) (ok : NamesOk ns) :
    plain (mergeFlds ns ps c).1 = plain ns ∧ NamesOk (mergeFlds ns ps c).1 ∧
      (mergeFlds ns ps c).1.names = ns.names := by
  match ns with
  | .nil => exact ⟨rfl, trivial, rfl⟩
  | .cons h t r =>
    rw [NamesOk] at ok
    cases e : findMatching h ps with
    | none =>
      have a := annotateTy_plain t c.take ok.2.1
      have b := mergeFlds_plain r ps (annotateTy t c.take).2 ok.2.2
      simp only [mergeFlds, e]
      refine ⟨?_, ⟨?_, a.2, b.2.1⟩, ?_⟩
      · simp only [plain, a.1, b.1, mark]
      · show (mark h c).name ∉ _
        rw [b.2.2]
        exact ok.1
      · simp only [Flds.names, b.2.2, mark]
    | some x =>
      have a := mergeTy_plain t x.2 c ok.2.1
      have b := mergeFlds_plain r ps (mergeTy t x.2 c).2 ok.2.2
      simp only [mergeFlds, e]
      refine ⟨?_, ⟨?_, a.2, b.2.1⟩, ?_⟩
      · simp only [plain, a.1, b.1, mergeHdr]
      · show (mergeHdr x.1 h).name ∉ _
        rw [b.2.2]
        exact ok.1
      · simp only [Flds.names, b.2.2, mergeHdr]
end

mutual
theorem mergeTy_merged (new prev : Ty) (c : Ctr) (ok : NamesOkTy new) (pok : NamesOkTy prev)
    (m : Mapped (colsTy prev)) (f : FitsTy new prev) :
    ∃ n, (mergeTy new prev c).2 = c.plus n ∧
      Merged c n (colsTy prev) (colsTy (mergeTy new prev c).1) := by
  match new with
  | .prim p =>
    rw [mergeTy_other c rfl]
    exact ⟨0, (plus_zero c).symm, merged_nil c _⟩
  | .struct ns =>
    match prev with
    | .struct ps =>
      rw [FitsTy] at f
      obtain ⟨n, e, d⟩ := mergeFlds_merged ns ps c ok pok m f
      rw [mergeTy, tryNew_eq (names_nodup (mergeFlds_plain ns ps c ok).2.1)]
      exact ⟨n, e, d⟩
    | .prim _ | .array _ _ | .map _ _ _ =>
      have f := fitsTy_other rfl f
      rw [mergeTy_other c rfl, f]
      exact ⟨0, (plus_zero c).symm, merged_nil c _⟩
  | .array e n =>
    match prev with
    | .array pe pn =>
      rw [FitsTy] at f
      obtain ⟨k, eq, d⟩ := mergeTy_merged e pe c ok pok
        (mapped_map .element m (fun x hx => mem_array.2 ⟨x.1, rfl, hx⟩)) f
      rw [mergeTy]
      refine ⟨k, eq, merged_step .element d (fun p h => mem_array) (fun q h => ?_)⟩
      rw [mem_array]
      simp
    | .prim _ | .struct _ | .map _ _ _ =>
      have f := fitsTy_other rfl f
      rw [mergeTy_other c rfl, f]
      exact ⟨0, (plus_zero c).symm, merged_nil c _⟩
  | .map k v n =>
    match prev with
    | .map pk pv pn =>
      rw [FitsTy] at f
      obtain ⟨a, ea, da⟩ := mergeTy_merged k pk c ok.1 pok.1
        (mapped_map .key m (fun x hx => mem_map.2 (.inl ⟨x.1, rfl, hx⟩))) f.1
      obtain ⟨b, eb, db⟩ := mergeTy_merged v pv (mergeTy k pk c).2 ok.2 pok.2
        (mapped_map .value m (fun x hx => mem_map.2 (.inr ⟨x.1, rfl, hx⟩))) f.2
      rw [mergeTy]
      refine ⟨a + b, ?_, ?_⟩
      · show (mergeTy v pv (mergeTy k pk c).2).2 = _
        rw [eb, ea, plus_plus]
      · rw [ea] at db
        refine merged_or (merged_step (prev' := colsTy (.map pk pv pn)) .key da
            (out' := (colsTy (mergeTy k pk c).1).map (fun x => (.key :: x.1, x.2)))
            (fun p h => ?_) (fun q h => ?_))
          (merged_step (prev' := colsTy (.map pk pv pn)) .value db
            (out' := (colsTy (mergeTy v pv (c.plus a)).1).map (fun x => (.value :: x.1, x.2)))
            (fun p h => ?_) (fun q h => ?_)) (fun p h hh => ?_)
        · simp only [List.mem_map, Prod.exists, Prod.mk.injEq]
          constructor
          · rintro ⟨q, g, hq, rfl, rfl⟩
            exact ⟨q, rfl, hq⟩
          · rintro ⟨q, rfl, hq⟩
            exact ⟨q, h, hq, rfl, rfl⟩
        · rw [mem_map]; simp
        · simp only [List.mem_map, Prod.exists, Prod.mk.injEq]
          constructor
          · rintro ⟨q, g, hq, rfl, rfl⟩
            exact ⟨q, rfl, hq⟩
          · rintro ⟨q, rfl, hq⟩
            exact ⟨q, h, hq, rfl, rfl⟩
        · rw [mem_map]; simp
        · rw [ea, colsTy, List.mem_append] at hh
          exact hh
    | .prim _ | .struct _ | .array _ _ =>
      have f := fitsTy_other rfl f
      rw [mergeTy_other c rfl, f]
      exact ⟨0, (plus_zero c).symm, merged_nil c _⟩
theorem mergeFlds_merged (ns ps : Flds) (c : Ctr) (ok : NamesOk ns) (pok : NamesOk ps)
    (m : Mapped (cols ps)) (f : Fits ns ps) :
    ∃ n, (mergeFlds ns ps c).2 = c.plus n ∧
      Merged c n (cols ps) (cols (mergeFlds ns ps c).1) := by
  match ns with
  | .nil =>
    exact ⟨0, (plus_zero c).symm, merged_nil c _⟩
  | .cons h t r =>
    rw [NamesOk] at ok
    rw [Fits] at f
    cases e : lookup h.name ps with
    | none =>
      rw [e] at f
      have e' := findMatching_new e f.1.1 f.1.2
      obtain ⟨a, ea, da⟩ := annotateTy_drawn t c.take ok.2.1
      obtain ⟨b, eb, db⟩ := mergeFlds_merged r ps (annotateTy t c.take).2 ok.2.2 pok m f.2
      have ec : (annotateTy t c.take).2 = c.plus (1 + a) := by
        rw [ea, take_plus, Nat.add_comm]
      simp only [mergeFlds, e']
      rw [ec] at eb db ⊢
      refine ⟨1 + a + b, by rw [eb, plus_plus], ?_⟩
      refine merged_or (a := ([.field h.name], mark h c) ::
        (colsTy (annotateTy t c.take).1).map (fun x => (.field h.name :: x.1, x.2)))
        ⟨fun p g hg => .inr ?_, ?_⟩ db (fun p g hg => ?_)
      · simp only [List.mem_cons, List.mem_map, Prod.exists, Prod.mk.injEq] at hg
        rcases hg with ⟨rfl, _⟩ | ⟨q, g', _, rfl, _⟩ <;> exact new_lookup e _
      · refine ((Drawn.one c [.field h.name] h).or (da.step (.field h.name))).mono ?_
        rintro p g ⟨hg, _⟩
        simp only [List.mem_cons, List.mem_map, Prod.exists, Prod.mk.injEq] at hg
        rcases hg with ⟨rfl, rfl⟩ | ⟨q, g', hq, rfl, rfl⟩
        · exact .inl ⟨rfl, rfl⟩
        · exact .inr ⟨q, rfl, hq⟩
      · rw [cols, List.mem_append] at hg
        exact hg
    | some x =>
      rw [e] at f
      have e' := findMatching_own pok m e f.1.1 f.1.2.1
      have hx := lookup_some e
      obtain ⟨a, ea, da⟩ := mergeTy_merged t x.2 c ok.2.1 (namesOk_mem pok hx.1)
        (mapped_mem m hx.1) f.1.2.2
      obtain ⟨b, eb, db⟩ := mergeFlds_merged r ps (mergeTy t x.2 c).2 ok.2.2 pok m f.2
      simp only [mergeFlds, e']
      rw [ea] at eb db ⊢
      refine ⟨a + b, by rw [eb, plus_plus], ?_⟩
      have hk : Kept (cols ps) [.field h.name] (mergeHdr x.1 h) := by
        have mem : ([.field h.name], x.1) ∈ cols ps := by
          rw [← hx.2]
          exact mem_cols.2 ⟨x, hx.1, .inl ⟨rfl, rfl⟩⟩
        obtain ⟨k, u, hi, hu⟩ := m.some_ _ mem
        have hi : x.1.id = some k := hi
        have hu : x.1.phys = some u := hu
        exact ⟨x.1, mem, by simp [mergeHdr, hi], by simp [mergeHdr, hu]⟩
      refine merged_or (a := ([.field h.name], mergeHdr x.1 h) ::
        (colsTy (mergeTy t x.2 c).1).map (fun x => (.field h.name :: x.1, x.2)))
        ⟨fun p g hg => ?_, ?_⟩ db (fun p g hg => ?_)
      · simp only [List.mem_cons, List.mem_map, Prod.exists, Prod.mk.injEq] at hg
        rcases hg with ⟨rfl, rfl⟩ | ⟨q, g', hq, rfl, rfl⟩
        · exact .inl hk
        · rw [← hx.2]
          rcases da.each q g' hq with hn | hn
          · exact .inl (kept_field hx.1 hn)
          · exact .inr ((new_field pok hx.1 (colsTy_ne_nil hq)).2 hn)
      · refine (da.drawn.step (.field h.name)).mono ?_
        rintro p g ⟨hg, hn⟩
        simp only [List.mem_cons, List.mem_map, Prod.exists, Prod.mk.injEq] at hg
        rcases hg with ⟨rfl, rfl⟩ | ⟨q, g', hq, rfl, rfl⟩
        · obtain ⟨g, hg, _⟩ := hk
          exact absurd hg (hn g)
        · rw [← hx.2] at hn ⊢
          exact ⟨q, rfl, hq, (new_field pok hx.1 (colsTy_ne_nil hq)).1 hn⟩
      · rw [cols, List.mem_append] at hg
        exact hg
end

mutual
theorem colsTy_functional {t : Ty} (ok : NamesOkTy t) {p : Path} {h g : Hdr}
    (hh : (p, h) ∈ colsTy t) (hg : (p, g) ∈ colsTy t) : h = g := by
  match t with
  | .prim _ => cases hh
  | .struct fs => exact cols_functional ok hh hg
  | .array e n =>
    obtain ⟨q, rfl, hq⟩ := mem_array.1 hh
    obtain ⟨q', e', hq'⟩ := mem_array.1 hg
    rw [← (List.cons.inj e').2] at hq'
    exact colsTy_functional (t := e) ok hq hq'
  | .map k v n =>
    obtain ⟨q, rfl, hq⟩ | ⟨q, rfl, hq⟩ := mem_map.1 hh <;>
      obtain ⟨q', e', hq'⟩ | ⟨q', e', hq'⟩ := mem_map.1 hg
    · rw [← (List.cons.inj e').2] at hq'
      exact colsTy_functional ok.1 hq hq'
    · cases (List.cons.inj e').1
    · cases (List.cons.inj e').1
    · rw [← (List.cons.inj e').2] at hq'
      exact colsTy_functional ok.2 hq hq'
/-- A path leads to one column. -/
theorem cols_functional {fs : Flds} (ok : NamesOk fs) {p : Path} {h g : Hdr}
    (hh : (p, h) ∈ cols fs) (hg : (p, g) ∈ cols fs) : h = g := by
  match fs with
  | .nil => cases hh
  | .cons f t r =>
    rw [NamesOk] at ok
    have key : ∀ q k, (.field f.name :: q, k) ∈ cols r → False := by
      intro q k hk
      obtain ⟨x, hx, ⟨e, _⟩ | ⟨q', e, _⟩⟩ := mem_cols.1 hk <;>
      · simp only [List.cons.injEq, Step.field.injEq] at e
        exact ok.1 (mem_names.2 ⟨x, hx, e.1.symm⟩)
    simp only [cols, List.cons_append, List.mem_cons, List.mem_append, List.mem_map,
      Prod.mk.injEq, Prod.exists] at hh hg
    rcases hh with ⟨rfl, rfl⟩ | ⟨q, k, hq, rfl, rfl⟩ | hh <;>
      rcases hg with ⟨e, rfl⟩ | ⟨q', k', hq', e, rfl⟩ | hg
    · rfl
    · simp only [List.cons.injEq] at e
      exact absurd e.2 (colsTy_ne_nil hq')
    · exact (key _ _ hg).elim
    · simp only [List.cons.injEq] at e
      exact absurd e.2 (colsTy_ne_nil hq)
    · rw [(List.cons.inj e).2] at hq'
      exact colsTy_functional ok.2.1 hq hq'
    · exact (key _ _ hg).elim
    · rw [e] at hh
      exact (key _ _ hh).elim
    · rw [← e] at hh
      exact (key _ _ hh).elim
    · exact cols_functional ok.2.2 hh hg
end

/-! ## Tables -/

mutual
theorem maxIdTy_ge (t : Ty) : 0 ≤ maxIdTy t ∧
    ∀ p h k, (p, h) ∈ colsTy t → h.id = some k → k ≤ maxIdTy t := by
  match t with
  | .prim _ =>
    refine ⟨Int.le_refl 0, ?_⟩
    rintro p h k ⟨⟩
  | .struct fs => exact maxId_ge fs
  | .array e n =>
    have := maxIdTy_ge e
    refine ⟨this.1, fun p h k hp hk => ?_⟩
    obtain ⟨q, _, hq⟩ := mem_array.1 hp
    exact this.2 q h k hq hk
  | .map k v n =>
    have a := maxIdTy_ge k
    have b := maxIdTy_ge v
    rw [maxIdTy]
    refine ⟨by omega, fun p h i hp hk => ?_⟩
    obtain ⟨q, _, hq⟩ | ⟨q, _, hq⟩ := mem_map.1 hp
    · have := a.2 q h i hq hk
      omega
    · have := b.2 q h i hq hk
      omega
theorem maxId_ge (fs : Flds) : 0 ≤ maxId fs ∧
    ∀ p h k, (p, h) ∈ cols fs → h.id = some k → k ≤ maxId fs := by
  match fs with
  | .nil =>
    refine ⟨Int.le_refl 0, ?_⟩
    rintro p h k ⟨⟩
  | .cons g t r =>
    have a := maxIdTy_ge t
    have b := maxId_ge r
    rw [maxId]
    refine ⟨by omega, fun p h k hp hk => ?_⟩
    simp only [cols, List.cons_append, List.mem_cons, List.mem_append, List.mem_map,
      Prod.mk.injEq] at hp
    rcases hp with ⟨_, rfl⟩ | ⟨x, hx, _, rfl⟩ | hp
    · rw [hk]
      simp only [Option.getD_some]
      omega
    · have := a.2 x.1 x.2 k hx hk
      omega
    · have := b.2 p h k hp hk
      omega
end

theorem drawn_mapped {c : Ctr} {n : Nat} {cs : List (Path × Hdr)}
    (d : Drawn c n (fun p h => (p, h) ∈ cs)) : Mapped cs where
  some_ := fun x hx => by
    obtain ⟨j, _, a, b⟩ := d.some_ x.1 x.2 hx
    exact ⟨_, _, a, b⟩
  ids := fun x hx y hy e => d.inj x.1 x.2 y.1 y.2 hx hy e
  phys := fun x hx y hy e => by
    obtain ⟨j, _, a, b⟩ := d.some_ x.1 x.2 hx
    obtain ⟨i, _, a', b'⟩ := d.some_ y.1 y.2 hy
    rw [b, b', Option.some.injEq] at e
    refine d.inj x.1 x.2 y.1 y.2 hx hy ?_
    rw [a, a']
    have : j = i := by omega
    rw [this]

theorem merged_mapped {c : Ctr} {n : Nat} {prev out : List (Path × Hdr)} (m : Mapped prev)
    (d : Merged c n prev out) (hi : ∀ x ∈ prev, ∀ k, x.2.id = some k → k < c.next)
    (hu : ∀ x ∈ prev, ∀ u, x.2.phys = some u → u < c.uuid) : Mapped out where
  some_ := fun x hx => by
    rcases d.each x.1 x.2 hx with ⟨g, hg, a, b⟩ | hn
    · obtain ⟨k, u, hk, hu⟩ := m.some_ _ hg
      exact ⟨k, u, a.trans hk, b.trans hu⟩
    · obtain ⟨j, _, a, b⟩ := d.drawn.some_ x.1 x.2 ⟨hx, hn⟩
      exact ⟨_, _, a, b⟩
  ids := by
    have mixed : ∀ x y : Path × Hdr, Kept prev x.1 x.2 → (y ∈ out ∧ New prev y.1) →
        x.2.id ≠ y.2.id := by
      rintro x y ⟨g, hg, a, _⟩ hy e
      obtain ⟨j, _, b, _⟩ := d.drawn.some_ y.1 y.2 hy
      have := hi _ hg (c.next + j) (a.symm.trans (e.trans b))
      omega
    intro x hx y hy e
    rcases d.each x.1 x.2 hx with k | hn <;> rcases d.each y.1 y.2 hy with k' | hn'
    · obtain ⟨g, hg, a, _⟩ := k
      obtain ⟨g', hg', a', _⟩ := k'
      exact m.ids (x.1, g) hg (y.1, g') hg' (a.symm.trans (e.trans a'))
    · exact absurd e (mixed x y k ⟨hy, hn'⟩)
    · exact absurd e.symm (mixed y x k' ⟨hx, hn⟩)
    · exact d.drawn.inj x.1 x.2 y.1 y.2 ⟨hx, hn⟩ ⟨hy, hn'⟩ e
  phys := by
    have mixed : ∀ x y : Path × Hdr, Kept prev x.1 x.2 → (y ∈ out ∧ New prev y.1) →
        x.2.phys ≠ y.2.phys := by
      rintro x y ⟨g, hg, _, a⟩ hy e
      obtain ⟨j, _, _, b⟩ := d.drawn.some_ y.1 y.2 hy
      have := hu _ hg (c.uuid + j) (a.symm.trans (e.trans b))
      omega
    intro x hx y hy e
    rcases d.each x.1 x.2 hx with k | hn <;> rcases d.each y.1 y.2 hy with k' | hn'
    · obtain ⟨g, hg, _, a⟩ := k
      obtain ⟨g', hg', _, a'⟩ := k'
      exact m.phys (x.1, g) hg (y.1, g') hg' (a.symm.trans (e.trans a'))
    · exact absurd e (mixed x y k ⟨hy, hn'⟩)
    · exact absurd e.symm (mixed y x k' ⟨hx, hn⟩)
    · obtain ⟨j, _, a, b⟩ := d.drawn.some_ x.1 x.2 ⟨hx, hn⟩
      obtain ⟨i, _, a', b'⟩ := d.drawn.some_ y.1 y.2 ⟨hy, hn'⟩
      rw [b, b', Option.some.injEq] at e
      refine d.drawn.inj x.1 x.2 y.1 y.2 ⟨hx, hn⟩ ⟨hy, hn'⟩ ?_
      rw [a, a']
      have : j = i := by omega
      rw [this]

/-- The id that counting starts after. -/
def high (t : Table) : Int :=
  t.maxColumnId.getD (maxId t.schema)

theorem high_ge {t : Table} (s : Sound t) {x : Path × Hdr} (hx : x ∈ cols t.schema) {k : Int}
    (hk : x.2.id = some k) : k ≤ high t := by
  unfold high
  cases e : t.maxColumnId with
  | none => exact (maxId_ge t.schema).2 x.1 x.2 k hx hk
  | some m => exact s.bound m e x hx k hk

/-- Everything `evolve` guarantees about a candidate that fits. -/
theorem evolve_spec {t : Table} {cand : Flds} (s : Sound t) (ok : NamesOk cand)
    (f : Fits cand t.schema) :
    plain (evolve t cand).schema = plain cand ∧
    ∃ n : Nat, (evolve t cand).maxColumnId = some (high t + n) ∧
      (evolve t cand).uuids = t.uuids + n ∧
      Merged { next := high t + 1, uuid := t.uuids } n (cols t.schema)
        (cols (evolve t cand).schema) ∧
      Sound (evolve t cand) := by
  obtain ⟨n, e, d⟩ := mergeFlds_merged cand t.schema { next := high t + 1, uuid := t.uuids } ok
    s.names s.mapped f
  have pl := mergeFlds_plain cand t.schema { next := high t + 1, uuid := t.uuids } ok
  have hs : (evolve t cand).schema =
      (mergeFlds cand t.schema { next := high t + 1, uuid := t.uuids }).1 := by
    show tryNew _ = _
    exact tryNew_eq (names_nodup pl.2.1)
  have hm : (evolve t cand).maxColumnId = some (high t + n) := by
    show some (if (mergeFlds cand t.schema { next := high t + 1, uuid := t.uuids }).2.next >
      high t + 1 then _ else _) = _
    have : (mergeFlds cand t.schema { next := high t + 1, uuid := t.uuids }).2.next =
        high t + 1 + n := by rw [e]; rfl
    rw [show (mergeFlds cand t.schema { next := t.maxColumnId.getD (maxId t.schema) + 1, uuid := t.uuids }).2.next = high t + 1 + n from this, this,
      show t.maxColumnId.getD (maxId t.schema) = high t from rfl]
    split <;> simp only [Option.some.injEq] <;> omega
  have hu : (evolve t cand).uuids = t.uuids + n := by
    show (mergeFlds cand t.schema { next := high t + 1, uuid := t.uuids }).2.uuid = _
    rw [e]; rfl
  rw [← hs] at d
  refine ⟨hs ▸ pl.1, n, hm, hu, d, ?_⟩
  refine ⟨hs ▸ pl.2.1, ?_, ?_, ?_⟩
  · refine merged_mapped s.mapped d (fun x hx k hk => ?_) (fun x hx u hx' => s.drawn x hx u hx')
    have := high_ge s hx hk
    show k < high t + 1
    omega
  · intro m hm' x hx k hk
    rw [hm, Option.some.injEq] at hm'
    rcases d.each x.1 x.2 hx with ⟨g, hg, a, _⟩ | hn
    · have := high_ge s hg (a.symm.trans hk)
      omega
    · obtain ⟨j, hj, a, _⟩ := d.drawn.some_ x.1 x.2 ⟨hx, hn⟩
      rw [hk, Option.some.injEq] at a
      have a : k = high t + 1 + j := a
      omega
  · intro x hx u hx'
    rw [hu]
    rcases d.each x.1 x.2 hx with ⟨g, hg, _, a⟩ | hn
    · have := s.drawn _ hg u (a.symm.trans hx')
      omega
    · obtain ⟨j, hj, _, a⟩ := d.drawn.some_ x.1 x.2 ⟨hx, hn⟩
      rw [hx', Option.some.injEq] at a
      have a : u = t.uuids + j := a
      omega

end Verif.Delta.Schema
