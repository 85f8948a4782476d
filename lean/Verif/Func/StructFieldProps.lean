import Verif.Func.StructField

/-!
# C151, C152: withField and dropFields
-/

namespace Verif.Func.StructField

/-- A value. -/
inductive Spec.Val where
  | null
  | num (n : Int)
  | struct (fields : List (String × Spec.Val))

mutual
/-- The value in a row. -/
def Spec.row : Arr → Nat → Spec.Val
  | .leaf _ rows, i => (rows[i]?.getD none).elim .null .num
  | .struct valid cs, i => if valid[i]?.getD false then .struct (Spec.rowCols cs i) else .null
def Spec.rowCols : Cols → Nat → List (String × Spec.Val)
  | .nil, _ => []
  | .cons n _ a rest, i => (n, Spec.row a i) :: Spec.rowCols rest i
end

/-- A value with the field set. -/
def Spec.set (n : String) (v : Spec.Val) : Spec.Val → Spec.Val
  | .struct fs =>
    .struct (if n ∈ fs.map Prod.fst then fs.map (fun f => if f.1 = n then (n, v) else f) else fs ++ [(n, v)])
  | w => w

/-- A value without the field at the path. -/
def Spec.drop : List String → Spec.Val → Spec.Val
  | [n], .struct fs => .struct (fs.filter fun f => decide (f.1 ≠ n))
  | n :: m :: p, .struct fs => .struct (fs.map fun f => if f.1 = n then (n, Spec.drop (m :: p) f.2) else f)
  | _, v => v

/-- The names of the fields. -/
def Spec.names (cs : Cols) : List String := cs.toList.map Col.name

mutual
/-- What holds for every column of arrow: the columns of a struct are as long as the struct and have no NULL in its rows
if the field may not be NULL. -/
def Spec.wf : Arr → Prop
  | .leaf _ _ => True
  | .struct valid cs => Spec.wfCols valid cs
def Spec.wfCols (valid : List Bool) : Cols → Prop
  | .nil => True
  | .cons _ nullable a rest =>
    (a.valid.length = valid.length ∧ (nullable = false → ∀ i : Nat, valid[i]? = some true → Spec.row a i ≠ .null)
      ∧ Spec.wf a) ∧ Spec.wfCols valid rest
end

mutual
/-- The names in every struct are distinct. -/
def Spec.distinct : Arr → Prop
  | .leaf _ _ => True
  | .struct _ cs => (Spec.names cs).Nodup ∧ Spec.distinctCols cs
def Spec.distinctCols : Cols → Prop
  | .nil => True
  | .cons _ _ a rest => Spec.distinct a ∧ Spec.distinctCols rest
end

open Spec (Val row rowCols names wf wfCols distinct distinctCols)

/-- The field of a column. -/
def Col.fld (c : Col) : Fld := ⟨c.name, c.nullable, c.arr.type⟩

theorem flds_toList_ofList : ∀ l : List Fld, (Flds.ofList l).toList = l
  | [] => rfl
  | f :: l => by rw [Flds.ofList, Flds.toList, flds_toList_ofList l]

theorem cols_toList_ofList : ∀ l : List Col, (Cols.ofList l).toList = l
  | [] => rfl
  | f :: l => by rw [Cols.ofList, Cols.toList, cols_toList_ofList l]

theorem types_toList : ∀ cs : Cols, cs.types.toList = cs.toList.map Col.fld
  | .nil => rfl
  | .cons n b a rest => by rw [Cols.types, Flds.toList, Cols.toList, List.map_cons, types_toList rest]; rfl

theorem types_eq : ∀ cs : Cols, cs.types = .ofList (cs.toList.map Col.fld)
  | .nil => rfl
  | .cons n b a rest => by rw [Cols.types, Cols.toList, List.map_cons, Flds.ofList, types_eq rest]; rfl

theorem rowCols_eq (i : Nat) : ∀ cs : Cols, rowCols cs i = cs.toList.map fun c => (c.name, row c.arr i)
  | .nil => rfl
  | .cons n b a rest => by rw [rowCols, Cols.toList, List.map_cons, rowCols_eq i rest]

theorem valid_of_row : ∀ {a : Arr} {i : Nat}, row a i ≠ .null → a.valid[i]? = some true
  | .leaf _ rows, i, h => by
    rw [row] at h
    rw [Arr.valid, List.getElem?_map]
    cases hr : rows[i]? with
    | none => simp [hr] at h
    | some v =>
      cases v with
      | none => simp [hr] at h
      | some v => rfl
  | .struct valid cs, i, h => by
    rw [row] at h
    rw [Arr.valid]
    cases hr : valid[i]? with
    | none => simp [hr] at h
    | some v =>
      cases v with
      | false => simp [hr] at h
      | true => rfl

theorem wfCols_mem {valid : List Bool} : ∀ {cs : Cols}, wfCols valid cs → ∀ c ∈ cs.toList,
    c.arr.valid.length = valid.length ∧ (c.nullable = false → ∀ i : Nat, valid[i]? = some true → c.arr.valid[i]? = some true)
      ∧ wf c.arr
  | .nil, _, c, hc => by cases hc
  | .cons n b a rest, h, c, hc => by
    rw [wfCols] at h
    rw [Cols.toList] at hc
    rcases List.mem_cons.1 hc with rfl | hc
    · exact ⟨h.1.1, fun e i hi => valid_of_row (h.1.2.1 e i hi), h.1.2.2⟩
    · exact wfCols_mem h.2 c hc

theorem distinctCols_mem : ∀ {cs : Cols}, distinctCols cs → ∀ c ∈ cs.toList, distinct c.arr
  | .nil, _, c, hc => by cases hc
  | .cons n b a rest, h, c, hc => by
    rw [distinctCols] at h
    rw [Cols.toList] at hc
    rcases List.mem_cons.1 hc with rfl | hc
    · exact h.1
    · exact distinctCols_mem h.2 c hc

theorem collect_map {α β : Type} {h : α → Option β} {k : α → β} : ∀ {l : List α}, (∀ x ∈ l, h x = some (k x)) →
    collect (l.map h) = some (l.map k)
  | [], _ => rfl
  | x :: l, hx => by
    rw [List.map_cons, hx x List.mem_cons_self, collect, collect_map fun y hy => hx y (List.mem_cons_of_mem _ hy)]
    rfl

theorem collect_cons {α : Type} {x : Option α} {l : List (Option α)} {out : List α} (h : collect (x :: l) = some out) :
    ∃ y ys, x = some y ∧ collect l = some ys ∧ out = y :: ys := by
  cases x with
  | none => cases h
  | some y =>
    rw [collect] at h
    obtain ⟨ys, hy, rfl⟩ := Option.map_eq_some_iff.1 h
    exact ⟨y, ys, rfl, hy, rfl⟩

theorem collect_names {α β : Type} {g : α → Option β} {nm : α → String} {nm' : β → String} : ∀ {l : List α} {out : List β},
    collect (l.map g) = some out → (∀ x ∈ l, ∀ y, g x = some y → nm' y = nm x) → out.map nm' = l.map nm
  | [], out, h, _ => by cases h; rfl
  | x :: l, out, h, hn => by
    rw [List.map_cons] at h
    obtain ⟨y, ys, hy, hys, rfl⟩ := collect_cons h
    rw [List.map_cons, List.map_cons, hn x List.mem_cons_self y hy,
      collect_names hys fun z hz => hn z (List.mem_cons_of_mem _ hz)]

theorem byName_self : ∀ {cs : List Col}, (cs.map Col.name).Nodup → ∀ c ∈ cs, byName cs c.name = some c.arr
  | [], _, c, hc => by cases hc
  | x :: cs, h, c, hc => by
    rw [List.map_cons, List.nodup_cons] at h
    unfold byName
    rw [List.find?_cons]
    rcases List.mem_cons.1 hc with rfl | hc
    · simp
    · have : x.name ≠ c.name := fun e => h.1 (e ▸ List.mem_map.2 ⟨c, hc, rfl⟩)
      simp only [this, decide_false]
      exact byName_self h.2 c hc

theorem byName_none {cs : List Col} {n : String} (h : n ∉ cs.map Col.name) : byName cs n = none := by
  unfold byName
  rw [Option.map_eq_none_iff, List.find?_eq_none]
  intro c hc e
  exact h (List.mem_map.2 ⟨c, hc, by simpa using e⟩)

theorem fits_of {valid : List Bool} {f : Fld} {a : Arr} (ht : a.type = f.ty) (hl : a.valid.length = valid.length)
    (hn : f.nullable = false → ∀ i : Nat, valid[i]? = some true → a.valid[i]? = some true) : fits valid f a = true := by
  unfold fits
  rw [Bool.and_eq_true, Bool.and_eq_true]
  refine ⟨⟨by simp [ht], by simp [hl]⟩, ?_⟩
  cases hf : f.nullable with
  | true => rfl
  | false =>
    rw [Bool.false_or, List.all_eq_true]
    intro p hp
    obtain ⟨i, hi⟩ := List.mem_iff_getElem?.1 hp
    obtain ⟨h1, h2⟩ := List.getElem?_zip_eq_some.1 hi
    cases hv : p.1 with
    | false => rfl
    | true =>
      rw [hv] at h1
      have := hn hf i h1
      rw [h2] at this
      simpa using this

theorem row_struct {valid : List Bool} {l : List Col} {i : Nat} :
    row (.struct valid (.ofList l)) i = if valid[i]?.getD false then .struct (l.map fun c => (c.name, row c.arr i)) else .null := by
  rw [row, rowCols_eq, cols_toList_ofList]

theorem any_name {l : List Col} {n : String} :
    ((l.map Col.fld).any fun f => decide (f.name = n)) = decide (n ∈ l.map Col.name) := by
  induction l with
  | nil => rfl
  | cons c l ih =>
    rw [List.map_cons, List.any_cons, ih]
    by_cases h : c.name = n
    · simp [Col.fld, h]
    · have : n ≠ c.name := fun e => h e.symm
      simp [Col.fld, h, this]

/-- With a path of one name, every row of the result is the row with the field set. -/
theorem C151_one_name_partial {valid : List Bool} {cs : Cols} {new : Arr} (n : String) (columns : wf (.struct valid cs))
    (unique : (names cs).Nodup) (length : new.valid.length = valid.length) :
    ∃ out, withField [n] new (.struct valid cs) = some out
      ∧ ∀ i, row out i = Spec.set n (row new i) (row (.struct valid cs) i) := by
  rw [wf] at columns
  have hw := fun c hc => wfCols_mem columns c hc
  have hself := byName_self unique
  have hupd : updateTy n new.type [n] (Arr.struct valid cs).type = some (.struct (.ofList
      (if n ∈ names cs then cs.toList.map (fun c => if c.name = n then ⟨n, true, new.type⟩ else c.fld)
        else cs.toList.map Col.fld ++ [⟨n, true, new.type⟩]))) := by
    rw [Arr.type, updateTy, Ty.asStruct, Option.bind_some, types_toList, List.map_map,
      collect_map (k := fun c => if c.name = n then ⟨n, true, new.type⟩ else c.fld), Option.map_some, any_name]
    · by_cases h : n ∈ names cs
      · have h' : n ∈ cs.toList.map Col.name := h
        simp [h, h']
      · have h' : n ∉ cs.toList.map Col.name := h
        simp only [h, h', decide_false, if_false, Bool.false_eq_true, if_true]
        congr 4
        refine List.map_congr_left fun c hc => ?_
        rw [if_neg fun e => h (List.mem_map.2 ⟨c, hc, e⟩)]
    · intro c hc
      by_cases h : c.name = n <;> simp [Col.fld, h]
  unfold withField
  rw [List.getLast?_singleton, Option.bind_some, updateArr, hupd]
  simp only [Arr.asStruct, Option.bind_some, Ty.asStruct, flds_toList_ofList, if_true]
  by_cases h : n ∈ names cs
  · rw [if_pos h, List.map_map, collect_map (k := fun c => if c.name = n then new else c.arr)]
    · rw [Option.bind_some, tryNew, List.zip_map', if_pos]
      · refine ⟨_, rfl, fun i => ?_⟩
        rw [row_struct, row, rowCols_eq]
        by_cases hv : valid[i]?.getD false = true
        · rw [if_pos hv, if_pos hv, Spec.set, List.map_map, List.map_map, List.map_map]
          have : (Prod.fst ∘ fun c : Col => (c.name, row c.arr i)) = Col.name := rfl
          rw [this, if_pos (show n ∈ cs.toList.map Col.name from h)]
          congr 1
          rw [List.map_map]
          refine List.map_congr_left fun c _ => ?_
          by_cases hc : c.name = n <;> simp [hc, Col.fld]
        · rw [if_neg hv, if_neg hv, Spec.set]
          intro fs e
          cases e
      · rw [List.all_map, List.all_eq_true]
        intro c hc
        by_cases hcn : c.name = n
        · simp only [Function.comp_apply, if_pos hcn]
          exact fits_of rfl length (fun e => by cases e)
        · simp only [Function.comp_apply, if_neg hcn]
          exact fits_of rfl (hw c hc).1 (hw c hc).2.1
    · intro c hc
      by_cases hcn : c.name = n
      · simp [hcn]
      · have := hself c hc
        simp only [Function.comp_apply, if_neg hcn]
        simp [Col.fld, hcn, this]
  · rw [if_neg h, List.map_append, List.map_map]
    have hlist : cs.toList.map ((fun f : Fld => if f.name = n then some new else byName cs.toList f.name) ∘ Col.fld)
        ++ [(⟨n, true, new.type⟩ : Fld)].map (fun f : Fld => if f.name = n then some new else byName cs.toList f.name)
        = (cs.toList ++ [(⟨n, true, new⟩ : Col)]).map fun c : Col => some c.arr := by
      rw [List.map_append]
      congr 1
      · refine List.map_congr_left fun c hc => ?_
        have hcn : c.name ≠ n := fun e => h (List.mem_map.2 ⟨c, hc, e⟩)
        have := hself c hc
        simp [Col.fld, hcn, this]
      · simp
    rw [hlist, collect_map (k := Col.arr) (fun _ _ => rfl), Option.bind_some, tryNew]
    have hfs : cs.toList.map Col.fld ++ [(⟨n, true, new.type⟩ : Fld)] = (cs.toList ++ [(⟨n, true, new⟩ : Col)]).map Col.fld := by
      rw [List.map_append]
      rfl
    rw [hfs, List.zip_map', if_pos]
    · refine ⟨_, rfl, fun i => ?_⟩
      rw [row_struct, row, rowCols_eq]
      by_cases hv : valid[i]?.getD false = true
      · rw [if_pos hv, if_pos hv, Spec.set, List.map_map, List.map_map, List.map_map]
        have : (Prod.fst ∘ fun c : Col => (c.name, row c.arr i)) = Col.name := rfl
        rw [this, if_neg (show n ∉ cs.toList.map Col.name from h), List.map_append]
        rfl
      · rw [if_neg hv, if_neg hv, Spec.set]
        intro fs e
        cases e
    · rw [List.all_map, List.all_eq_true]
      intro c hc
      rcases List.mem_append.1 hc with hc | hc
      · exact fits_of rfl (hw c hc).1 (hw c hc).2.1
      · cases List.mem_singleton.1 hc
        exact fits_of rfl length (fun e => by cases e)

/-- A column with a nested struct: `{a: {b: 1}, c: 2}` and NULL. -/
def Spec.sample : Arr :=
  .struct [true, false] (.cons "a" true (.struct [true, true] (.cons "b" true (.leaf 0 [some 1, some 3]) .nil))
    (.cons "c" true (.leaf 0 [some 2, some 4]) .nil))

example : wf Spec.sample ∧ distinct Spec.sample := by
  simp [Spec.sample, wf, wfCols, distinct, distinctCols, Spec.names, Cols.toList, Arr.valid]

example : (withField ["c"] (.leaf 1 [some 9, none]) Spec.sample).map (fun a => (row a 0, row a 1))
    = some (.struct [("a", .struct [("b", .num 1)]), ("c", .num 9)], .null) := by rfl

/-- With a path of more names, of which the last is not a field of the outer struct, a call that succeeds returns its
argument: the new value is ignored. -/
theorem C151_nested_ignored {valid : List Bool} {cs : Cols} {new out : Arr} {n m last : String} {p : List String}
    (unique : (names cs).Nodup) (is_last : (n :: m :: p).getLast? = some last) (inner : last ∉ names cs)
    (accepted : withField (n :: m :: p) new (.struct valid cs) = some out) (i : Nat) : row out i = row (.struct valid cs) i := by
  unfold withField at accepted
  rw [is_last, Option.bind_some, updateArr] at accepted
  simp only [Arr.asStruct, Option.bind_some] at accepted
  obtain ⟨t, ht, accepted⟩ := Option.bind_eq_some_iff.1 accepted
  obtain ⟨fs, hfs, accepted⟩ := Option.bind_eq_some_iff.1 accepted
  obtain ⟨arrs, harrs, accepted⟩ := Option.bind_eq_some_iff.1 accepted
  rw [Arr.type, updateTy, Ty.asStruct, Option.bind_some, types_toList, any_name] at ht
  obtain ⟨fs0, hfs0, rfl⟩ := Option.map_eq_some_iff.1 ht
  simp only [Ty.asStruct, flds_toList_ofList, Option.some.injEq] at hfs
  have hnames : fs0.map Fld.name = (cs.toList.map Col.fld).map Fld.name := by
    refine collect_names hfs0 fun f _ y hy => ?_
    split at hy
    · rw [if_neg (by simp)] at hy
      obtain ⟨u, -, rfl⟩ := Option.map_eq_some_iff.1 hy
      rfl
    · cases hy
      rfl
  rw [List.map_map] at hnames
  have hnm : (Fld.name ∘ Col.fld) = Col.name := rfl
  rw [hnm] at hnames
  by_cases hn : n ∈ cs.toList.map Col.name
  · rw [if_pos (by simpa using hn)] at hfs
    subst hfs
    have hpick : fs0.map (fun f : Fld => if f.name = last then if (m :: p) = [] then some new else
          (byName cs.toList f.name).bind (updateArr last new (m :: p)) else byName cs.toList f.name)
        = (fs0.map Fld.name).map (byName cs.toList) := by
      rw [List.map_map]
      refine List.map_congr_left fun f hf => ?_
      have : f.name ∈ names cs := by
        have : f.name ∈ fs0.map Fld.name := List.mem_map.2 ⟨f, hf, rfl⟩
        rw [hnames] at this
        exact this
      rw [if_neg (fun e : f.name = last => inner (e ▸ this))]
      rfl
    rw [hpick, hnames, List.map_map, collect_map (h := byName cs.toList ∘ Col.name) (k := Col.arr) (byName_self unique)] at harrs
    cases harrs
    unfold tryNew at accepted
    split at accepted
    · cases accepted
      rw [row_struct, row, rowCols_eq]
      congr 2
      rw [List.map_map]
      have : ((fun c : Col => (c.name, row c.arr i)) ∘ fun q : Fld × Arr => (⟨q.1.name, q.1.nullable, q.2⟩ : Col))
          = Prod.map id (fun a => row a i) ∘ Prod.map Fld.name id := rfl
      rw [this, ← List.map_map, ← List.zip_map, hnames, List.map_id, List.zip_map', List.map_map]
      rfl
    · cases accepted
  · rw [if_neg (by simpa using hn)] at hfs
    subst hfs
    exfalso
    rw [if_neg (by simp), List.map_append] at harrs
    have hnone : (if n = last then if (m :: p) = [] then some new else
        (byName cs.toList n).bind (updateArr last new (m :: p)) else byName cs.toList n) = none := by
      rw [byName_none hn]
      by_cases e : n = last <;> simp [e]
    rw [List.map_cons, List.map_nil, hnone] at harrs
    have : ∀ (l : List (Option Arr)) (out : List Arr), collect (l ++ [none]) ≠ some out := by
      intro l
      induction l with
      | nil => intro out h; cases h
      | cons x l ih =>
        intro out h
        rw [List.cons_append] at h
        obtain ⟨y, ys, -, hys, -⟩ := collect_cons h
        exact ih ys hys
    exact this _ _ harrs

/-- So the field keeps its value where the types agree. -/
theorem C151_nested_wrong :
    (withField ["a", "b"] (.leaf 0 [some 7, some 7]) Spec.sample).map (fun a => row a 0)
      = some (.struct [("a", .struct [("b", .num 1)]), ("c", .num 2)]) := by rfl

/-- A new field in an inner struct is refused. -/
theorem C151_nested_refused : withField ["a", "d"] (.leaf 0 [some 7, some 7]) Spec.sample = none := by rfl

/-- A name in another case adds a field. -/
theorem C151_case :
    (withField ["C"] (.leaf 0 [some 7, some 7]) Spec.sample).map (fun a => row a 0)
      = some (.struct [("a", .struct [("b", .num 1)]), ("c", .num 2), ("C", .num 7)]) := by rfl

/-- Of two fields with the same name the second gets the values of the first when another field is set. -/
theorem C151_duplicate_names :
    (withField ["y"] (.leaf 0 [some 7]) (.struct [true] (.cons "x" true (.leaf 0 [some 1]) (.cons "x" true (.leaf 0 [some 2]) .nil)))).map
        (fun a => row a 0)
      = some (.struct [("x", .num 1), ("x", .num 1), ("y", .num 7)]) := by rfl

end Verif.Func.StructField
