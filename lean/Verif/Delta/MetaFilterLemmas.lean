import Verif.Delta.MetaFilter
import Init.Data.Order.Ord

namespace Verif.Delta.MetaFilter

namespace Spec

/-- The value at a path: a column and then field by field. -/
def at_ (env : String → Val) : List String → Val
  | [] => .null
  | n :: ns => ns.foldl Val.field (env n)

/-- Following a path inside a struct. -/
def inside (v : Val) (path : List String) : Val := path.foldl Val.field v

/-- The path is not just a partition column. -/
def Stored (t : Table) (path : List String) : Prop := path ≠ [] ∧ ∀ p ∈ t.parts, path ≠ [p.1]

/-- The path under which the statistics of a column are recorded: its physical path if it has one. -/
def physicalOf (t : Table) (path : List String) : List String :=
  ((t.phys.find? (fun e => e.1 == path)).map Prod.snd).getD path

/-- The statistics of a file say the truth about the rows stored in it: bounds that are there
enclose the values, counts that are there are right. -/
structure Describes (t : Table) (f : File) : Prop where
  live : ∀ r ∈ f.rows, r ∈ f.stored
  low : ∀ s, f.stats = some s → ∀ path, Stored t path → ∀ r ∈ f.stored,
    (at_ (envOf (seen t f r)) path).isNull = false →
    (inside s.minValues (physicalOf t path)).isNull = true ∨
    cmp3 .le (inside s.minValues (physicalOf t path)) (at_ (envOf (seen t f r)) path) = some true
  high : ∀ s, f.stats = some s → ∀ path, Stored t path → ∀ r ∈ f.stored,
    (at_ (envOf (seen t f r)) path).isNull = false →
    (inside s.maxValues (physicalOf t path)).isNull = true ∨
    cmp3 .ge (inside s.maxValues (physicalOf t path)) (at_ (envOf (seen t f r)) path) = some true
  count : ∀ s, f.stats = some s →
    s.numRecords.isNull = true ∨ s.numRecords = .int f.stored.length
  nulls : ∀ s, f.stats = some s → ∀ path, Stored t path →
    (inside s.nullCount (physicalOf t path)).isNull = true ∨
    inside s.nullCount (physicalOf t path) =
      .int (f.stored.countP (fun r => (at_ (envOf (seen t f r)) path).isNull))

/-- Every partition text of the file can be read as a value. -/
def Readable (t : Table) (f : File) : Prop :=
  ∀ p ty, t.parts.lookup p = some ty → ∀ s, f.text p = some s →
    (readPart ty (some s)).isNull = false

/-- A partition column under a cast is cast to its own type. -/
def CastOk (t : Table) : Expr → Prop
  | .cast (.col p) ty => ∀ ty', t.parts.lookup p = some ty' → ty = ty'
  | _ => True

/-- In comparisons, BETWEEN, IN and null checks, partition columns are cast to their own types
only. -/
def CastsOk (t : Table) : Expr → Prop
  | .cmp _ l r => CastOk t l ∧ CastOk t r
  | .and l r => CastsOk t l ∧ CastsOk t r
  | .or l r => CastsOk t l ∧ CastsOk t r
  | .not e => CastsOk t e
  | .between e _ _ _ => CastOk t e
  | .inList e _ _ => CastOk t e
  | .isNull e => CastOk t e
  | .isNotNull e => CastOk t e
  | .alias e => CastsOk t e
  | _ => True

/-- The predicate is true. -/
def True_ (env : String → Val) (e : Expr) : Prop := (eval env e).toB = some true

end Spec

open Spec

/-! ### Three-valued logic -/

@[simp] theorem toB_ofB (x : Option Bool) : (ofB x).toB = x := by cases x <;> rfl

theorem and3_true {a b : Option Bool} : and3 a b = some true ↔ a = some true ∧ b = some true := by
  rcases a with _ | (_ | _) <;> rcases b with _ | (_ | _) <;> simp [and3]

theorem or3_true {a b : Option Bool} : or3 a b = some true ↔ a = some true ∨ b = some true := by
  rcases a with _ | (_ | _) <;> rcases b with _ | (_ | _) <;> simp [or3]

theorem or3_false {a b : Option Bool} :
    or3 a b = some false ↔ a = some false ∧ b = some false := by
  rcases a with _ | (_ | _) <;> rcases b with _ | (_ | _) <;> simp [or3]

theorem and3_false {a b : Option Bool} :
    and3 a b = some false ↔ a = some false ∨ b = some false := by
  rcases a with _ | (_ | _) <;> rcases b with _ | (_ | _) <;> simp [and3]

theorem not3_true {a : Option Bool} : not3 a = some true ↔ a = some false := by
  rcases a with _ | (_ | _) <;> simp [not3]

/-! ### Comparisons -/

/-- How the orders of three values fit together. -/
structure Fits (a b c : Ordering) : Prop where
  lt : a ≠ .gt → b = .lt → c = .lt
  le : a ≠ .gt → b ≠ .gt → c ≠ .gt
  gt : a ≠ .lt → b = .gt → c = .gt
  ge : a ≠ .lt → b ≠ .lt → c ≠ .lt

theorem fits {α : Type} [Ord α] [Std.TransOrd α] (x y z : α) :
    Fits (compare x y) (compare y z) (compare x z) := by
  refine ⟨fun h g => ?_, fun h g => ?_, fun h g => ?_, fun h g => ?_⟩
  · exact Std.TransCmp.lt_of_isLE_of_lt (by rcases hc : compare x y <;> simp_all) g
  · have := Std.TransCmp.isLE_trans (cmp := compare) (a := x) (b := y) (c := z)
      (by rcases hc : compare x y <;> simp_all) (by rcases hc : compare y z <;> simp_all)
    rcases hc : compare x z <;> simp_all
  · exact Std.TransCmp.gt_of_isGE_of_gt (by rcases hc : compare x y <;> simp_all) g
  · have := Std.TransCmp.isGE_trans (cmp := compare) (a := x) (b := y) (c := z)
      (by rcases hc : compare x y <;> simp_all) (by rcases hc : compare y z <;> simp_all)
    rcases hc : compare x z <;> simp_all

theorem ord_fits {m v w : Val} {a b : Ordering} (h : ord m v = some a) (g : ord v w = some b) :
    ∃ c, ord m w = some c ∧ Fits a b c := by
  cases m <;> cases v <;> simp only [ord, reduceCtorEq] at h <;>
    cases w <;> simp only [ord, reduceCtorEq] at g
  case int.int.int => cases h; cases g; exact ⟨_, rfl, fits _ _ _⟩
  case str.str.str => cases h; cases g; exact ⟨_, rfl, fits _ _ _⟩
  case bool.bool.bool => cases h; cases g; exact ⟨_, rfl, fits _ _ _⟩
  case raw.int.int s x y =>
    cases g
    cases hp : (parseInt s) with
    | none => rw [hp] at h; cases h
    | some z => rw [hp] at h; cases h; exact ⟨compare z y, by simp [ord, hp], fits _ _ _⟩
  case raw.str.str s x y => cases h; cases g; exact ⟨_, rfl, fits _ _ _⟩
  case raw.bool.bool s x y =>
    cases g
    cases hp : parseBool s with
    | none => rw [hp] at h; cases h
    | some z => rw [hp] at h; cases h; exact ⟨compare z y, by simp [ord, hp], fits _ _ _⟩

theorem cmp3_true {op : Op} {a b : Val} :
    cmp3 op a b = some true ↔ ∃ o, ord a b = some o ∧ op.holds o = true := by
  unfold cmp3
  cases ord a b <;> simp

theorem low_lt {m v w : Val} (h : cmp3 .le m v = some true) (g : cmp3 .lt v w = some true) :
    cmp3 .lt m w = some true := by
  obtain ⟨a, ha, ha'⟩ := cmp3_true.mp h
  obtain ⟨b, hb, hb'⟩ := cmp3_true.mp g
  obtain ⟨c, hc, f⟩ := ord_fits ha hb
  refine cmp3_true.mpr ⟨c, hc, ?_⟩
  have := f.lt (by simpa [Op.holds] using ha') (by simpa [Op.holds] using hb')
  simp [Op.holds, this]

theorem low_le {m v w : Val} {op : Op} (hop : op = .le ∨ op = .eq)
    (h : cmp3 .le m v = some true) (g : cmp3 op v w = some true) :
    cmp3 .le m w = some true := by
  obtain ⟨a, ha, ha'⟩ := cmp3_true.mp h
  obtain ⟨b, hb, hb'⟩ := cmp3_true.mp g
  obtain ⟨c, hc, f⟩ := ord_fits ha hb
  refine cmp3_true.mpr ⟨c, hc, ?_⟩
  have hb2 : b ≠ .gt := by
    rcases hop with rfl | rfl <;> cases b <;> simp [Op.holds] at hb' ⊢
  have := f.le (by simpa [Op.holds] using ha') hb2
  cases c <;> simp_all [Op.holds]

theorem high_gt {m v w : Val} (h : cmp3 .ge m v = some true) (g : cmp3 .gt v w = some true) :
    cmp3 .gt m w = some true := by
  obtain ⟨a, ha, ha'⟩ := cmp3_true.mp h
  obtain ⟨b, hb, hb'⟩ := cmp3_true.mp g
  obtain ⟨c, hc, f⟩ := ord_fits ha hb
  refine cmp3_true.mpr ⟨c, hc, ?_⟩
  have := f.gt (by simpa [Op.holds] using ha') (by simpa [Op.holds] using hb')
  simp [Op.holds, this]

theorem high_ge {m v w : Val} {op : Op} (hop : op = .ge ∨ op = .eq)
    (h : cmp3 .ge m v = some true) (g : cmp3 op v w = some true) :
    cmp3 .ge m w = some true := by
  obtain ⟨a, ha, ha'⟩ := cmp3_true.mp h
  obtain ⟨b, hb, hb'⟩ := cmp3_true.mp g
  obtain ⟨c, hc, f⟩ := ord_fits ha hb
  refine cmp3_true.mpr ⟨c, hc, ?_⟩
  have hb2 : b ≠ .lt := by
    rcases hop with rfl | rfl <;> cases b <;> simp [Op.holds] at hb' ⊢
  have := f.ge (by simpa [Op.holds] using ha') hb2
  cases c <;> simp_all [Op.holds]

/-- If two values differ then the first is smaller or greater. -/
theorem ne_split {v w : Val} (g : cmp3 .ne v w = some true) :
    cmp3 .lt v w = some true ∨ cmp3 .gt v w = some true := by
  obtain ⟨b, hb, hb'⟩ := cmp3_true.mp g
  cases b
  · exact .inl (cmp3_true.mpr ⟨_, hb, rfl⟩)
  · simp [Op.holds] at hb'
  · exact .inr (cmp3_true.mpr ⟨_, hb, rfl⟩)

theorem cmp3_nonnull {op : Op} {v w : Val} (g : cmp3 op v w = some true) : v.isNull = false := by
  obtain ⟨b, hb, -⟩ := cmp3_true.mp g
  cases v <;> simp [ord] at hb <;> rfl

/-- Two ordered values of which neither is a raw text can be swapped. -/
theorem ord_swap {v w : Val} {o : Ordering} (h : ord v w = some o) (hv : ∀ s, v ≠ .raw s) :
    ord w v = some o.swap := by
  cases v <;> simp only [ord, reduceCtorEq] at h <;>
    cases w <;> simp only [ord, reduceCtorEq, Option.some.injEq] at h
  case int.int a b => subst h; simp [ord, Std.OrientedCmp.eq_swap (cmp := compare) (a := b) (b := a)]
  case str.str a b => subst h; simp [ord, Std.OrientedCmp.eq_swap (cmp := compare) (a := b) (b := a)]
  case bool.bool a b =>
    subst h; simp [ord, Std.OrientedCmp.eq_swap (cmp := compare) (a := b) (b := a)]
  case raw.int s _ => exact absurd rfl (hv s)
  case raw.str s _ => exact absurd rfl (hv s)
  case raw.bool s _ => exact absurd rfl (hv s)

theorem reverse_holds (op : Op) (o : Ordering) : op.reverse.holds o.swap = op.holds o := by
  cases op <;> cases o <;> rfl

/-! ### Expressions -/

theorem eval_free (e : Expr) (h : e.cols = []) (env env' : String → Val) :
    eval env e = eval env' e := by
  induction e with
  | col n => simp [Expr.cols] at h
  | field e n ih => simp only [eval]; rw [ih h]
  | lit v => rfl
  | cmp op l r ihl ihr =>
    simp only [Expr.cols, List.append_eq_nil_iff] at h; simp only [eval]; rw [ihl h.1, ihr h.2]
  | and l r ihl ihr =>
    simp only [Expr.cols, List.append_eq_nil_iff] at h; simp only [eval]; rw [ihl h.1, ihr h.2]
  | or l r ihl ihr =>
    simp only [Expr.cols, List.append_eq_nil_iff] at h; simp only [eval]; rw [ihl h.1, ihr h.2]
  | not e ih => simp only [eval]; rw [ih h]
  | between e neg lo hi ih ihlo ihhi =>
    simp only [Expr.cols, List.append_eq_nil_iff] at h
    simp only [eval]; rw [ih h.1, ihlo h.2.1, ihhi h.2.2]
  | inList e vs neg ih => simp only [eval]; rw [ih h]
  | isNull e ih => simp only [eval]; rw [ih h]
  | isNotNull e ih => simp only [eval]; rw [ih h]
  | cast e t ih => simp only [eval]; rw [ih h]
  | alias e ih => simp only [eval]; rw [ih h]
  | other reads f => simp only [Expr.cols] at h; subst h; rfl

theorem free_cols {e : Expr} (h : e.free = true) : e.cols = [] := by
  simpa [Expr.free] using h

theorem at_append (env : String → Val) {p : List String} (hp : p ≠ []) (n : String) :
    at_ env (p ++ [n]) = (at_ env p).field n := by
  cases p with
  | nil => exact absurd rfl hp
  | cons a as => simp [at_, List.foldl_append]

theorem columnPath_eval {e : Expr} {p : List String} (h : columnPath e = some p) :
    p ≠ [] ∧ ∀ env, eval env e = at_ env p := by
  induction e generalizing p with
  | col n => simp only [columnPath, Option.some.injEq] at h; subst h; exact ⟨by simp, fun _ => rfl⟩
  | field e n ih =>
    simp only [columnPath, Option.map_eq_some_iff] at h
    obtain ⟨q, hq, rfl⟩ := h
    obtain ⟨h1, h2⟩ := ih hq
    exact ⟨by simp, fun env => by rw [at_append env h1, ← h2 env]; rfl⟩
  | _ => simp [columnPath] at h

/-- A value under the cast of a template. -/
def Template.castV (tm : Template) (v : Val) : Val :=
  match tm.castTy with
  | some ty => castVal ty v
  | none => v

theorem Template.eval_apply (tm : Template) (env : String → Val) (e : Expr) :
    eval env (tm.apply e) = tm.castV (eval env e) := by
  unfold Template.apply Template.castV
  cases tm.castTy <;> rfl

theorem template_eval {e : Expr} {tm : Template} (h : template e = some tm) :
    tm.path ≠ [] ∧ ∀ env, eval env e = tm.castV (at_ env tm.path) := by
  unfold template at h
  split at h
  · next e' t =>
    simp only [Option.map_eq_some_iff] at h
    obtain ⟨p, hp, rfl⟩ := h
    obtain ⟨h1, h2⟩ := columnPath_eval hp
    exact ⟨h1, fun env => by simp only [eval, Template.castV]; rw [h2 env]⟩
  · simp only [Option.map_eq_some_iff] at h
    obtain ⟨p, hp, rfl⟩ := h
    obtain ⟨h1, h2⟩ := columnPath_eval hp
    exact ⟨h1, fun env => by simp only [Template.castV]; rw [h2 env]⟩

theorem template_free {e : Expr} {tm : Template} (h : template e = some tm) : e.free = false := by
  have key : ∀ e p, columnPath e = some p → e.cols ≠ [] := by
    intro e
    induction e with
    | col n => intro p _; simp [Expr.cols]
    | field e n ih =>
      intro p h
      simp only [columnPath, Option.map_eq_some_iff] at h
      obtain ⟨q, hq, -⟩ := h
      exact ih q hq
    | _ => intro p h; simp [columnPath] at h
  unfold template at h
  split at h
  · next e' t =>
    simp only [Option.map_eq_some_iff] at h
    obtain ⟨p, hp, rfl⟩ := h
    simpa [Expr.free, Expr.cols] using key _ _ hp
  · simp only [Option.map_eq_some_iff] at h
    obtain ⟨p, hp, rfl⟩ := h
    simpa [Expr.free] using key _ _ hp

theorem columnPath_single {e : Expr} {n : String} (h : columnPath e = some [n]) : e = .col n := by
  cases e with
  | col m => simp only [columnPath, Option.some.injEq, List.cons.injEq, and_true] at h; rw [h]
  | field e m =>
    simp only [columnPath, Option.map_eq_some_iff] at h
    obtain ⟨q, hq, hq'⟩ := h
    obtain ⟨h1, -⟩ := columnPath_eval hq
    cases q with
    | nil => exact absurd rfl h1
    | cons a as => simp at hq'
  | _ => simp [columnPath] at h

/-- A template of a partition column comes from the column, with the template's cast. -/
theorem template_single {e : Expr} {tm : Template} {n : String} (h : template e = some tm)
    (hp : tm.path = [n]) : e = tm.apply (.col n) := by
  unfold template at h
  split at h
  · next e' t =>
    simp only [Option.map_eq_some_iff] at h
    obtain ⟨p, hp', rfl⟩ := h
    simp only at hp
    subst hp
    rw [columnPath_single hp']; rfl
  · simp only [Option.map_eq_some_iff] at h
    obtain ⟨p, hp', rfl⟩ := h
    simp only at hp
    subst hp
    rw [columnPath_single hp']; rfl

theorem isPartition_true {t : Table} {tm : Template} (h : isPartition t tm = true) :
    ∃ ty, tm.path = [tm.root] ∧ t.parts.lookup tm.root = some ty := by
  unfold isPartition at h
  simp only [Bool.and_eq_true, beq_iff_eq, List.contains_iff_mem, List.mem_map] at h
  obtain ⟨h1, p, hp, hr⟩ := h
  have : tm.path = [tm.root] := by
    match hpath : tm.path, h1 with
    | [a], _ => simp [Template.root, hpath]
  have key : ∀ (l : List (String × Ty)), p ∈ l → ∃ ty, l.lookup tm.root = some ty := by
    intro l
    induction l with
    | nil => intro h; cases h
    | cons a as ih =>
      intro h
      rw [List.lookup_cons]
      by_cases hb : tm.root == a.1
      · rw [hb]; exact ⟨_, rfl⟩
      · rw [Bool.not_eq_true] at hb
        rw [hb]
        rcases List.mem_cons.mp h with rfl | h
        · simp [hr] at hb
        · exact ih h
  obtain ⟨ty, hty⟩ := key _ hp
  exact ⟨ty, this, hty⟩

theorem isPartition_false {t : Table} {tm : Template} (h : isPartition t tm = false)
    (hne : tm.path ≠ []) : Stored t tm.path := by
  refine ⟨hne, fun p hp heq => ?_⟩
  have : isPartition t tm = true := by
    simp only [isPartition, Bool.and_eq_true, beq_iff_eq, List.contains_iff_mem, List.mem_map]
    exact ⟨by rw [heq]; rfl, p, hp, by simp [Template.root, heq]⟩
  rw [this] at h; cases h

/-! ### The rows and the metadata row -/

theorem env_part {t : Table} {f : File} {r : Row} {p : String} {ty : Ty}
    (h : t.parts.lookup p = some ty) : envOf (seen t f r) p = readPart ty (f.text p) := by
  unfold envOf seen
  have key : ∀ (l : List (String × Ty)), l.lookup p = some ty →
      (l.map (fun p => (p.1, readPart p.2 (f.text p.1))) ++ r).lookup p
        = some (readPart ty (f.text p)) := by
    intro l
    induction l with
    | nil => intro h; cases h
    | cons a as ih =>
      intro h
      rw [List.lookup_cons] at h
      simp only [List.map_cons, List.cons_append]
      rw [List.lookup_cons]
      by_cases hb : p == a.1
      · rw [hb] at h ⊢
        simp only [Option.some.injEq] at h
        rw [h, eq_of_beq hb]
      · rw [Bool.not_eq_true] at hb
        rw [hb] at h ⊢
        exact ih h
  rw [key _ h]; rfl

theorem mem_of_lookup {l : List (String × Ty)} {p : String} {ty : Ty}
    (h : l.lookup p = some ty) : p ∈ l.map Prod.fst := by
  induction l with
  | nil => cases h
  | cons a as ih =>
    rw [List.lookup_cons] at h
    by_cases hb : p == a.1
    · simp [eq_of_beq hb]
    · rw [Bool.not_eq_true] at hb
      rw [hb] at h
      exact List.mem_cons_of_mem _ (ih h)

/-- The text of a partition value, as a value. -/
def rawVal : Option String → Val
  | some s => .raw s
  | none => .null

theorem meta_part {t : Table} {f : File} {p : String} {ty : Ty}
    (h : t.parts.lookup p = some ty) : metaEnv t f p = rawVal (f.text p) := by
  unfold metaEnv
  have := mem_of_lookup h
  rw [if_pos (by simpa [List.contains_iff_mem] using this)]
  unfold rawVal
  cases f.text p <;> rfl

theorem meta_stats {t : Table} {f : File} (h : "stats_parsed" ∉ t.parts.map Prod.fst) :
    metaEnv t f "stats_parsed" = (f.stats.map Stats.toVal).getD .null := by
  unfold metaEnv
  rw [if_neg (by simpa [List.contains_iff_mem] using h), if_pos rfl]
  cases f.stats <;> rfl

theorem inside_null (path : List String) : inside .null path = .null := by
  unfold inside
  induction path with
  | nil => rfl
  | cons n ns ih => exact ih

theorem eval_fold (env : String → Val) (path : List String) (e : Expr) :
    eval env (path.foldl (fun e n => .field e n) e) = inside (eval env e) path := by
  unfold inside
  induction path generalizing e with
  | nil => rfl
  | cons n ns ih => simp only [List.foldl_cons]; rw [ih]; rfl

/-- What a statistics expression finds: nothing, or what the statistics of the file have. -/
theorem physical_eq (t : Table) (path : List String) : t.physical path = physicalOf t path := by
  unfold Table.physical physicalOf
  congr 1
  induction t.phys with
  | nil => rfl
  | cons e l ih =>
    rw [List.lookup_cons, List.find?_cons, ih]
    by_cases h : e.1 = path
    · subst h; simp
    · have h1 : (path == e.1) = false := by simpa using fun h' => h h'.symm
      have h2 : (e.1 == path) = false := by simpa using h
      rw [h1, h2]

theorem eval_statsNested {t : Table} {f : File} (h : "stats_parsed" ∉ t.parts.map Prod.fst)
    (root : String) (path : List String) :
    eval (metaEnv t f) (statsNested t root path) =
      inside (((f.stats.map Stats.toVal).getD .null).field root) (physicalOf t path) := by
  rw [← physical_eq]
  unfold statsNested
  rw [eval_fold]
  simp only [eval]
  rw [meta_stats h]

/-- A comparison that is true of the partition value of a row is true of its text. -/
theorem raw_cmp {ty : Ty} {s : Option String} {v : Val} {o : Ordering}
    (h : ord (readPart ty s) v = some o) : ord (rawVal s) v = some o := by
  cases s with
  | none => simp [readPart, ord] at h
  | some s =>
    simp only [readPart] at h
    split at h
    · next g => simp only [ord, reduceCtorEq] at h
    · simp only [rawVal]
      cases ty with
      | int =>
        simp only [castVal] at h
        cases hp : (parseInt s) with
        | none => rw [hp] at h; simp [ord] at h
        | some i =>
          rw [hp] at h
          cases v <;> simp [ord] at h
          simp [ord, hp, h]
      | str => simp only [castVal] at h; cases v <;> simp [ord] at h; simp [ord, h]
      | bool =>
        simp only [castVal] at h
        cases hp : parseBool s with
        | none => rw [hp] at h; simp [ord] at h
        | some i =>
          rw [hp] at h
          cases v <;> simp [ord] at h
          simp [ord, hp, h]

theorem raw_cast {ty : Ty} {s : Option String} {v : Val} {o : Ordering}
    (h : ord (castVal ty (readPart ty s)) v = some o) : ord (castVal ty (rawVal s)) v = some o := by
  cases s with
  | none => cases ty <;> simp [readPart, castVal, ord] at h
  | some s =>
    simp only [readPart] at h
    split at h
    · next g => cases ty <;> simp [castVal, ord] at h
    · simp only [rawVal]
      cases ty with
      | int =>
        simp only [castVal] at h
        cases hp : (parseInt s) with
        | none => rw [hp] at h; simp [castVal, ord] at h
        | some i => rw [hp] at h; simpa [castVal, hp] using h
      | str => simpa [castVal] using h
      | bool =>
        simp only [castVal] at h
        cases hp : parseBool s with
        | none => rw [hp] at h; simp [castVal, ord] at h
        | some i => rw [hp] at h; simpa [castVal, hp] using h

end Verif.Delta.MetaFilter
