import Verif.Delta.Widening
import Verif.Delta.SchemaLemmas
/-!
# Type widening: specification and lemmas
-/

namespace Verif.Delta.Schema

namespace Spec

mutual
/-- The column at a path inside a type, with its type. -/
def columnTy : Ty → Path → Option (Hdr × Ty)
  | .prim _, _ => none
  | .struct fs, p => column fs p
  | .array e _, .element :: q => columnTy e q
  | .map k _ _, .key :: q => columnTy k q
  | .map _ v _, .value :: q => columnTy v q
  | _, _ => none
/-- The column at a path of a schema, with its type. -/
def column : Flds → Path → Option (Hdr × Ty)
  | .cons h t r, .field n :: q =>
    if h.name = n then (if q = [] then some (h, t) else columnTy t q) else column r (.field n :: q)
  | _, _ => none
end

/-- The atomic type inside a type that is reached through array elements, map keys and map values. -/
def leaf : Ty → List Seg → Option Prim
  | .prim p, [] => some p
  | .array e _, .element :: q => leaf e q
  | .map k _ _, .key :: q => leaf k q
  | .map _ v _, .value :: q => leaf v q
  | _, _ => none

/-- The changes recorded for one place of a column. -/
def hist (cs : Option (List Change)) (q : List Seg) : List Change :=
  (cs.getD []).filter (fun c => decide (c.path = q))

/-- The change to record when the atomic type of a place was `a` and becomes `b`. -/
def change (q : List Seg) : Option Prim → Option Prim → List Change
  | some a, some b => if a = b then [] else [{ from_ := a, to_ := b, path := q }]
  | _, _ => []

/-- The changes recorded for one place form a chain: each is an accepted change between different
types that starts where the one before ended, and the last one ends in the present type. -/
def Chain (cs : List Change) (now : Option Prim) : Prop :=
  ∀ pre c suf, cs = pre ++ c :: suf → supported c.from_ c.to_ = true ∧ c.from_ ≠ c.to_ ∧
    (match suf with
     | [] => now = some c.to_
     | d :: _ => c.to_ = d.from_)

/-- The recorded changes of every column are chains, at every place inside the column. -/
def Chained (s : Flds) : Prop :=
  ∀ p h t, column s p = some (h, t) → ∀ q, Chain (hist h.changes q) (leaf t q)

/-- A candidate schema carries, for a column that exists, no record of type changes or the one of the
table, and for a new column none. -/
def Carries (existing candidate : Flds) : Prop :=
  ∀ p f t, column candidate p = some (f, t) → f.changes = none ∨
    ∃ g u, column existing p = some (g, u) ∧ f.changes = g.changes

end Spec

open Spec

/-! ## The decision table -/

theorem supported_trans {a b c : Prim} (h : supported a b = true) (k : supported b c = true) :
    supported a c = true := by
  cases a <;> cases b <;> cases c <;>
    simp_all [supported, rankLess, integralRank, otherChange, decimalWider] <;> omega

theorem supported_antisymm {a b : Prim} (h : supported a b = true) (k : supported b a = true) :
    a = b := by
  cases a <;> cases b <;>
    simp_all [supported, rankLess, integralRank, otherChange, decimalWider] <;> omega

/-! ## What is recorded -/

theorem checked_some {fs fs' : Flds} (h : checked fs = some fs') : fs' = fs := by
  unfold checked at h
  split at h
  · exact (Option.some.inj h).symm
  · cases h

/-- Changes found in a type have paths below the given one, and exactly one is found at each place
whose atomic type differs. -/
theorem rewriteTy_changes (new old : Ty) (path : List Seg) {r : Ty × List Change}
    (h : rewriteTy new old path = some r) :
    (∀ c ∈ r.2, ∃ q, c.path = path ++ q) ∧
    ∀ q, r.2.filter (fun c => decide (c.path = path ++ q)) =
      change (path ++ q) (leaf old q) (leaf new q) := by
  match new, old with
  | .prim b, .prim a =>
    rw [rewriteTy] at h
    split at h
    · cases h
      rename_i e
      subst e
      refine ⟨by simp, fun q => ?_⟩
      cases q <;> simp [leaf, change]
    · split at h
      · cases h
        rename_i e _
        refine ⟨fun c hc => ⟨[], by simp_all⟩, fun q => ?_⟩
        cases q <;> simp [leaf, change, e]
      · cases h
  | .struct ns, .struct os =>
    rw [rewriteTy] at h
    split at h
    · cases h
    · split at h
      · cases h
      · cases h
        refine ⟨by simp, fun q => ?_⟩
        cases q <;> simp [leaf, change]
  | .array e n, .array oe on =>
    rw [rewriteTy] at h
    split at h
    · cases h
    · rename_i r' hr
      cases h
      have ih := rewriteTy_changes e oe _ hr
      refine ⟨fun c hc => ?_, fun q => ?_⟩
      · obtain ⟨q, e⟩ := ih.1 c hc
        exact ⟨.element :: q, by simpa using e⟩
      · have none_ : ∀ q, (∀ q', q ≠ .element :: q') →
            r'.2.filter (fun c => decide (c.path = path ++ q)) = [] := by
          intro q hq
          rw [List.filter_eq_nil_iff]
          intro c hc
          obtain ⟨q', e⟩ := ih.1 c hc
          simp only [e, decide_eq_true_eq, List.append_assoc, List.append_cancel_left_eq]
          intro e
          exact hq q' (by simpa using e.symm)
        match q with
        | .element :: q =>
          have := ih.2 q
          simpa [leaf] using this
        | [] => simpa [leaf, change] using none_ [] (by simp)
        | .key :: q => simpa [leaf, change] using none_ (.key :: q) (by simp)
        | .value :: q => simpa [leaf, change] using none_ (.value :: q) (by simp)
  | .map k v n, .map k' v' n' =>
    rw [rewriteTy] at h
    split at h
    · cases h
    · rename_i r1 hr1
      split at h
      · cases h
      · rename_i r2 hr2
        cases h
        have i1 := rewriteTy_changes k k' _ hr1
        have i2 := rewriteTy_changes v v' _ hr2
        have n1 : ∀ q, (∀ q', q ≠ .key :: q') →
            r1.2.filter (fun c => decide (c.path = path ++ q)) = [] := by
          intro q hq
          rw [List.filter_eq_nil_iff]
          intro c hc
          obtain ⟨q', e⟩ := i1.1 c hc
          simp only [e, decide_eq_true_eq, List.append_assoc, List.append_cancel_left_eq]
          intro e
          exact hq q' (by simpa using e.symm)
        have n2 : ∀ q, (∀ q', q ≠ .value :: q') →
            r2.2.filter (fun c => decide (c.path = path ++ q)) = [] := by
          intro q hq
          rw [List.filter_eq_nil_iff]
          intro c hc
          obtain ⟨q', e⟩ := i2.1 c hc
          simp only [e, decide_eq_true_eq, List.append_assoc, List.append_cancel_left_eq]
          intro e
          exact hq q' (by simpa using e.symm)
        refine ⟨fun c hc => ?_, fun q => ?_⟩
        · rcases List.mem_append.1 hc with hc | hc
          · obtain ⟨q, e⟩ := i1.1 c hc
            exact ⟨.key :: q, by simpa using e⟩
          · obtain ⟨q, e⟩ := i2.1 c hc
            exact ⟨.value :: q, by simpa using e⟩
        · rw [List.filter_append]
          match q with
          | .key :: q =>
            rw [n2 _ (by simp), List.append_nil]
            have := i1.2 q
            simpa [leaf] using this
          | .value :: q =>
            rw [n1 _ (by simp), List.nil_append]
            have := i2.2 q
            simpa [leaf] using this
          | [] =>
            rw [n1 _ (by simp), n2 _ (by simp)]
            simp [leaf, change]
          | .element :: q =>
            rw [n1 _ (by simp), n2 _ (by simp)]
            simp [leaf, change]
  | .prim _, .struct _ | .prim _, .array _ _ | .prim _, .map _ _ _
  | .struct _, .prim _ | .struct _, .array _ _ | .struct _, .map _ _ _
  | .array _ _, .prim _ | .array _ _, .struct _ | .array _ _, .map _ _ _
  | .map _ _ _, .prim _ | .map _ _ _, .struct _ | .map _ _ _, .array _ _ =>
    simp [rewriteTy] at h

theorem hist_append (cs : Option (List Change)) (new : List Change) (q : List Seg) :
    hist (appendChanges cs new) q = hist cs q ++ new.filter (fun c => decide (c.path = q)) := by
  unfold appendChanges hist
  cases new with
  | nil => simp
  | cons c cs => simp [List.filter_append]

/-- What the rewriting of a column does to its header. -/
def Recorded (f g h : Hdr) (u t : Ty) : Prop :=
  h.name = f.name ∧ h.nullable = f.nullable ∧ h.id = f.id.or g.id ∧ h.phys = f.phys.or g.phys ∧
  (∀ q a, leaf u q = some a → ∃ b, leaf t q = some b ∧ supported a b = true) ∧
  ∀ q, hist h.changes q = hist (f.changes.or g.changes) q ++ change q (leaf u q) (leaf t q)

/-- The relation between the columns of the result, the candidate and the existing schema. -/
def Rel (out cand old : Path → Option (Hdr × Ty)) : Prop :=
  (∀ p, (out p).isSome = (cand p).isSome) ∧
  ∀ p h t, out p = some (h, t) → ∃ f t', cand p = some (f, t') ∧ plainTy t = plainTy t' ∧
    (∀ q, leaf t q = leaf t' q) ∧
    match old p with
    | some (g, u) => Recorded f g h u t'
    | none => h = f

theorem find_lookup_none {os : Flds} {n : String} (h : os.find (fun g => g.name == n) = none)
    (q : Path) : column os (.field n :: q) = none := by
  match os with
  | .nil => rfl
  | .cons g u r =>
    rw [Flds.find] at h
    split at h
    · cases h
    · rename_i e
      rw [column, if_neg (by simpa using e)]
      exact find_lookup_none h q

theorem find_lookup_some {os : Flds} {n : String} {x : Hdr × Ty}
    (h : os.find (fun g => g.name == n) = some x) (q : Path) :
    column os (.field n :: q) = if q = [] then some x else columnTy x.2 q := by
  match os with
  | .nil => cases h
  | .cons g u r =>
    rw [Flds.find] at h
    split at h
    · cases h
      rename_i e
      rw [column, if_pos (by simpa using e)]
    · rename_i e
      rw [column, if_neg (by simpa using e)]
      exact find_lookup_some h q

theorem rel_none {out cand old : Path → Option (Hdr × Ty)} (hc : ∀ p, cand p = none)
    (ho : ∀ p, out p = none) : Rel out cand old :=
  ⟨fun p => by rw [hc, ho], fun p h t e => by rw [ho] at e; cases e⟩

theorem rewriteTy_leaf (new old : Ty) (path : List Seg) {r : Ty × List Change}
    (h : rewriteTy new old path = some r) (q : List Seg) : leaf r.1 q = leaf new q := by
  match new, old with
  | .prim b, .prim a =>
    rw [rewriteTy] at h
    split at h
    · cases h; rfl
    · split at h
      · cases h; rfl
      · cases h
  | .struct ns, .struct os =>
    rw [rewriteTy] at h
    split at h
    · cases h
    · split at h
      · cases h
      · cases h
        cases q <;> simp [leaf]
  | .array e n, .array oe on =>
    rw [rewriteTy] at h
    split at h
    · cases h
    · rename_i r' hr
      cases h
      match q with
      | .element :: q =>
        simp only [leaf]
        exact rewriteTy_leaf e oe _ hr q
      | [] | .key :: q | .value :: q => simp [leaf]
  | .map k v n, .map k' v' n' =>
    rw [rewriteTy] at h
    split at h
    · cases h
    · rename_i r1 hr1
      split at h
      · cases h
      · rename_i r2 hr2
        cases h
        match q with
        | .key :: q =>
          simp only [leaf]
          exact rewriteTy_leaf k k' _ hr1 q
        | .value :: q =>
          simp only [leaf]
          exact rewriteTy_leaf v v' _ hr2 q
        | [] | .element :: q => simp [leaf]
  | .prim _, .struct _ | .prim _, .array _ _ | .prim _, .map _ _ _
  | .struct _, .prim _ | .struct _, .array _ _ | .struct _, .map _ _ _
  | .array _ _, .prim _ | .array _ _, .struct _ | .array _ _, .map _ _ _
  | .map _ _ _, .prim _ | .map _ _ _, .struct _ | .map _ _ _, .array _ _ =>
    simp [rewriteTy] at h

theorem rewriteTy_supported (new old : Ty) (path : List Seg) {r : Ty × List Change}
    (h : rewriteTy new old path = some r) (q : List Seg) {a : Prim} (ha : leaf old q = some a) :
    ∃ b, leaf new q = some b ∧ supported a b = true := by
  match new, old with
  | .prim b, .prim a' =>
    cases q with
    | cons _ _ => simp [leaf] at ha
    | nil =>
      simp only [leaf, Option.some.injEq] at ha
      subst ha
      refine ⟨b, rfl, ?_⟩
      rw [rewriteTy] at h
      split at h
      · rename_i e
        simp [supported, e]
      · split at h
        · assumption
        · cases h
  | .struct ns, .struct os => cases q <;> simp [leaf] at ha
  | .array e n, .array oe on =>
    rw [rewriteTy] at h
    split at h
    · cases h
    · rename_i r' hr
      match q with
      | .element :: q =>
        simp only [leaf] at ha ⊢
        exact rewriteTy_supported e oe _ hr q ha
      | [] | .key :: q | .value :: q => simp [leaf] at ha
  | .map k v n, .map k' v' n' =>
    rw [rewriteTy] at h
    split at h
    · cases h
    · rename_i r1 hr1
      split at h
      · cases h
      · rename_i r2 hr2
        match q with
        | .key :: q =>
          simp only [leaf] at ha ⊢
          exact rewriteTy_supported k k' _ hr1 q ha
        | .value :: q =>
          simp only [leaf] at ha ⊢
          exact rewriteTy_supported v v' _ hr2 q ha
        | [] | .element :: q => simp [leaf] at ha
  | .prim _, .struct _ | .prim _, .array _ _ | .prim _, .map _ _ _
  | .struct _, .prim _ | .struct _, .array _ _ | .struct _, .map _ _ _
  | .array _ _, .prim _ | .array _ _, .struct _ | .array _ _, .map _ _ _
  | .map _ _ _, .prim _ | .map _ _ _, .struct _ | .map _ _ _, .array _ _ =>
    simp [rewriteTy] at h

mutual
theorem rewriteTy_rel (new old : Ty) (path : List Seg) {r : Ty × List Change}
    (h : rewriteTy new old path = some r) :
    plainTy r.1 = plainTy new ∧ Rel (columnTy r.1) (columnTy new) (columnTy old) := by
  match new, old with
  | .prim b, .prim a =>
    rw [rewriteTy] at h
    split at h
    · cases h
      exact ⟨rfl, rel_none (fun p => by simp [columnTy]) (fun p => by simp [columnTy])⟩
    · split at h
      · cases h
        exact ⟨rfl, rel_none (fun p => by simp [columnTy]) (fun p => by simp [columnTy])⟩
      · cases h
  | .struct ns, .struct os =>
    rw [rewriteTy] at h
    split at h
    · cases h
    · rename_i fs hfs
      split at h
      · cases h
      · rename_i fs' hfs'
        cases h
        rw [checked_some hfs']
        have ih := rewriteFlds_rel ns os hfs
        refine ⟨congrArg Ty.struct ih.1, ?_⟩
        have := ih.2
        constructor
        · intro p
          simpa [columnTy] using this.1 p
        · intro p h t e
          have := this.2 p h t (by simpa [columnTy] using e)
          simpa [columnTy] using this
  | .array e n, .array oe on =>
    rw [rewriteTy] at h
    split at h
    · cases h
    · rename_i r' hr
      cases h
      have ih := rewriteTy_rel e oe _ hr
      refine ⟨by simp [plainTy, ih.1], ?_, ?_⟩
      · intro p
        match p with
        | .element :: q => simpa [columnTy] using ih.2.1 q
        | [] | .field _ :: _ | .key :: _ | .value :: _ => simp [columnTy]
      · intro p h t e
        match p with
        | .element :: q =>
          simp only [columnTy] at e ⊢
          exact ih.2.2 q h t e
        | [] | .field _ :: _ | .key :: _ | .value :: _ => simp [columnTy] at e
  | .map k v n, .map k' v' n' =>
    rw [rewriteTy] at h
    split at h
    · cases h
    · rename_i r1 hr1
      split at h
      · cases h
      · rename_i r2 hr2
        cases h
        have i1 := rewriteTy_rel k k' _ hr1
        have i2 := rewriteTy_rel v v' _ hr2
        refine ⟨by simp [plainTy, i1.1, i2.1], ?_, ?_⟩
        · intro p
          match p with
          | .key :: q => simpa [columnTy] using i1.2.1 q
          | .value :: q => simpa [columnTy] using i2.2.1 q
          | [] | .field _ :: _ | .element :: _ => simp [columnTy]
        · intro p h t e
          match p with
          | .key :: q =>
            simp only [columnTy] at e ⊢
            exact i1.2.2 q h t e
          | .value :: q =>
            simp only [columnTy] at e ⊢
            exact i2.2.2 q h t e
          | [] | .field _ :: _ | .element :: _ => simp [columnTy] at e
  | .prim _, .struct _ | .prim _, .array _ _ | .prim _, .map _ _ _
  | .struct _, .prim _ | .struct _, .array _ _ | .struct _, .map _ _ _
  | .array _ _, .prim _ | .array _ _, .struct _ | .array _ _, .map _ _ _
  | .map _ _ _, .prim _ | .map _ _ _, .struct _ | .map _ _ _, .array _ _ =>
    simp [rewriteTy] at h
theorem rewriteFlds_rel (ns os : Flds) {fs : Flds} (h : rewriteFlds ns os = some fs) :
    plain fs = plain ns ∧ Rel (column fs) (column ns) (column os) := by
  match ns with
  | .nil =>
    cases h
    exact ⟨rfl, rel_none (fun p => by simp [column]) (fun p => by simp [column])⟩
  | .cons f t r =>
    rw [rewriteFlds] at h
    split at h
    · rename_i e
      split at h
      · cases h
      · rename_i r' hr
        cases h
        have ih := rewriteFlds_rel r os hr
        refine ⟨by simp [plain, ih.1], ?_⟩
        have main : ∀ n q, (column (.cons f t r') (.field n :: q)).isSome =
            (column (.cons f t r) (.field n :: q)).isSome ∧
            ∀ h s, column (.cons f t r') (.field n :: q) = some (h, s) →
              ∃ f' t', column (.cons f t r) (.field n :: q) = some (f', t') ∧
                plainTy s = plainTy t' ∧ (∀ q, leaf s q = leaf t' q) ∧
                match column os (.field n :: q) with
                | some (g, u) => Recorded f' g h u t'
                | none => h = f' := by
          intro n q
          by_cases en : f.name = n
          · have key : ∀ r : Flds, column (.cons f t r) (.field n :: q) =
                if q = [] then some (f, t) else columnTy t q := fun r => by rw [column, if_pos en]
            rw [key, key]
            refine ⟨rfl, fun h s hs => ⟨h, s, hs, rfl, fun _ => rfl, ?_⟩⟩
            subst en
            rw [find_lookup_none e]
          · have key : ∀ r : Flds, column (.cons f t r) (.field n :: q) = column r (.field n :: q) :=
              fun r => by rw [column, if_neg en]
            rw [key, key]
            exact ⟨ih.2.1 _, fun h s hs => ih.2.2 _ h s hs⟩
        constructor
        · intro p
          match p with
          | .field n :: q => exact (main n q).1
          | [] | .element :: _ | .key :: _ | .value :: _ => simp [column]
        · intro p h s hs
          match p with
          | .field n :: q => exact (main n q).2 h s hs
          | [] | .element :: _ | .key :: _ | .value :: _ => simp [column] at hs
    · rename_i g u e
      split at h
      · cases h
      · rename_i x hx
        split at h
        · cases h
        · rename_i r' hr
          cases h
          have ih := rewriteFlds_rel r os hr
          have it := rewriteTy_rel t u _ hx
          have ic := rewriteTy_changes t u _ hx
          have il := rewriteTy_leaf t u _ hx
          refine ⟨by simp [plain, ih.1, it.1, rewriteHdr], ?_⟩
          have main : ∀ n q, (column (.cons (rewriteHdr g f x.2) x.1 r') (.field n :: q)).isSome =
              (column (.cons f t r) (.field n :: q)).isSome ∧
              ∀ h s, column (.cons (rewriteHdr g f x.2) x.1 r') (.field n :: q) = some (h, s) →
                ∃ f' t', column (.cons f t r) (.field n :: q) = some (f', t') ∧
                  plainTy s = plainTy t' ∧ (∀ q, leaf s q = leaf t' q) ∧
                  match column os (.field n :: q) with
                  | some (g, u) => Recorded f' g h u t'
                  | none => h = f' := by
            intro n q
            by_cases en : f.name = n
            · subst en
              rw [find_lookup_some e]
              have k1 : column (.cons (rewriteHdr g f x.2) x.1 r') (.field f.name :: q) =
                  if q = [] then some (rewriteHdr g f x.2, x.1) else columnTy x.1 q := by
                rw [column, if_pos (show (rewriteHdr g f x.2).name = f.name from rfl)]
              have k2 : column (.cons f t r) (.field f.name :: q) =
                  if q = [] then some (f, t) else columnTy t q := by
                rw [column, if_pos rfl]
              rw [k1, k2]
              by_cases hq : q = []
              · simp only [hq, if_true, Option.isSome_some, true_and]
                rintro h s hs
                cases hs
                refine ⟨f, t, rfl, it.1, il, rfl, rfl, rfl, rfl,
                  fun q a ha => rewriteTy_supported t u _ hx q ha, fun q => ?_⟩
                have := ic.2 q
                simp only [List.nil_append] at this
                show hist (appendChanges _ _) q = _
                rw [hist_append, this]
              · simp only [hq, if_false]
                exact ⟨it.2.1 q, fun h s hs => it.2.2 q h s hs⟩
            · have k1 : column (.cons (rewriteHdr g f x.2) x.1 r') (.field n :: q) =
                  column r' (.field n :: q) := by
                rw [column, if_neg (show ¬ (rewriteHdr g f x.2).name = n from en)]
              have k2 : column (.cons f t r) (.field n :: q) = column r (.field n :: q) := by
                rw [column, if_neg en]
              rw [k1, k2]
              exact ⟨ih.2.1 _, fun h s hs => ih.2.2 _ h s hs⟩
          constructor
          · intro p
            match p with
            | .field n :: q => exact (main n q).1
            | [] | .element :: _ | .key :: _ | .value :: _ => simp [column]
          · intro p h s hs
            match p with
            | .field n :: q => exact (main n q).2 h s hs
            | [] | .element :: _ | .key :: _ | .value :: _ => simp [column] at hs
end

/-! ## Chains and validation -/

theorem chain_nil (now : Option Prim) : Chain [] now := by
  intro pre c suf e
  simp at e

theorem chain_snoc {cs : List Change} {a b : Prim} {q : List Seg} (h : Chain cs (some a))
    (ok : supported a b = true) (ne : a ≠ b) :
    Chain (cs ++ [{ from_ := a, to_ := b, path := q }]) (some b) := by
  intro pre c suf e
  rcases List.append_eq_append_iff.1 e with ⟨x, e1, e2⟩ | ⟨x, e1, e2⟩
  · cases x with
    | nil =>
      simp only [List.nil_append, List.cons.injEq] at e2
      obtain ⟨rfl, rfl⟩ := e2
      exact ⟨ok, ne, rfl⟩
    | cons y ys =>
      simp only [List.cons_append, List.cons.injEq] at e2
      have := e2.2
      simp at this
  · cases x with
    | nil =>
      simp only [List.nil_append, List.cons.injEq] at e2
      obtain ⟨rfl, rfl⟩ := e2
      exact ⟨ok, ne, rfl⟩
    | cons y ys =>
      simp only [List.cons_append, List.cons.injEq] at e2
      obtain ⟨rfl, rfl⟩ := e2
      have := h pre c ys e1
      refine ⟨this.1, this.2.1, ?_⟩
      cases ys with
      | nil =>
        have := this.2.2
        simp only [Option.some.injEq] at this
        simpa using this.symm
      | cons z zs => exact this.2.2

/-- All types recorded for a place can be widened to the present one. -/
theorem chain_supported {cs : List Change} {now : Option Prim} (h : Chain cs now) {c : Change}
    (hc : c ∈ cs) : ∃ b, now = some b ∧ supported c.from_ b = true ∧ supported c.to_ b = true := by
  obtain ⟨pre, suf, rfl⟩ := List.append_of_mem hc
  induction suf generalizing pre c with
  | nil =>
    have := h pre c [] rfl
    exact ⟨c.to_, this.2.2, this.1, by simp [supported]⟩
  | cons d ds ih =>
    have := h pre c (d :: ds) rfl
    obtain ⟨b, e, f, g⟩ := ih (c := d) (pre ++ [c]) (by simpa using h) (by simp)
    have t : c.to_ = d.from_ := this.2.2
    exact ⟨b, e, supported_trans this.1 (t ▸ f), t ▸ f⟩

theorem leaf_resolve {t : Ty} {q : List Seg} {p : Prim} (h : leaf t q = some p) :
    resolve t q = some (.prim p) := by
  match t, q with
  | .prim _, [] =>
    cases h
    rfl
  | .array e _, .element :: q =>
    simp only [leaf] at h
    simp only [resolve]
    exact leaf_resolve h
  | .map k _ _, .key :: q =>
    simp only [leaf] at h
    simp only [resolve]
    exact leaf_resolve h
  | .map _ v _, .value :: q =>
    simp only [leaf] at h
    simp only [resolve]
    exact leaf_resolve h
  | .prim _, _ :: _ | .struct _, [] | .struct _, _ :: _ | .array _ _, []
  | .array _ _, .key :: _ | .array _ _, .value :: _ | .map _ _ _, []
  | .map _ _ _, .element :: _ => simp [leaf] at h

theorem latest_eq (cs : List Change) (q : List Seg) :
    latest cs q = ((cs.filter (fun c => decide (c.path = q))).getLast?).map Change.to_ := by
  induction cs with
  | nil => rfl
  | cons c cs ih =>
    rw [latest, ih, List.filter_cons]
    by_cases e : c.path = q
    · simp only [e, decide_true, if_true]
      cases f : cs.filter (fun c => decide (c.path = q)) with
      | nil => simp
      | cons d ds =>
        rw [List.getLast?_cons_cons, List.getLast?_eq_some_getLast (List.cons_ne_nil d ds)]
        rfl
    · simp only [e, decide_false, if_false, Bool.false_eq_true]
      cases (cs.filter (fun c => decide (c.path = q))).getLast? <;> rfl

theorem validateChanges_chain {t : Ty} {cs : Option (List Change)}
    (h : ∀ q, Chain (hist cs q) (leaf t q)) : validateChanges t (cs.getD []) = true := by
  rw [validateChanges, List.all_eq_true]
  intro c hc
  have mem : c ∈ hist cs c.path := List.mem_filter.2 ⟨hc, by simp⟩
  have ne : hist cs c.path ≠ [] := List.ne_nil_of_mem mem
  obtain ⟨pre, suf, e⟩ := List.append_of_mem mem
  have sup := (h c.path pre c suf e).1
  have last := h c.path (hist cs c.path).dropLast ((hist cs c.path).getLast ne) []
    (List.dropLast_concat_getLast ne).symm
  have l := last.2.2
  simp only at l
  rw [sup, leaf_resolve l, latest_eq]
  show (true && match some (Ty.prim _), Option.map _ (hist cs c.path).getLast? with
    | some (.prim p), some l => decide (p = l)
    | _, _ => false) = true
  rw [List.getLast?_eq_some_getLast ne]
  simp

mutual
theorem validateTy_of {t : Ty} (ok : NamesOkTy t)
    (h : ∀ p f u, columnTy t p = some (f, u) → validateChanges u (f.changes.getD []) = true) :
    validateTy t = true := by
  match t with
  | .prim _ => rfl
  | .struct fs =>
    rw [validateTy]
    exact validate_of (fs := fs) ok (fun p f u e => h p f u (by simpa [columnTy] using e))
  | .array e n =>
    rw [validateTy]
    exact validateTy_of (t := e) ok
      (fun p f u e => h (.element :: p) f u (by simpa [columnTy] using e))
  | .map k v n =>
    rw [validateTy, Bool.and_eq_true]
    exact ⟨validateTy_of (t := k) ok.1
        (fun p f u e => h (.key :: p) f u (by simpa [columnTy] using e)),
      validateTy_of (t := v) ok.2
        (fun p f u e => h (.value :: p) f u (by simpa [columnTy] using e))⟩
theorem validate_of {fs : Flds} (ok : NamesOk fs)
    (h : ∀ p f u, column fs p = some (f, u) → validateChanges u (f.changes.getD []) = true) :
    validate fs = true := by
  match fs with
  | .nil => rfl
  | .cons g t r =>
    rw [NamesOk] at ok
    rw [validate, Bool.and_eq_true, Bool.and_eq_true]
    refine ⟨⟨?_, ?_⟩, ?_⟩
    · exact h [.field g.name] g t (by rw [column, if_pos rfl, if_pos rfl])
    · refine validateTy_of ok.2.1 (fun p f u e => h (.field g.name :: p) f u ?_)
      have : p ≠ [] := by
        rintro rfl
        cases t <;> simp [columnTy, column] at e
      rw [column, if_pos rfl, if_neg this]
      exact e
    · refine validate_of ok.2.2 (fun p f u e => h p f u ?_)
      match p with
      | .field n :: q =>
        have : g.name ≠ n := by
          rintro rfl
          exact ok.1 (column_names e)
        rw [column, if_neg this]
        exact e
      | [] | .element :: _ | .key :: _ | .value :: _ => simp [column] at e
theorem column_names {fs : Flds} {n : String} {q : Path} {x : Hdr × Ty}
    (h : column fs (.field n :: q) = some x) : n ∈ fs.names := by
  match fs with
  | .nil => simp [column] at h
  | .cons g t r =>
    rw [column] at h
    rw [Flds.names]
    split at h
    · rename_i e
      exact e ▸ List.mem_cons_self
    · exact List.mem_cons_of_mem _ (column_names h)
end

mutual
theorem namesOkTy_plain (t : Ty) : NamesOkTy (plainTy t) ↔ NamesOkTy t := by
  match t with
  | .prim _ => simp [plainTy]
  | .struct fs => exact (namesOk_plain fs).1
  | .array e _ => exact namesOkTy_plain e
  | .map k v _ => exact and_congr (namesOkTy_plain k) (namesOkTy_plain v)
theorem namesOk_plain (fs : Flds) : (NamesOk (plain fs) ↔ NamesOk fs) ∧
    (plain fs).names = fs.names := by
  match fs with
  | .nil => simp [plain]
  | .cons g t r =>
    have i := namesOk_plain r
    simp only [plain, NamesOk, Flds.names, i.2, i.1, namesOkTy_plain t, and_self]
end

/-! ## ALTER COLUMN TYPE -/

namespace Spec

mutual
/-- The type at a path of names inside a type. -/
def typeAtTy : Ty → List String → Option Ty
  | t, [] => some t
  | .struct fs, n :: q => typeAt fs n q
  | .array e _, n :: q => if n = "element" then typeAtTy e q else none
  | .map k v _, n :: q => if n = "key" then typeAtTy k q else if n = "value" then typeAtTy v q else none
  | .prim _, _ :: _ => none
/-- The type of the column of a name, or at a path inside it. -/
def typeAt : Flds → String → List String → Option Ty
  | .nil, _, _ => none
  | .cons h t r, n, q => if h.name = n then typeAtTy t q else typeAt r n q
end

end Spec

theorem checked_ok {fs : Flds} (ok : NamesOk fs) : checked fs = some fs := by
  rw [checked, if_pos (names_nodup ok)]

theorem alterFlds_names (fs : Flds) (n : String) (q : List String) (new : Ty) {x : Flds × Bool}
    (h : alterFlds fs n q new = some x) : x.1.names = fs.names := by
  match fs with
  | .nil =>
    cases h
    rfl
  | .cons g t r =>
    rw [alterFlds] at h
    split at h
    · split at h
      · cases h
      · split at h
        · cases h
        · rename_i y hy
          cases h
          simp only [Flds.names, alterFlds_names r n q new hy]
    · split at h
      · cases h
      · rename_i y hy
        cases h
        simp only [Flds.names, alterFlds_names r n q new hy]

/-- Fields of other names are not touched. -/
theorem alterFlds_other (fs : Flds) (n : String) (q : List String) (new : Ty) (hn : n ∉ fs.names) :
    alterFlds fs n q new = some (fs, false) ∧ typeAt fs n q = none := by
  match fs with
  | .nil => exact ⟨rfl, rfl⟩
  | .cons g t r =>
    simp only [Flds.names, List.mem_cons, not_or] at hn
    have ih := alterFlds_other r n q new hn.2
    rw [alterFlds, if_neg (Ne.symm hn.1), ih.1, typeAt, if_neg (Ne.symm hn.1)]
    exact ⟨rfl, ih.2⟩

/-- What a successful change of the type at a path does. -/
structure Altered {α : Type} (at_ : α → List String → Option Ty) (alter : α → List String → Ty → Option α)
    (old out : α) (path : List String) (new : Ty) : Prop where
  here : at_ out path = some new
  back : ∃ was, at_ old path = some was ∧ alter out path was = some old
  away : ∀ q, ¬ path <+: q → ¬ q <+: path → at_ out q = at_ old q

mutual
theorem alterTy_spec (t : Ty) (path : List String) (new : Ty) (ok : NamesOkTy t) {t' : Ty}
    (h : alterTy t path new = some t') : Altered typeAtTy alterTy t t' path new := by
  match path with
  | [] =>
    rw [alterTy] at h
    cases h
    refine ⟨by simp [typeAtTy], ⟨t, by simp [typeAtTy], by simp [alterTy]⟩, ?_⟩
    intro q h _
    exact absurd List.nil_prefix h
  | n :: p =>
    match t with
    | .prim _ => simp [alterTy] at h
    | .struct fs =>
      rw [alterTy] at h
      split at h
      · cases h
      · rename_i fs' found hfs
        split at h
        · cases h
        · rename_i fs'' hc
          split at h
          · cases h
            obtain rfl := checked_some hc
            rename_i hf
            subst hf
            have ih := alterFlds_spec fs n p new ok hfs
            refine ⟨by simpa [typeAtTy] using ih.1, ?_, ?_⟩
            · obtain ⟨was, a, b⟩ := ih.2.1
              refine ⟨was, by simpa [typeAtTy] using a, ?_⟩
              rw [alterTy, b]
              simp [checked_ok ok]
            · intro q h1 h2
              match q with
              | [] => exact absurd List.nil_prefix h2
              | m :: q =>
                simp only [typeAtTy]
                refine ih.2.2 m q ?_ ?_
                · rintro rfl hp
                  exact h1 (by simpa using hp)
                · rintro rfl hp
                  exact h2 (by simpa using hp)
          · cases h
    | .array e b =>
      rw [alterTy] at h
      split at h
      · rename_i en
        subst en
        split at h
        · cases h
        · rename_i e' he
          cases h
          have ih := alterTy_spec e p new ok he
          refine ⟨by simpa [typeAtTy] using ih.here, ?_, ?_⟩
          · obtain ⟨was, a, b⟩ := ih.back
            refine ⟨was, by simpa [typeAtTy] using a, ?_⟩
            rw [alterTy, if_pos rfl, b]
          · intro q h1 h2
            match q with
            | [] => exact absurd List.nil_prefix h2
            | m :: q =>
              simp only [typeAtTy]
              split
              · rename_i em
                subst em
                exact ih.away q (fun hp => h1 (by simpa using hp)) (fun hp => h2 (by simpa using hp))
              · rfl
      · cases h
    | .map k v b =>
      rw [alterTy] at h
      split at h
      · rename_i en
        subst en
        split at h
        · cases h
        · rename_i e' he
          cases h
          have ih := alterTy_spec k p new ok.1 he
          refine ⟨by simpa [typeAtTy] using ih.here, ?_, ?_⟩
          · obtain ⟨was, a, b⟩ := ih.back
            refine ⟨was, by simpa [typeAtTy] using a, ?_⟩
            rw [alterTy, if_pos rfl, b]
          · intro q h1 h2
            match q with
            | [] => exact absurd List.nil_prefix h2
            | m :: q =>
              simp only [typeAtTy]
              split
              · rename_i em
                subst em
                exact ih.away q (fun hp => h1 (by simpa using hp)) (fun hp => h2 (by simpa using hp))
              · rfl
      · rename_i nk
        split at h
        · rename_i en
          subst en
          split at h
          · cases h
          · rename_i e' he
            cases h
            have ih := alterTy_spec v p new ok.2 he
            refine ⟨by simpa [typeAtTy] using ih.here, ?_, ?_⟩
            · obtain ⟨was, a, b⟩ := ih.back
              refine ⟨was, by simpa [typeAtTy] using a, ?_⟩
              rw [alterTy, if_neg nk, if_pos rfl, b]
            · intro q h1 h2
              match q with
              | [] => exact absurd List.nil_prefix h2
              | m :: q =>
                simp only [typeAtTy]
                split
                · rfl
                · split
                  · rename_i em
                    subst em
                    exact ih.away q (fun hp => h1 (by simpa using hp))
                      (fun hp => h2 (by simpa using hp))
                  · rfl
        · cases h
theorem alterFlds_spec (fs : Flds) (n : String) (p : List String) (new : Ty) (ok : NamesOk fs)
    {fs' : Flds} (h : alterFlds fs n p new = some (fs', true)) :
    typeAt fs' n p = some new ∧
    (∃ was, typeAt fs n p = some was ∧ alterFlds fs' n p was = some (fs, true)) ∧
    ∀ m q, (m = n → ¬ p <+: q) → (m = n → ¬ q <+: p) → typeAt fs' m q = typeAt fs m q := by
  match fs with
  | .nil => simp [alterFlds] at h
  | .cons g t r =>
    rw [NamesOk] at ok
    rw [alterFlds] at h
    split at h
    · rename_i en
      subst en
      split at h
      · cases h
      · rename_i t' ht
        rw [(alterFlds_other r g.name p new ok.1).1] at h
        cases h
        have ih := alterTy_spec t p new ok.2.1 ht
        refine ⟨?_, ?_, ?_⟩
        · rw [typeAt, if_pos rfl]
          exact ih.here
        · obtain ⟨was, a, b⟩ := ih.back
          refine ⟨was, by rw [typeAt, if_pos rfl]; exact a, ?_⟩
          rw [alterFlds, if_pos rfl, b]
          simp only [(alterFlds_other r g.name p was ok.1).1]
        · intro m q h1 h2
          rw [typeAt, typeAt]
          split
          · rename_i em
            exact ih.away q (h1 em.symm) (h2 em.symm)
          · rfl
    · rename_i en
      split at h
      · cases h
      · rename_i x hx
        obtain ⟨r', b⟩ := x
        cases h
        have ih := alterFlds_spec r n p new ok.2.2 hx
        refine ⟨?_, ?_, ?_⟩
        · rw [typeAt, if_neg en]
          exact ih.1
        · obtain ⟨was, a, b⟩ := ih.2.1
          refine ⟨was, by rw [typeAt, if_neg en]; exact a, ?_⟩
          rw [alterFlds, if_neg en, b]
        · intro m q h1 h2
          rw [typeAt, typeAt]
          split
          · rfl
          · exact ih.2.2 m q h1 h2
end

end Verif.Delta.Schema
