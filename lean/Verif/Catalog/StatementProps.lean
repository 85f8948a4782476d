import Verif.Catalog.ManagerProps

/-!
# C84: statements and the objects they touch
-/

namespace Verif.Catalog

open Spec

variable {α : Type}

/-! ## One request to a catalog -/

theorem objectAt_request (nested : α → List Name → α → Option α) (w : World α) (i : Nat) (c : Name)
    (r : Request α) (m : Mem α) (hm : find (w.sessions i).catalogs c = some m) (q : Place) :
    objectAt (w.request nested i c r).2 q =
      match q with
      | .table j c' db n =>
        if j = i ∧ c' = c then ((answers (m.step nested r).2).table db n).map Found.table
        else objectAt w q
      | .view j c' db n =>
        if j = i ∧ c' = c then ((answers (m.step nested r).2).view db n).map Found.view
        else objectAt w q
      | q => objectAt w q := by
  simp only [World.request, hm]
  cases q with
  | temp j n =>
    simp only [objectAt, World.setSession]
    split_ifs with h
    · rw [h]
    · rfl
  | global n => rfl
  | table j c' db n =>
    simp only [objectAt, World.setSession]
    by_cases h : j = i
    · simp only [h, if_true, true_and, find_put]
      by_cases hc : c' = c
      · simp only [hc, if_true]
      · rw [if_neg (fun h => hc h.symm), if_neg hc]
    · simp only [h, if_false, false_and]
  | view j c' db n =>
    simp only [objectAt, World.setSession]
    by_cases h : j = i
    · simp only [h, if_true, true_and, find_put]
      by_cases hc : c' = c
      · simp only [hc, if_true]
      · rw [if_neg (fun h => hc h.symm), if_neg hc]
    · simp only [h, if_false, false_and]

/-- Names mean the same in two states of a session. -/
def SameNames (s t : Session α) : Prop :=
  (∀ ref c db n, Means s ref c db n ↔ Means t ref c db n) ∧ s.globalDatabase = t.globalDatabase

theorem SameNames.of_find {s t : Session α} (h1 : s.defaultCatalog = t.defaultCatalog)
    (h2 : s.defaultDatabase = t.defaultDatabase) (h3 : s.globalDatabase = t.globalDatabase)
    (h4 : ∀ x, (find s.catalogs x).isSome = (find t.catalogs x).isSome) : SameNames s t := by
  have key : ∀ s t : Session α, s.defaultCatalog = t.defaultCatalog →
      s.defaultDatabase = t.defaultDatabase →
      (∀ x, (find s.catalogs x).isSome = (find t.catalogs x).isSome) →
      ∀ ref c db n, Means s ref c db n → Means t ref c db n := by
    intro s t h1 h2 h4 ref c db n h
    cases h with
    | single => rw [h1, h2]; exact .single n
    | qualified c db n hc =>
      refine .qualified c db n ?_
      obtain ⟨m, hm⟩ := hc
      have := h4 c
      rw [hm, Option.isSome_some] at this
      exact Option.isSome_iff_exists.1 this.symm
    | byDefault db n hc =>
      rw [h1]
      refine .byDefault db n fun m hm => ?_
      have := h4 db.head
      rw [hm, Option.isSome_some] at this
      obtain ⟨m', hm'⟩ := Option.isSome_iff_exists.1 this
      exact hc m' hm'
  exact ⟨fun ref c db n => ⟨key s t h1 h2 h4 ref c db n,
    key t s h1.symm h2.symm (fun x => (h4 x).symm) ref c db n⟩, h3⟩

theorem sameNames_refl (s : Session α) : SameNames s s := ⟨fun _ _ _ _ => Iff.rfl, rfl⟩

theorem sameNames_request (nested : α → List Name → α → Option α) (w : World α) (i : Nat) (c : Name)
    (r : Request α) (j : Nat) :
    SameNames ((w.request nested i c r).2.sessions j) (w.sessions j) := by
  simp only [World.request]
  cases hm : find (w.sessions i).catalogs c with
  | none => exact sameNames_refl _
  | some m =>
    simp only [World.setSession]
    split_ifs with h
    · subst h
      refine SameNames.of_find rfl rfl rfl fun x => ?_
      dsimp only
      rw [find_put]
      split_ifs with hx
      · subst hx
        rw [hm]
        rfl
      · rfl
    · exact sameNames_refl _

/-! ## DROP VIEW -/

theorem dropTemp_found {views : List (Name × TempView α)} {n : Name} {v : TempView α}
    (h : find views n = some v) : dropTemp views n false = (.ok (), erase views n) := by
  rw [dropTemp, h]
  rfl

theorem dropTemp_missing {views : List (Name × TempView α)} {n : Name} (h : find views n = none) :
    dropTemp views n false = (.error (.notFound .temporaryView), views) := by
  rw [dropTemp, h]
  rfl

theorem dropView_stored (nested : α → List Name → α → Option α) (w : World α) (i : Nat)
    (ref : List Name) (ie : Bool) (c : Name) (db : Namespace) (n : Name)
    (hM : Means (w.sessions i) ref c db n) (f : Found α)
    (hv : objectAt w (.view i c db n) = some f) :
    let a := w.objectRequest nested i ref fun db n => .dropView db n ie
    a.1 = .ok () ∧
      (∀ q, objectAt a.2 q = if q = .view i c db n then none else objectAt w q) ∧
      ∀ j, SameNames (a.2.sessions j) (w.sessions j) := by
  intro a
  have ha : a = w.request nested i c (.dropView db n ie) := by
    show w.objectRequest nested i ref (fun db n => .dropView db n ie) = _
    rw [World.objectRequest, (C84_resolve _ _ _ _ _).2 hM]
  rw [ha]
  clear ha a
  cases hm : find (w.sessions i).catalogs c with
  | none =>
    rw [objectAt, hm] at hv
    exact nomatch hv
  | some m =>
    rw [objectAt, hm] at hv
    dsimp only at hv
    cases hav : (answers m).view db n with
    | none =>
      rw [hav] at hv
      exact nomatch hv
    | some s =>
      have hdb : (answers m).db db ≠ none := by
        rw [answers_view] at hav
        rw [answers_db]
        cases hd : find m.dbs db with
        | none =>
          rw [hd] at hav
          exact nomatch hav
        | some d => exact fun h => nomatch h
      obtain ⟨h1, h2⟩ := C83_request nested m (.dropView db n ie)
      simp only [Spec.step, if_neg hdb, hav] at h1 h2
      refine ⟨?_, fun q => ?_, fun j => sameNames_request nested w i c _ j⟩
      · simp only [World.request, hm, h1]
        rfl
      · rw [objectAt_request nested w i c _ m hm q, h2]
        cases q with
        | temp j x => rfl
        | global x => rfl
        | table j c' db' n' =>
          dsimp only
          rw [if_neg (show Place.table j c' db' n' ≠ .view i c db n from fun h => nomatch h)]
          split_ifs with h
          · rw [h.1, h.2, objectAt, hm]
          · rfl
        | view j c' db' n' =>
          dsimp only
          simp only [Place.view.injEq, Spec.set]
          by_cases h : j = i ∧ c' = c
          · rw [if_pos h]
            by_cases h' : db' = db ∧ n' = n
            · rw [if_pos h', if_pos ⟨h.1, h.2, h'.1, h'.2⟩]
              rfl
            · rw [if_neg h', if_neg (fun hh => h' ⟨hh.2.2.1, hh.2.2.2⟩), h.1, h.2, objectAt, hm]
          · rw [if_neg h, if_neg (fun hh => h ⟨hh.1, hh.2.1⟩)]

/-- DROP VIEW of a name that reads as a view succeeds and removes this view and nothing else,
so that the name afterwards means whatever it had hidden. -/
theorem C84_drop_view (nested : α → List Name → α → Option α) (w : World α) (i : Nat)
    (ref : List Name) (ie : Bool) (c : Name) (db : Namespace) (n : Name)
    (hM : Means (w.sessions i) ref c db n) (f : Found α) (hf : w.lookup i ref = .ok f)
    (ht : ∀ s, f ≠ .table s) :
    ∃ p, (places (w.sessions i) i ref c db n).find? (fun p => (objectAt w p).isSome) = some p ∧
      objectAt w p = some f ∧
      (w.step nested i (.dropView ref ie)).1 = .ok () ∧
      (∀ q, objectAt (w.step nested i (.dropView ref ie)).2 q =
        if q = p then none else objectAt w q) ∧
      ∀ j, SameNames ((w.step nested i (.dropView ref ie)).2.sessions j) (w.sessions j) := by
  have hl := C84_lookup w i ref c db n hM
  have hstep : w.step nested i (.dropView ref ie) = w.dropView nested i ref ie := rfl
  rw [hstep]
  -- the part after the temporary views of the session
  have rest : (∀ h1 : ref = [n], find (w.sessions i).temp n = none) →
      ∃ p, (if ref = (w.sessions i).globalDatabase.parts ++ [n] then [Place.global n]
          else [.table i c db n, .view i c db n]).find? (fun p => (objectAt w p).isSome) = some p ∧
        objectAt w p = some f ∧
        (w.dropGlobalOrView nested i ref ie).1 = .ok () ∧
        (∀ q, objectAt (w.dropGlobalOrView nested i ref ie).2 q =
          if q = p then none else objectAt w q) ∧
        ∀ j, SameNames ((w.dropGlobalOrView nested i ref ie).2.sessions j) (w.sessions j) := by
    intro hnone
    have hl' : (if ref = (w.sessions i).globalDatabase.parts ++ [n] then [Place.global n]
        else [.table i c db n, .view i c db n]).findSome? (objectAt w) = some f := by
      rw [places, List.findSome?_append] at hl
      have : (if ref = [n] then [Place.temp i n] else []).findSome? (objectAt w) = none := by
        split_ifs with h1
        · rw [List.findSome?_cons, objectAt, hnone h1]
          rfl
        · rfl
      rw [this, Option.none_or] at hl
      split at hl
      · rename_i f' hf'
        rw [hf', ← Except.ok.inj (hl.symm.trans hf)]
      · obtain ⟨x, hx⟩ := hl
        rw [hf] at hx
        exact nomatch hx
    rw [World.dropGlobalOrView, hM.last.1]
    dsimp only
    rw [hM.global]
    by_cases hg : ref = (w.sessions i).globalDatabase.parts ++ [n]
    · rw [if_pos hg] at hl' ⊢
      rw [List.findSome?_cons, objectAt] at hl'
      cases hv : find w.global n with
      | none =>
        rw [hv] at hl'
        exact nomatch hl'
      | some v =>
        rw [hv] at hl'
        cases hl'
        rw [if_pos (decide_eq_true hg), dropTemp_found hv]
        refine ⟨.global n, ?_, ?_, rfl, fun q => ?_, fun j => sameNames_refl _⟩
        · rw [List.find?_cons, objectAt, hv]
          rfl
        · rw [objectAt, hv]
          rfl
        · cases q with
          | global x =>
            simp only [objectAt, find_erase, Place.global.injEq, eq_comm (a := x)]
            split_ifs <;> rfl
          | temp j x => rfl
          | table j c db n => rfl
          | view j c db n => rfl
    · rw [if_neg hg] at hl' ⊢
      rw [if_neg (by rw [decide_eq_true_eq]; exact hg)]
      rw [List.findSome?_cons] at hl'
      have htab : objectAt w (.table i c db n) = none := by
        cases ho : objectAt w (.table i c db n) with
        | none => rfl
        | some g =>
          rw [ho] at hl'
          cases hl'
          rw [objectAt] at ho
          cases hm : find (w.sessions i).catalogs c with
          | none =>
            rw [hm] at ho
            exact nomatch ho
          | some m =>
            rw [hm] at ho
            dsimp only at ho
            cases ha : (answers m).table db n with
            | none =>
              rw [ha] at ho
              exact nomatch ho
            | some s =>
              rw [ha] at ho
              cases ho
              exact absurd rfl (ht s)
      rw [htab] at hl'
      dsimp only at hl'
      rw [List.findSome?_cons] at hl'
      cases hv : objectAt w (.view i c db n) with
      | none =>
        rw [hv] at hl'
        exact nomatch hl'
      | some g =>
        rw [hv] at hl'
        cases hl'
        obtain ⟨d1, d2, d3⟩ := dropView_stored nested w i ref ie c db n hM f hv
        refine ⟨.view i c db n, ?_, hv, d1, d2, d3⟩
        rw [List.find?_cons, htab, List.find?_cons, hv]
        rfl
  by_cases h1 : ref = [n]
  · subst h1
    rw [World.dropView]
    cases hv : find (w.sessions i).temp n with
    | some v =>
      rw [dropTemp_found hv]
      have hfv : f = .temp n v := by
        rw [World.lookup, hv] at hf
        exact (Except.ok.inj hf).symm
      subst hfv
      refine ⟨.temp i n, ?_, ?_, rfl, fun q => ?_, fun j => ?_⟩
      · rw [places, if_pos rfl, List.find?_append, List.find?_cons, objectAt, hv]
        rfl
      · rw [objectAt, hv]
        rfl
      · cases q with
        | temp j x =>
          simp only [objectAt, World.setSession, Place.temp.injEq]
          by_cases hj : j = i
          · simp only [hj, if_true, true_and, find_erase, eq_comm (a := x)]
            split_ifs <;> rfl
          · simp only [hj, if_false, false_and]
        | global x => rfl
        | table j c db n =>
          simp only [objectAt, World.setSession, reduceCtorEq, if_false]
          split_ifs with hj
          · rw [hj]
          · rfl
        | view j c db n =>
          simp only [objectAt, World.setSession, reduceCtorEq, if_false]
          split_ifs with hj
          · rw [hj]
          · rfl
      · simp only [World.setSession]
        split_ifs with hj
        · subst hj
          exact SameNames.of_find rfl rfl rfl fun _ => rfl
        · exact sameNames_refl _
    | none =>
      rw [dropTemp_missing hv]
      obtain ⟨p, hp1, hp2, hp3, hp4, hp5⟩ := rest fun _ => hv
      refine ⟨p, ?_, hp2, hp3, hp4, hp5⟩
      rw [places, if_pos rfl, List.find?_append, List.find?_cons, objectAt, hv]
      exact hp1
  · have : w.dropView nested i ref ie = w.dropGlobalOrView nested i ref ie := by
      cases hM with
      | single => exact absurd rfl h1
      | qualified => rfl
      | byDefault db n =>
        obtain ⟨hd, tl⟩ := db
        cases tl <;> rfl
    rw [this]
    obtain ⟨p, hp1, hp2, hp3, hp4, hp5⟩ := rest fun h => absurd h h1
    refine ⟨p, ?_, hp2, hp3, hp4, hp5⟩
    rw [places, if_neg h1, List.nil_append]
    exact hp1

/-- DROP VIEW removes no table, whatever the name. -/
theorem C84_drop_view_keeps_tables (nested : α → List Name → α → Option α) (w : World α) (i : Nat)
    (ref : List Name) (ie : Bool) (j : Nat) (c : Name) (db : Namespace) (n : Name) :
    objectAt (w.step nested i (.dropView ref ie)).2 (.table j c db n) =
      objectAt w (.table j c db n) := by
  have hreq : ∀ ref, objectAt (w.objectRequest nested i ref fun db n => .dropView db n ie).2
      (.table j c db n) = objectAt w (.table j c db n) := by
    intro ref
    rw [World.objectRequest]
    split
    · rfl
    · rename_i c' db' n' _
      cases hm : find (w.sessions i).catalogs c' with
      | none =>
        rw [World.request, hm]
      | some m =>
        rw [objectAt_request nested w i c' _ m hm]
        dsimp only
        split_ifs with h
        · have := C83_other_tables_stay nested m (.dropView db' n' ie) db n (fun h => h)
          rw [this, h.1, h.2, objectAt, hm]
        · rfl
  have hglob : ∀ ref, objectAt (w.dropGlobalOrView nested i ref ie).2 (.table j c db n) =
      objectAt w (.table j c db n) := by
    intro ref
    rw [World.dropGlobalOrView]
    split
    · exact hreq ref
    · split
      · split
        · rfl
        · exact hreq ref
        · rfl
      · exact hreq ref
  show objectAt (w.dropView nested i ref ie).2 (.table j c db n) = _
  rw [World.dropView.eq_def]
  split
  · dsimp only
    split
    · simp only [objectAt, World.setSession]
      split_ifs with h
      · rw [h]
      · rfl
    · exact hglob _
    · rfl
  · exact hglob _

/-- DROP TABLE removes no view of any kind. -/
theorem C84_drop_table_keeps_views (nested : α → List Name → α → Option α) (w : World α) (i : Nat)
    (ref : List Name) (ie : Bool) (q : Place) (hq : ∀ j c db n, q ≠ .table j c db n) :
    objectAt (w.step nested i (.dropTable ref ie)).2 q = objectAt w q := by
  show objectAt (w.objectRequest nested i ref fun db n => .dropTable db n ie).2 q = _
  rw [World.objectRequest]
  split
  · rfl
  · rename_i c' db' n' _
    cases hm : find (w.sessions i).catalogs c' with
    | none => rw [World.request, hm]
    | some m =>
      rw [objectAt_request nested w i c' _ m hm]
      cases q with
      | temp => rfl
      | global => rfl
      | table j c db n => exact absurd rfl (hq j c db n)
      | view j c db n =>
        dsimp only
        split_ifs with h
        · have := C83_other_views_stay nested m (.dropTable db' n' ie) db n (fun h => h)
          rw [this, h.1, h.2, objectAt, hm]
        · rfl

/-! ## CREATE TABLE -/

/-- A CREATE TABLE that is not skipped and succeeds puts the table at its place, touches
nothing else, and the name reads as the table unless a temporary view hides it or the
name lies in the global temporary database. -/
theorem C84_create_table (nested : α → List Name → α → Option α) (w : World α) (i : Nat)
    (ref : List Name) (o : TableOptions α) (c : Name) (db : Namespace) (n : Name)
    (hM : Means (w.sessions i) ref c db n) (ho : o.mode ≠ .createIfNotExists)
    (hok : (w.step nested i (.createTable ref o)).1 = .ok ()) :
    ∃ m, find (w.sessions i).catalogs c = some m ∧
      (∀ q, objectAt (w.step nested i (.createTable ref o)).2 q =
        if q = .table i c db n then some (.table (o.status m.name db n)) else objectAt w q) ∧
      (ref ≠ (w.sessions i).globalDatabase.parts ++ [n] →
        (ref = [n] → find (w.sessions i).temp n = none) →
        (w.step nested i (.createTable ref o)).2.lookup i ref = .ok (.table (o.status m.name db n))) := by
  have hstep : w.step nested i (.createTable ref o) = w.createTable nested i ref o := rfl
  rw [hstep] at hok ⊢
  have hcr : w.createTable nested i ref o = w.request nested i c (.createTable db n o) := by
    have hobj : (w.objectRequest nested i ref fun db n => .createTable db n o) =
        w.request nested i c (.createTable db n o) := by
      rw [World.objectRequest, (C84_resolve _ _ _ _ _).2 hM]
    rw [World.createTable] at hok ⊢
    rw [hobj] at hok ⊢
    try dsimp only at hok ⊢
    split at hok
    · split at hok
      · rename_i hmode
        exact absurd hmode ho
      · exact nomatch hok
      · rfl
    · split at hok
      · exact nomatch hok
      · rfl
    · exact nomatch hok
  rw [hcr] at hok ⊢
  cases hm : find (w.sessions i).catalogs c with
  | none =>
    rw [World.request, hm] at hok
    exact nomatch hok
  | some m =>
    have hat : ∀ q, objectAt (w.request nested i c (.createTable db n o)).2 q =
        if q = .table i c db n then some (.table (o.status m.name db n)) else objectAt w q := by
      intro q
      rw [objectAt_request nested w i c _ m hm q]
      obtain ⟨h1, h2⟩ := C83_request nested m (.createTable db n o)
      have h3 : (answers (m.step nested (.createTable db n o)).2) =
          { answers m with
            table := Spec.set (answers m).table db n (some (o.status m.name db n)) } := by
        rw [h2]
        simp only [World.request, hm] at hok
        rw [h1] at hok
        simp only [Spec.step] at hok ⊢
        split_ifs at hok ⊢
        · exact nomatch hok
        · exact nomatch hok
        · split at hok
          · rename_i hmode
            exact absurd hmode ho
          · exact nomatch hok
          · exact nomatch hok
          · rfl
      rw [h3]
      cases q with
      | temp j x => rfl
      | global x => rfl
      | view j c' db' n' =>
        dsimp only
        rw [if_neg (show Place.view j c' db' n' ≠ .table i c db n from fun h => nomatch h)]
        split_ifs with h
        · rw [h.1, h.2, objectAt, hm]
        · rfl
      | table j c' db' n' =>
        dsimp only
        simp only [Place.table.injEq, Spec.set]
        by_cases h : j = i ∧ c' = c
        · rw [if_pos h]
          by_cases h' : db' = db ∧ n' = n
          · rw [if_pos h', if_pos ⟨h.1, h.2, h'.1, h'.2⟩]
            rfl
          · rw [if_neg h', if_neg (fun hh => h' ⟨hh.2.2.1, hh.2.2.2⟩), h.1, h.2, objectAt, hm]
        · rw [if_neg h, if_neg (fun hh => h ⟨hh.1, hh.2.1⟩)]
    refine ⟨m, rfl, hat, fun hg ht => ?_⟩
    have hs := sameNames_request nested w i c (.createTable db n o) i
    have hl := C84_lookup (w.request nested i c (.createTable db n o)).2 i ref c db n
      ((hs.1 ref c db n).2 hM)
    have hp : (places ((w.request nested i c (.createTable db n o)).2.sessions i) i ref c db n).findSome?
        (objectAt (w.request nested i c (.createTable db n o)).2) =
        some (.table (o.status m.name db n)) := by
      rw [places, hs.2, if_neg hg, List.findSome?_append]
      have h1 : (if ref = [n] then [Place.temp i n] else []).findSome?
          (objectAt (w.request nested i c (.createTable db n o)).2) = none := by
        split_ifs with h1
        · rw [List.findSome?_cons, hat, if_neg (fun h => nomatch h), objectAt, ht h1]
          rfl
        · rfl
      rw [h1, Option.none_or, List.findSome?_cons, hat, if_pos rfl]
    rw [hp] at hl
    exact hl

/-- CREATE TABLE fails on a name that reads as anything and changes nothing; with IF NOT
EXISTS it succeeds and changes nothing. -/
theorem C84_create_existing_table (nested : α → List Name → α → Option α) (w : World α) (i : Nat)
    (ref : List Name) (o : TableOptions α) (f : Found α) (hf : w.lookup i ref = .ok f) :
    (o.mode = .create → w.step nested i (.createTable ref o) = (.error (.alreadyExists .table), w)) ∧
      (o.mode = .createIfNotExists → w.step nested i (.createTable ref o) = (.ok (), w)) := by
  constructor
  · intro h
    show w.createTable nested i ref o = _
    rw [World.createTable, hf]
    dsimp only
    rw [h]
  · intro h
    show w.createTable nested i ref o = _
    rw [World.createTable, hf]
    dsimp only
    rw [h]

/-! ## Temporary views -/

/-- CREATE TEMPORARY VIEW: it fails exactly if the view exists and neither IF NOT EXISTS nor
OR REPLACE is given, or if the comments do not fit the columns; it then changes nothing.
Otherwise it defines the view, except that IF NOT EXISTS leaves a view that exists. -/
theorem C84_create_temp (views : List (Name × TempView α)) (n : Name) (o : TempOptions α) :
    let keep := (find views n).isSome = true ∧ o.ifNotExists = true
    let clash := (find views n).isSome = true ∧ o.ifNotExists = false ∧ o.replace = false
    let fits := o.comments = [] ∨ o.comments.length = o.fields.length
    ((createTemp views n o).1 = .ok () ↔ keep ∨ (¬clash ∧ fits)) ∧
    ((createTemp views n o).1 ≠ .ok () ∨ keep → (createTemp views n o).2 = views) ∧
    ((createTemp views n o).1 = .ok () → ¬keep → ∃ v, v.rest = o.rest ∧
      v.columns.map (·.1) = o.fields ∧
      (o.comments = [] → ∀ x ∈ v.columns, x.2 = none) ∧
      (o.comments ≠ [] → v.columns.map (·.2) = o.comments) ∧
      ∀ k, find (createTemp views n o).2 k = if k = n then some v else find views k) := by
  intro keep clash fits
  -- the insertion
  have ins : ∀ r, r = (if o.comments.isEmpty then
        ((.ok (), put views n ⟨o.fields.map fun f => (f, none), o.rest⟩) :
          Except Err Unit × List (Name × TempView α))
      else if o.fields.length = o.comments.length then
        (.ok (), put views n ⟨o.fields.zip o.comments, o.rest⟩)
      else (.error .invalidArgument, views)) →
      (r.1 = .ok () ↔ fits) ∧ (r.1 ≠ .ok () → r.2 = views) ∧
      (r.1 = .ok () → ∃ v, v.rest = o.rest ∧ v.columns.map (·.1) = o.fields ∧
        (o.comments = [] → ∀ x ∈ v.columns, x.2 = none) ∧
        (o.comments ≠ [] → v.columns.map (·.2) = o.comments) ∧
        ∀ k, find r.2 k = if k = n then some v else find views k) := by
    intro r hr
    split_ifs at hr with h1 h2
    · have h1 := List.isEmpty_iff.1 h1
      subst hr
      refine ⟨⟨fun _ => .inl h1, fun _ => rfl⟩, fun h => absurd rfl h, fun _ => ⟨⟨o.fields.map fun f => (f, none), o.rest⟩, rfl, ?_, ?_, ?_, ?_⟩⟩
      · rw [List.map_map]
        exact List.map_id _
      · intro _ x hx
        obtain ⟨y, _, rfl⟩ := List.mem_map.1 hx
        rfl
      · exact fun h => absurd h1 h
      · intro k
        rw [find_put]
        simp only [eq_comm]
    · have h1 : o.comments ≠ [] := fun h => h1 (List.isEmpty_iff.2 h)
      subst hr
      refine ⟨⟨fun _ => .inr h2.symm, fun _ => rfl⟩, fun h => absurd rfl h, fun _ => ⟨⟨o.fields.zip o.comments, o.rest⟩, rfl, ?_, ?_, ?_, ?_⟩⟩
      · exact List.map_fst_zip (Nat.le_of_eq h2)
      · exact fun h => absurd h h1
      · exact fun _ => List.map_snd_zip (Nat.le_of_eq h2.symm)
      · intro k
        rw [find_put]
        simp only [eq_comm]
    · have h1 : o.comments ≠ [] := fun h => h1 (List.isEmpty_iff.2 h)
      subst hr
      refine ⟨⟨(fun h => nomatch h), fun h => ?_⟩, fun _ => rfl, fun h => nomatch h⟩
      rcases h with h | h
      · exact absurd h h1
      · exact absurd h.symm h2
  rw [createTemp]
  cases hf : find views n with
  | none =>
    have hk : ¬keep := by simp [keep, hf]
    have hc : ¬clash := by simp [clash, hf]
    obtain ⟨a, b, d⟩ := ins _ rfl
    dsimp only
    refine ⟨?_, ?_, fun h _ => d h⟩
    · rw [a]
      exact ⟨fun h => .inr ⟨hc, h⟩, fun h => h.elim (fun h => absurd h hk) (·.2)⟩
    · exact fun h => h.elim b fun h => absurd h hk
  | some v =>
    dsimp only
    by_cases h1 : o.ifNotExists = true
    · have hk : keep := ⟨by rw [hf]; rfl, h1⟩
      rw [if_pos h1]
      exact ⟨⟨fun _ => .inl hk, fun _ => rfl⟩, fun _ => rfl, fun _ h => absurd hk h⟩
    · have hk : ¬keep := fun h => h1 h.2
      rw [if_neg h1]
      by_cases h2 : o.replace = true
      · have hc : ¬clash := fun h => absurd (h2.symm.trans h.2.2) (by decide)
        rw [if_pos h2]
        obtain ⟨a, b, d⟩ := ins _ rfl
        refine ⟨?_, ?_, fun h _ => d h⟩
        · rw [a]
          exact ⟨fun h => .inr ⟨hc, h⟩, fun h => h.elim (fun h => absurd h hk) (·.2)⟩
        · exact fun h => h.elim b fun h => absurd h hk
      · have hc : clash := ⟨by rw [hf]; rfl, Bool.eq_false_iff.2 h1, Bool.eq_false_iff.2 h2⟩
        rw [if_neg h2]
        exact ⟨⟨(fun h => nomatch h), fun h => h.elim (fun h => absurd h hk) fun h => absurd hc h.1⟩,
          fun _ => rfl, fun h => nomatch h⟩

/-- DROP of a temporary view that exists leaves all others. -/
theorem C84_drop_temp (views : List (Name × TempView α)) (n : Name) (ie : Bool) :
    ((dropTemp views n ie).1 = .ok () ↔ (find views n).isSome = true ∨ ie = true) ∧
      ∀ k, find (dropTemp views n ie).2 k = if k = n then none else find views k := by
  rw [dropTemp]
  cases hf : find views n with
  | some v =>
    simp only [Option.isNone_some, Bool.false_and, Bool.false_eq_true, if_false, Option.isSome_some,
      true_or, find_erase]
    exact ⟨trivial, fun k => by simp only [eq_comm]⟩
  | none =>
    cases ie
    · refine ⟨by simp, fun k => ?_⟩
      simp only [Option.isNone_none, Bool.not_false, Bool.and_self, if_true]
      split_ifs with h
      · rw [h, hf]
      · rfl
    · refine ⟨by simp, fun k => ?_⟩
      simp only [Option.isNone_none, Bool.not_true, Bool.and_false, Bool.false_eq_true, if_false,
        find_erase]
      simp only [eq_comm]

/-! ## Sessions -/

theorem request_others (nested : α → List Name → α → Option α) (w : World α) (i : Nat) (c : Name)
    (r : Request α) : (∀ j, j ≠ i → (w.request nested i c r).2.sessions j = w.sessions j) ∧
      (w.request nested i c r).2.global = w.global ∧
      ((w.request nested i c r).2.sessions i).temp = (w.sessions i).temp := by
  rw [World.request]
  dsimp only
  cases find (w.sessions i).catalogs c with
  | none => exact ⟨fun _ _ => rfl, rfl, rfl⟩
  | some m => exact ⟨fun j hj => if_neg hj, rfl, by simp [World.setSession]⟩

/-- Statements of a session change nothing in other sessions; they change global temporary
views only where they are about them. -/
theorem C84_sessions_apart (nested : α → List Name → α → Option α) (w : World α) (i : Nat)
    (st : Statement α) :
    (∀ j, j ≠ i → (w.step nested i st).2.sessions j = w.sessions j) ∧
    ((∀ n o, st ≠ .createTemp n true o) → (∀ n ie, st ≠ .dropTemp n true ie) →
      (∀ n ie, st ≠ .dropView ((w.sessions i).globalDatabase.parts ++ [n]) ie) →
      (w.step nested i st).2.global = w.global) := by
  have hobj : ∀ ref r, (∀ j, j ≠ i → (w.objectRequest nested i ref r).2.sessions j = w.sessions j) ∧
      (w.objectRequest nested i ref r).2.global = w.global := by
    intro ref r
    rw [World.objectRequest]
    split
    · exact ⟨fun _ _ => rfl, rfl⟩
    · exact ⟨(request_others nested w i _ _).1, (request_others nested w i _ _).2.1⟩
  have hdb : ∀ ref r, (∀ j, j ≠ i → (w.databaseRequest nested i ref r).2.sessions j = w.sessions j) ∧
      (w.databaseRequest nested i ref r).2.global = w.global := by
    intro ref r
    rw [World.databaseRequest]
    split
    · exact ⟨fun _ _ => rfl, rfl⟩
    · exact ⟨(request_others nested w i _ _).1, (request_others nested w i _ _).2.1⟩
  have hset : ∀ s, ∀ j, j ≠ i → (w.setSession i s).sessions j = w.sessions j :=
    fun s j hj => if_neg hj
  cases st with
  | useCatalog c =>
    show (∀ j, j ≠ i → (w.useCatalog i c).2.sessions j = _) ∧ (_ → _ → _ → (w.useCatalog i c).2.global = _)
    rw [World.useCatalog]
    split_ifs
    · exact ⟨hset _, fun _ _ _ => rfl⟩
    · exact ⟨fun _ _ => rfl, fun _ _ _ => rfl⟩
  | useDatabase ref =>
    show (∀ j, j ≠ i → (w.useDatabase i ref).2.sessions j = _) ∧ (_ → _ → _ → (w.useDatabase i ref).2.global = _)
    rw [World.useDatabase]
    split
    · exact ⟨fun _ _ => rfl, fun _ _ _ => rfl⟩
    · split
      · exact ⟨fun _ _ => rfl, fun _ _ _ => rfl⟩
      · split
        · exact ⟨fun _ _ => rfl, fun _ _ _ => rfl⟩
        · exact ⟨hset _, fun _ _ _ => rfl⟩
  | createDatabase ref ine info => exact ⟨(hdb _ _).1, fun _ _ _ => (hdb _ _).2⟩
  | dropDatabase ref ie c => exact ⟨(hdb _ _).1, fun _ _ _ => (hdb _ _).2⟩
  | createTable ref o =>
    show (∀ j, j ≠ i → (w.createTable nested i ref o).2.sessions j = _) ∧
      (_ → _ → _ → (w.createTable nested i ref o).2.global = _)
    rw [World.createTable]
    split
    · split
      · exact ⟨fun _ _ => rfl, fun _ _ _ => rfl⟩
      · exact ⟨fun _ _ => rfl, fun _ _ _ => rfl⟩
      · exact ⟨(hobj _ _).1, fun _ _ _ => (hobj _ _).2⟩
    · split
      · exact ⟨fun _ _ => rfl, fun _ _ _ => rfl⟩
      · exact ⟨(hobj _ _).1, fun _ _ _ => (hobj _ _).2⟩
    · exact ⟨fun _ _ => rfl, fun _ _ _ => rfl⟩
  | dropTable ref ie => exact ⟨(hobj _ _).1, fun _ _ _ => (hobj _ _).2⟩
  | alterTable ref ie o =>
    show (∀ j, j ≠ i → (w.alterTable nested i ref ie o).2.sessions j = _) ∧
      (_ → _ → _ → (w.alterTable nested i ref ie o).2.global = _)
    rw [World.alterTable]
    split
    · exact ⟨(hobj _ _).1, fun _ _ _ => (hobj _ _).2⟩
    · split_ifs <;> exact ⟨fun _ _ => rfl, fun _ _ _ => rfl⟩
    · exact ⟨fun _ _ => rfl, fun _ _ _ => rfl⟩
  | createView ref o => exact ⟨(hobj _ _).1, fun _ _ _ => (hobj _ _).2⟩
  | dropView ref ie =>
    have hg : (∀ j, j ≠ i → (w.dropGlobalOrView nested i ref ie).2.sessions j = w.sessions j) ∧
        ((∀ n, ref ≠ (w.sessions i).globalDatabase.parts ++ [n]) →
          (w.dropGlobalOrView nested i ref ie).2.global = w.global) := by
      rw [World.dropGlobalOrView]
      split
      · exact ⟨(hobj _ _).1, fun _ => (hobj _ _).2⟩
      · rename_i n hn
        split_ifs with h
        · have hr : ref = (w.sessions i).globalDatabase.parts ++ [n] := by
            rw [← (isGlobalDatabase_iff _ _).1 h]
            rcases List.eq_nil_or_concat ref with rfl | ⟨a, b, rfl⟩
            · exact nomatch hn
            · rw [List.concat_eq_append] at hn ⊢
              rw [List.getLast?_append, List.getLast?_singleton, Option.some_or] at hn
              cases hn
              rw [List.dropLast_concat]
          refine ⟨?_, fun h' => absurd hr (h' n)⟩
          split
          · exact fun _ _ => rfl
          · exact (hobj _ _).1
          · exact fun _ _ => rfl
        · exact ⟨(hobj _ _).1, fun _ => (hobj _ _).2⟩
    suffices (∀ j, j ≠ i → (w.dropView nested i ref ie).2.sessions j = w.sessions j) ∧
        ((∀ n, ref ≠ (w.sessions i).globalDatabase.parts ++ [n]) →
          (w.dropView nested i ref ie).2.global = w.global) by
      exact ⟨this.1, fun _ _ h => this.2 fun n hn => h n ie (by rw [hn])⟩
    rw [World.dropView.eq_def]
    split
    · dsimp only
      split
      · exact ⟨hset _, fun _ => rfl⟩
      · exact hg
      · exact ⟨fun _ _ => rfl, fun _ => rfl⟩
    · exact hg
  | createTemp n g o =>
    cases g
    · exact ⟨hset _, fun _ _ _ => rfl⟩
    · exact ⟨fun _ _ => rfl, fun h => absurd rfl (h n o)⟩
  | dropTemp n g ie =>
    cases g
    · exact ⟨hset _, fun _ _ _ => rfl⟩
    · exact ⟨fun _ _ => rfl, fun _ h => absurd rfl (h n ie)⟩

/-- A global temporary view that a session has created is read by every session. -/
theorem C84_global_visible (nested : α → List Name → α → Option α) (w : World α) (i : Nat) (n : Name)
    (o : TempOptions α) (hok : (w.step nested i (.createTemp n true o)).1 = .ok ()) :
    ∃ v, ∀ j, (w.step nested i (.createTemp n true o)).2.lookup j
      ((w.sessions j).globalDatabase.parts ++ [n]) = .ok (.global n v) := by
  have hfind : ∃ v, find (w.step nested i (.createTemp n true o)).2.global n = some v := by
    have h := C84_create_temp w.global n o
    dsimp only at h
    by_cases hk : (find w.global n).isSome = true ∧ o.ifNotExists = true
    · show ∃ v, find (createTemp w.global n o).2 n = some v
      rw [h.2.1 (.inr hk)]
      exact Option.isSome_iff_exists.1 hk.1
    · obtain ⟨v, _, _, _, _, hv⟩ := h.2.2 hok hk
      exact ⟨v, by show find (createTemp w.global n o).2 n = _; rw [hv, if_pos rfl]⟩
  obtain ⟨v, hv⟩ := hfind
  refine ⟨v, fun j => ?_⟩
  have := C84_global_lookup (w.step nested i (.createTemp n true o)).2 j n
  rw [hv] at this
  exact this

/-! ## USE -/

/-- USE succeeds exactly on a database of the default catalog, and single names then lie in
it. -/
theorem C84_use (nested : α → List Name → α → Option α) (w : World α) (i : Nat) (ref : List Name) :
    let w' := (w.step nested i (.useDatabase ref)).2
    ((w.step nested i (.useDatabase ref)).1 = .ok () ↔
      ∃ db m d, ref = db.parts ∧ find (w.sessions i).catalogs (w.sessions i).defaultCatalog = some m ∧
        (answers m).db db = some d) ∧
    ((w.step nested i (.useDatabase ref)).1 = .ok () → ∀ db, ref = db.parts →
      (∀ n, Means (w'.sessions i) [n] (w.sessions i).defaultCatalog db n) ∧
      ∀ q, objectAt w' q = objectAt w q) ∧
    ((w.step nested i (.useDatabase ref)).1 ≠ .ok () → w' = w) := by
  show ((w.useDatabase i ref).1 = _ ↔ _) ∧ ((w.useDatabase i ref).1 = _ → _) ∧
    ((w.useDatabase i ref).1 ≠ _ → (w.useDatabase i ref).2 = w)
  have hw : (w.step nested i (.useDatabase ref)) = w.useDatabase i ref := rfl
  rw [hw]
  cases ref with
  | nil =>
    refine ⟨⟨(fun h => nomatch h), ?_⟩, (fun h => nomatch h), fun _ => rfl⟩
    rintro ⟨db, _, _, h, _⟩
    exact nomatch h
  | cons a t =>
    rw [World.useDatabase, toNamespace]
    dsimp only
    rw [Session.getCatalog]
    cases hm : find (w.sessions i).catalogs (w.sessions i).defaultCatalog with
    | none =>
      refine ⟨⟨(fun h => nomatch h), ?_⟩, (fun h => nomatch h), fun _ => rfl⟩
      rintro ⟨_, m, _, _, h, _⟩
      exact nomatch h
    | some m =>
      dsimp only
      cases hd : m.getDatabase ⟨a, t⟩ with
      | error e =>
        refine ⟨⟨(fun h => nomatch h), ?_⟩, (fun h => nomatch h), fun _ => rfl⟩
        rintro ⟨⟨a', t'⟩, m', d, h, h2, h3⟩
        cases h
        cases h2
        simp only [answers, hd] at h3
        exact nomatch h3
      | ok d =>
        refine ⟨⟨fun _ => ⟨⟨a, t⟩, m, d, rfl, rfl, ?_⟩, fun _ => rfl⟩, ?_, fun h => absurd rfl h⟩
        · simp only [answers, hd]
        · rintro _ ⟨a', t'⟩ h
          cases h
          refine ⟨fun n => ?_, fun q => ?_⟩
          · have : ((w.setSession i
                { w.sessions i with defaultDatabase := ⟨a', t'⟩ }).sessions i) =
                { w.sessions i with defaultDatabase := ⟨a', t'⟩ } := if_pos rfl
            rw [this]
            exact Means.single (s := { w.sessions i with defaultDatabase := ⟨a', t'⟩ }) n
          · cases q <;> simp only [objectAt, World.setSession] <;> split_ifs with h
            all_goals first
              | rw [h]
              | rfl

/-! ## SHOW TABLES -/

/-- What holds in every session that the server creates, whatever statements run. -/
structure World.Ok (w : World α) : Prop where
  global : Distinct w.global
  temp : ∀ i, Distinct (w.sessions i).temp
  catalogs : ∀ i c m, find (w.sessions i).catalogs c = some m → m.Ok
  known : ∀ i, ∃ m, find (w.sessions i).catalogs (w.sessions i).defaultCatalog = some m

theorem World.Ok.set {w : World α} (h : w.Ok) (i : Nat) (s : Session α) (ht : Distinct s.temp)
    (hc : ∀ c m, find s.catalogs c = some m → m.Ok)
    (hk : ∃ m, find s.catalogs s.defaultCatalog = some m) : (w.setSession i s).Ok := by
  refine ⟨h.global, fun j => ?_, fun j => ?_, fun j => ?_⟩
  all_goals
    simp only [World.setSession]
    split_ifs
  · exact ht
  · exact h.temp j
  · exact hc
  · exact h.catalogs j
  · exact hk
  · exact h.known j

theorem World.Ok.request {w : World α} (h : w.Ok) (nested : α → List Name → α → Option α) (i : Nat)
    (c : Name) (r : Request α) : (w.request nested i c r).2.Ok := by
  rw [World.request]
  cases hm : find (w.sessions i).catalogs c with
  | none => exact h
  | some m =>
    refine h.set i _ (h.temp i) (fun c' m' hm' => ?_) ?_
    · dsimp only at hm'
      rw [find_put] at hm'
      split_ifs at hm'
      · cases hm'
        exact (h.catalogs i c m hm).step nested r
      · exact h.catalogs i c' m' hm'
    · dsimp only
      rw [find_put]
      split_ifs
      · exact ⟨_, rfl⟩
      · exact h.known i

theorem World.Ok.objectRequest {w : World α} (h : w.Ok) (nested : α → List Name → α → Option α)
    (i : Nat) (ref : List Name) (r : Namespace → Name → Request α) :
    (w.objectRequest nested i ref r).2.Ok := by
  rw [World.objectRequest]
  split
  · exact h
  · exact h.request nested i _ _

theorem World.Ok.databaseRequest {w : World α} (h : w.Ok) (nested : α → List Name → α → Option α)
    (i : Nat) (ref : List Name) (r : Namespace → Request α) :
    (w.databaseRequest nested i ref r).2.Ok := by
  rw [World.databaseRequest]
  split
  · exact h
  · exact h.request nested i _ _

theorem distinct_createTemp {views : List (Name × TempView α)} (h : Distinct views) (n : Name)
    (o : TempOptions α) : Distinct (createTemp views n o).2 := by
  rw [createTemp]
  repeat' split
  all_goals first
    | exact h
    | exact h.put _ _

theorem distinct_dropTemp {views : List (Name × TempView α)} (h : Distinct views) (n : Name)
    (ie : Bool) : Distinct (dropTemp views n ie).2 := by
  rw [dropTemp]
  split
  · exact h
  · exact h.erase _

theorem World.Ok.setGlobal {w : World α} (h : w.Ok) {g : List (Name × TempView α)}
    (hg : Distinct g) : World.Ok { w with global := g } :=
  ⟨hg, h.temp, h.catalogs, h.known⟩

theorem World.Ok.dropGlobalOrView {w : World α} (h : w.Ok) (nested : α → List Name → α → Option α)
    (i : Nat) (ref : List Name) (ie : Bool) : (w.dropGlobalOrView nested i ref ie).2.Ok := by
  rw [World.dropGlobalOrView]
  split
  · exact h.objectRequest nested i _ _
  · split
    · split
      · rename_i g hg
        have hd := (congrArg (fun r => Distinct r.2) hg).mp (distinct_dropTemp h.global _ false)
        exact h.setGlobal hd
      · exact h.objectRequest nested i _ _
      · exact h
    · exact h.objectRequest nested i _ _

theorem World.Ok.step {w : World α} (h : w.Ok) (nested : α → List Name → α → Option α) (i : Nat)
    (st : Statement α) : (w.step nested i st).2.Ok := by
  cases st with
  | useCatalog c =>
    show (w.useCatalog i c).2.Ok
    rw [World.useCatalog]
    split_ifs with hc
    · exact h.set i _ (h.temp i) (h.catalogs i) (Option.isSome_iff_exists.1 hc)
    · exact h
  | useDatabase ref =>
    show (w.useDatabase i ref).2.Ok
    rw [World.useDatabase]
    split
    · exact h
    · split
      · exact h
      · split
        · exact h
        · exact h.set i _ (h.temp i) (h.catalogs i) (h.known i)
  | createDatabase ref ine info => exact h.databaseRequest nested i _ _
  | dropDatabase ref ie c => exact h.databaseRequest nested i _ _
  | createTable ref o =>
    show (w.createTable nested i ref o).2.Ok
    rw [World.createTable]
    split
    · split
      · exact h
      · exact h
      · exact h.objectRequest nested i _ _
    · split
      · exact h
      · exact h.objectRequest nested i _ _
    · exact h
  | dropTable ref ie => exact h.objectRequest nested i _ _
  | alterTable ref ie o =>
    show (w.alterTable nested i ref ie o).2.Ok
    rw [World.alterTable]
    split
    · exact h.objectRequest nested i _ _
    · split_ifs <;> exact h
    · exact h
  | createView ref o => exact h.objectRequest nested i _ _
  | dropView ref ie =>
    show (w.dropView nested i ref ie).2.Ok
    rw [World.dropView.eq_def]
    split
    · dsimp only
      split
      · rename_i t ht
        have hd := (congrArg (fun r => Distinct r.2) ht).mp (distinct_dropTemp (h.temp i) _ false)
        exact h.set i _ hd (h.catalogs i) (h.known i)
      · exact h.dropGlobalOrView nested i _ _
      · exact h
    · exact h.dropGlobalOrView nested i _ _
  | createTemp n g o =>
    cases g
    · exact h.set i _ (distinct_createTemp (h.temp i) n o) (h.catalogs i) (h.known i)
    · exact h.setGlobal (distinct_createTemp h.global n o)
  | dropTemp n g ie =>
    cases g
    · exact h.set i _ (distinct_dropTemp (h.temp i) n ie) (h.catalogs i) (h.known i)
    · exact h.setGlobal (distinct_dropTemp h.global n ie)

theorem World.Ok.run {w : World α} (h : w.Ok) (nested : α → List Name → α → Option α)
    (sts : List (Nat × Statement α)) : (w.run nested sts).Ok := by
  induction sts generalizing w with
  | nil => exact h
  | cons st sts ih => exact ih (h.step nested st.1 st.2)

/-- A world in which every session has fresh in-memory catalogs
(`create_catalog_manager`, sail-session/src/catalog.rs). -/
structure Spec.Fresh (w : World α) : Prop where
  global : w.global = []
  temp : ∀ i, (w.sessions i).temp = []
  catalogs : ∀ i e, e ∈ (w.sessions i).catalogs → ∃ db info, e.2 = Mem.init e.1 db info
  known : ∀ i, ∃ e ∈ (w.sessions i).catalogs, e.1 = (w.sessions i).defaultCatalog

theorem Spec.Fresh.ok {w : World α} (h : Fresh w) : w.Ok := by
  refine ⟨by rw [h.global]; exact List.nodup_nil, fun i => by rw [h.temp]; exact List.nodup_nil,
    fun i c m hm => ?_, fun i => ?_⟩
  · obtain ⟨db, info, he⟩ := h.catalogs i _ (mem_of_find hm)
    dsimp only at he
    rw [he]
    exact Mem.Ok.init _ _ _
  · obtain ⟨e, he, hc⟩ := h.known i
    cases hf : find (w.sessions i).catalogs (w.sessions i).defaultCatalog with
    | some m => exact ⟨m, rfl⟩
    | none => exact (find_eq_none.1 hf e.2 (by rw [← hc]; exact he)).elim

/-- Unqualified names always mean something: no statement can make the default catalog
unknown. -/
theorem C84_default_catalog (nested : α → List Name → α → Option α) (w : World α) (hw : Fresh w)
    (sts : List (Nat × Statement α)) (i : Nat) :
    ∃ m, find ((w.run nested sts).sessions i).catalogs
      ((w.run nested sts).sessions i).defaultCatalog = some m :=
  (hw.ok.run nested sts).known i

/-- The name of an object. -/
def Spec.nameOf : Found α → Name
  | .temp n _ => n
  | .global n _ => n
  | .table s => s.name
  | .view s => s.name

/-- The places that SHOW TABLES is about: the temporary views of the session, and either the
global temporary views or the tables and the views of one database. -/
def Spec.shown (s : Session α) (i : Nat) (ref : List Name) (c : Name) (db : Namespace) (n : Name) :
    List Place :=
  .temp i n :: if ref = s.globalDatabase.parts then [.global n] else [.table i c db n, .view i c db n]

theorem mem_listTemp {views : List (Name × TempView α)} (h : Distinct views) (keep : Name → Bool)
    (n : Name) (v : TempView α) :
    (n, v) ∈ listTemp keep views ↔ keep n = true ∧ find views n = some v := by
  rw [listTemp, List.mem_filter, find_iff h]
  exact And.comm

/-- SHOW TABLES lists exactly the objects at the places it is about whose names match. -/
theorem C84_show_tables (nested : α → List Name → α → Option α) (w0 : World α) (hw0 : Fresh w0)
    (sts : List (Nat × Statement α)) (i : Nat) (keep : Name → Bool) (ref : List Name) (c : Name)
    (db : Namespace) (l : List (Found α)) :
    let w := w0.run nested sts
    (if ref = [] then c = (w.sessions i).defaultCatalog ∧ db = (w.sessions i).defaultDatabase
      else ref = (w.sessions i).globalDatabase.parts ∨ (w.sessions i).resolveDatabase ref = .ok (c, db)) →
    w.showTables i keep ref = .ok l →
    ∀ f, f ∈ l ↔ keep (nameOf f) = true ∧
      ∃ p ∈ shown (w.sessions i) i ref c db (nameOf f), objectAt w p = some f := by
  intro w hc hl f
  have hw : w.Ok := hw0.ok.run nested sts
  clear_value w
  rw [World.showTables] at hl
  have htemp : ∀ f, (f ∈ (listTemp keep (w.sessions i).temp).map fun v => Found.temp v.1 v.2) ↔
      keep (nameOf f) = true ∧ objectAt w (.temp i (nameOf f)) = some f := by
    intro f
    rw [List.mem_map, objectAt]
    constructor
    · rintro ⟨⟨n, v⟩, hv, rfl⟩
      rw [mem_listTemp (hw.temp i)] at hv
      exact ⟨hv.1, by rw [nameOf, hv.2]; rfl⟩
    · rintro ⟨hk, hv⟩
      cases ht : find (w.sessions i).temp (nameOf f) with
      | none =>
        rw [ht] at hv
        exact nomatch hv
      | some v =>
        rw [ht] at hv
        exact ⟨(_, v), (mem_listTemp (hw.temp i) keep _ v).2 ⟨hk, ht⟩, Option.some.inj hv⟩
  by_cases hg : ref = (w.sessions i).globalDatabase.parts
  · rw [if_pos ((isGlobalDatabase_iff _ _).2 hg)] at hl
    cases hl
    rw [shown, if_pos hg, List.mem_append, htemp]
    simp only [List.mem_cons, List.not_mem_nil, or_false, exists_eq_or_imp, exists_eq_left]
    have : (f ∈ (listTemp keep w.global).map fun v => Found.global v.1 v.2) ↔
        keep (nameOf f) = true ∧ objectAt w (.global (nameOf f)) = some f := by
      rw [List.mem_map, objectAt]
      constructor
      · rintro ⟨⟨n, v⟩, hv, rfl⟩
        rw [mem_listTemp hw.global] at hv
        exact ⟨hv.1, by rw [nameOf, hv.2]; rfl⟩
      · rintro ⟨hk, hv⟩
        cases ht : find w.global (nameOf f) with
        | none =>
          rw [ht] at hv
          exact nomatch hv
        | some v =>
          rw [ht] at hv
          exact ⟨(_, v), (mem_listTemp hw.global keep _ v).2 ⟨hk, ht⟩, Option.some.inj hv⟩
    rw [this]
    constructor
    · rintro (⟨a, b⟩ | ⟨a, b⟩)
      · exact ⟨a, .inr b⟩
      · exact ⟨a, .inl b⟩
    · rintro ⟨a, b | b⟩
      · exact .inr ⟨a, b⟩
      · exact .inl ⟨a, b⟩
  · rw [if_neg (fun h => hg ((isGlobalDatabase_iff _ _).1 h))] at hl
    have hdb : (w.sessions i).listedDatabase ref = .ok (c, db) := by
      cases ref with
      | nil =>
        rw [if_pos rfl] at hc
        rw [hc.1, hc.2]
        rfl
      | cons a t =>
        rw [if_neg (fun h => nomatch h)] at hc
        exact hc.resolve_left hg
    rw [Session.listTables, Session.listViews, hdb] at hl
    dsimp only at hl
    rw [Session.getCatalog] at hl
    cases hm : find (w.sessions i).catalogs c with
    | none =>
      rw [hm] at hl
      exact nomatch hl
    | some m =>
      rw [hm] at hl
      dsimp only at hl
      rw [Mem.listTables, Mem.listViews] at hl
      cases hd : find m.dbs db with
      | none =>
        rw [hd] at hl
        exact nomatch hl
      | some d =>
        rw [hd] at hl
        cases hl
        have hd' := (hw.catalogs i c m hm).db db d (mem_of_find hd)
        rw [shown, if_neg hg]
        simp only [List.mem_cons, List.not_mem_nil, or_false, exists_eq_or_imp, exists_eq_left,
          List.mem_append, htemp]
        have h1 : (f ∈ ((d.tables.map (·.2)).filter fun t => keep t.name).map Found.table) ↔
            keep (nameOf f) = true ∧ objectAt w (.table i c db (nameOf f)) = some f := by
          rw [objectAt, hm]
          dsimp only
          rw [answers_table, hd, Option.bind_some, List.mem_map]
          constructor
          · rintro ⟨s, hs, rfl⟩
            obtain ⟨hs, hk⟩ := List.mem_filter.1 hs
            obtain ⟨⟨n, s'⟩, he, rfl⟩ := List.mem_map.1 hs
            refine ⟨hk, ?_⟩
            have hn := (hd'.table _ _ he).2.2
            rw [nameOf, hn, (find_iff hd'.tables).2 he]
            rfl
          · rintro ⟨hk, hv⟩
            cases ht : find d.tables (nameOf f) with
            | none =>
              rw [ht] at hv
              exact nomatch hv
            | some s =>
              rw [ht] at hv
              cases hv
              exact ⟨s, List.mem_filter.2 ⟨List.mem_map.2 ⟨_, mem_of_find ht, rfl⟩, hk⟩, rfl⟩
        have h2 : (f ∈ ((d.views.map (·.2)).filter fun t => keep t.name).map Found.view) ↔
            keep (nameOf f) = true ∧ objectAt w (.view i c db (nameOf f)) = some f := by
          rw [objectAt, hm]
          dsimp only
          rw [answers_view, hd, Option.bind_some, List.mem_map]
          constructor
          · rintro ⟨s, hs, rfl⟩
            obtain ⟨hs, hk⟩ := List.mem_filter.1 hs
            obtain ⟨⟨n, s'⟩, he, rfl⟩ := List.mem_map.1 hs
            refine ⟨hk, ?_⟩
            have hn := (hd'.view _ _ he).2.2
            rw [nameOf, hn, (find_iff hd'.views).2 he]
            rfl
          · rintro ⟨hk, hv⟩
            cases ht : find d.views (nameOf f) with
            | none =>
              rw [ht] at hv
              exact nomatch hv
            | some s =>
              rw [ht] at hv
              cases hv
              exact ⟨s, List.mem_filter.2 ⟨List.mem_map.2 ⟨_, mem_of_find ht, rfl⟩, hk⟩, rfl⟩
        rw [h1, h2]
        constructor
        · rintro ((⟨a, b⟩ | ⟨a, b⟩) | ⟨a, b⟩)
          · exact ⟨a, .inr (.inl b)⟩
          · exact ⟨a, .inr (.inr b)⟩
          · exact ⟨a, .inl b⟩
        · rintro ⟨a, b | b | b⟩
          · exact .inr ⟨a, b⟩
          · exact .inl (.inl ⟨a, b⟩)
          · exact .inl (.inr ⟨a, b⟩)

/-! ## Examples and negations -/

section Examples

/-- Two catalogs with a database each; the default is `d` of `c1`. -/
def freshSession : Session Nat where
  catalogs := [("c1".toList, Mem.init "c1".toList (single "d") 0),
    ("c2".toList, Mem.init "c2".toList (single "e") 0)]
  defaultCatalog := "c1".toList
  defaultDatabase := single "d"
  globalDatabase := single "global_temp"
  temp := []

/-- All sessions fresh. -/
def freshWorld : World Nat := ⟨[], fun _ => freshSession⟩

theorem freshWorld_fresh : Fresh freshWorld := by
  refine ⟨rfl, fun _ => rfl, fun i e he => ?_, fun i => ⟨_, List.mem_cons_self, rfl⟩⟩
  rcases List.mem_cons.1 he with rfl | he
  · exact ⟨single "d", 0, rfl⟩
  · cases List.mem_singleton.1 he
    exact ⟨single "e", 0, rfl⟩

/-- CREATE TEMPORARY VIEW. -/
def sampleTemp : TempOptions Nat := ⟨[1, 2], [some "x".toList, none], false, false, 5⟩

/-- A table `t` in both catalogs, a temporary view `t` and a global one of the first session. -/
def sampleWorld : World Nat := freshWorld.run noNested
  [(0, .createTable ["t".toList] (sampleTable .create)),
   (0, .createTable ["c2".toList, "e".toList, "t".toList] (sampleTable .create)),
   (0, .createView ["v".toList] sampleView),
   (0, .createTemp "t".toList false sampleTemp),
   (0, .createTemp "g".toList true sampleTemp)]

/-- The kind of an object and its catalog. -/
def Spec.describe : Except Err (Found Nat) → Option (String × Name)
  | .ok (.temp ..) => some ("temporary view", [])
  | .ok (.global ..) => some ("global temporary view", [])
  | .ok (.table s) => some ("table", s.catalog)
  | .ok (.view s) => some ("view", s.catalog)
  | .error _ => none

-- The temporary view hides the table of the session, and dropping it reveals the table.
example : describe (sampleWorld.lookup 0 ["t".toList]) = some ("temporary view", []) ∧
    describe (sampleWorld.lookup 0 ["d".toList, "t".toList]) = some ("table", "c1".toList) ∧
    describe (sampleWorld.lookup 0 ["c2".toList, "e".toList, "t".toList]) =
      some ("table", "c2".toList) ∧
    describe (sampleWorld.lookup 1 ["t".toList]) = none ∧
    describe (sampleWorld.lookup 1 ["global_temp".toList, "g".toList]) =
      some ("global temporary view", []) ∧
    (sampleWorld.step noNested 0 (.dropView ["t".toList] false)).1 = .ok () ∧
    describe ((sampleWorld.step noNested 0 (.dropView ["t".toList] false)).2.lookup 0 ["t".toList]) =
      some ("table", "c1".toList) := by
  decide +kernel

-- A statement that meets the conditions of `C84_create_table`.
example : (freshWorld.step noNested 0 (.createTable ["t".toList] (sampleTable .create))).1 = .ok () ∧
    Means freshSession ["t".toList] "c1".toList (single "d") "t".toList :=
  ⟨by decide +kernel, .single _⟩

example : Means freshSession ["c2".toList, "e".toList, "t".toList] "c2".toList (single "e") "t".toList :=
  .qualified "c2".toList (single "e") "t".toList ⟨_, rfl⟩

example : Means freshSession ["x".toList, "t".toList] "c1".toList (single "x") "t".toList :=
  .byDefault (single "x") "t".toList (by simp [freshSession, find, single])

-- SHOW TABLES with the temporary view beside the tables and the views.
example : (sampleWorld.showTables 0 (fun _ => true) []).map (fun l => l.map nameOf) =
    .ok ["t".toList, "v".toList, "t".toList] ∧
    (sampleWorld.showTables 1 (fun _ => true) ["global_temp".toList]).map (fun l => l.map nameOf) =
      .ok ["g".toList] ∧
    (sampleWorld.showTables 1 (fun _ => true) ["c2".toList, "x".toList]).isOk = false := by
  decide +kernel

-- USE.
example : (sampleWorld.step noNested 0 (.useDatabase ["d".toList])).1 = .ok () ∧
    (sampleWorld.step noNested 0 (.useDatabase ["e".toList])).1 ≠ .ok () := by
  decide +kernel

-- A global temporary view that replaces one.
example : (sampleWorld.step noNested 3 (.createTemp "g".toList true
    { sampleTemp with replace := true, comments := [] })).1 = .ok () := by
  decide +kernel

/-- SHOW DATABASES IN c2.e and USE c2.e ignore that `c2` is a catalog, although c2.e.t reads
the table in it. -/
theorem C84_catalog_ignored :
    (sampleWorld.sessions 0).resolveDatabase ["c2".toList, "e".toList] =
        .ok ("c2".toList, single "e") ∧
      (sampleWorld.sessions 0).resolveOptionalDatabase ["c2".toList, "e".toList] =
        .ok ("c1".toList, some ⟨"c2".toList, ["e".toList]⟩) ∧
      (sampleWorld.step noNested 0 (.useDatabase ["c2".toList, "e".toList])).1 ≠ .ok () := by
  decide +kernel

/-- USE CATALOG keeps the default database, which need not exist in the new catalog, so that
unqualified names cannot be created. -/
theorem C84_use_catalog_keeps_database :
    let w := (sampleWorld.step noNested 0 (.useCatalog "c2".toList)).2
    (w.sessions 0).defaultDatabase = single "d" ∧
      (w.step noNested 0 (.createTable ["u".toList] (sampleTable .create))).1 =
        .error (.notFound .database) := by
  decide +kernel

/-- CREATE VIEW on the name of a table succeeds, but the name still reads as the table. -/
theorem C84_view_behind_table :
    let w := (sampleWorld.step noNested 0 (.createView ["d".toList, "t".toList] sampleView))
    w.1 = .ok () ∧ describe (w.2.lookup 0 ["d".toList, "t".toList]) = some ("table", "c1".toList) := by
  decide +kernel

/-- CREATE TABLE IF NOT EXISTS does nothing when only a temporary view has the name. -/
theorem C84_temp_blocks_table :
    let w := (sampleWorld.step noNested 0 (.dropTable ["t".toList] false)).2
    let a := w.step noNested 0 (.createTable ["t".toList] (sampleTable .createIfNotExists))
    a.1 = .ok () ∧ describe (a.2.lookup 0 ["d".toList, "t".toList]) = none := by
  decide +kernel

/-- A table in a database with the name of the global temporary database can be created but
not read. -/
theorem C84_table_in_global_database :
    let w := (sampleWorld.step noNested 0 (.createDatabase ["global_temp".toList] false 0)).2
    let a := w.step noNested 0 (.createTable ["global_temp".toList, "t".toList] (sampleTable .create))
    a.1 = .ok () ∧ describe (a.2.lookup 0 ["global_temp".toList, "t".toList]) = none := by
  decide +kernel

end Examples

end Verif.Catalog
