import Verif.Catalog.MemoryListProps

/-!
# C87: commits to catalog-managed tables form a chain
-/

namespace Verif.Catalog

open Spec

/-! ## One commit -/

namespace Spec

/-- A key that readers take for a metadata location. -/
def LocationLike (k : Name) : Prop :=
  (trim k).map Char.toLower = "metadata-location".toList ∨
    (trim k).map Char.toLower = "metadata_location".toList

/-- The properties carry a metadata location under one key, which has no white space around
it. -/
structure OneKey (k : Name) (ps : Properties) : Prop where
  here : ∃ v, (k, v) ∈ ps
  like : LocationLike k
  plain : trim k = k
  only : ∀ p ∈ ps, LocationLike p.1 → p.1 = k

/-- The value of the first property with a key. -/
def valueOf (k : Name) : Properties → Option Name
  | [] => none
  | (k', v) :: ps => if k' = k then some v else valueOf k ps

end Spec

theorem hyphen_lower : hyphenKey.map Char.toLower = "metadata-location".toList := by decide +kernel

theorem underscore_lower : underscoreKey.map Char.toLower = "metadata_location".toList := by
  decide +kernel

theorem propertyValue_eq {ps : Properties} {key low : Name} (hl : key.map Char.toLower = low)
    {k : Name} (hk : (trim k).map Char.toLower = low)
    (only : ∀ p ∈ ps, (trim p.1).map Char.toLower = low → p.1 = k) :
    propertyValue ps key = valueOf k ps := by
  induction ps with
  | nil => rfl
  | cons p ps ih =>
    obtain ⟨a, v⟩ := p
    have ih' := ih fun q hq => only q (List.mem_cons_of_mem _ hq)
    rw [propertyValue] at ih' ⊢
    rw [List.find?_cons, valueOf]
    by_cases ha : a = k
    · subst ha
      have : eqIgnoreCase (trim a) key = true := by
        rw [eqIgnoreCase, hk, hl, beq_self_eq_true]
      rw [this, if_pos rfl]
      rfl
    · have : eqIgnoreCase (trim a) key = false := by
        rw [eqIgnoreCase, hl, beq_eq_false_iff_ne]
        exact fun h => ha (only (a, v) List.mem_cons_self h)
      rw [this, if_neg ha]
      exact ih'

theorem propertyValue_none {ps : Properties} {key low : Name} (hl : key.map Char.toLower = low)
    (none' : ∀ p ∈ ps, (trim p.1).map Char.toLower ≠ low) : propertyValue ps key = none := by
  rw [propertyValue, List.find?_eq_none.2]
  · rfl
  · intro p hp h
    rw [eqIgnoreCase, hl, beq_iff_eq] at h
    exact none' p hp h

theorem locationValue_eq {k : Name} {ps : Properties} (h : OneKey k ps) :
    locationValue ps = valueOf k ps := by
  have hv : ∃ v, valueOf k ps = some v := by
    obtain ⟨v, hv⟩ := h.here
    clear h
    induction ps with
    | nil => exact nomatch hv
    | cons p ps ih =>
      obtain ⟨a, w⟩ := p
      rw [valueOf]
      split
      · exact ⟨w, rfl⟩
      · rename_i ha
        rcases List.mem_cons.1 hv with hv | hv
        · cases hv
          exact absurd rfl ha
        · exact ih hv
  rw [locationValue]
  rcases h.like with hk | hk
  · rw [propertyValue_eq hyphen_lower hk fun p hp hl => h.only p hp (.inl hl)]
    obtain ⟨v, hv⟩ := hv
    rw [hv]
  · rw [propertyValue_none hyphen_lower, propertyValue_eq underscore_lower hk
      fun p hp hl => h.only p hp (.inr hl)]
    intro p hp hl
    have := h.only p hp (.inl hl)
    rw [this, hk] at hl
    exact absurd hl (by decide +kernel)

theorem isLocationKey_iff (k : Name) (hk : trim k = k) : isLocationKey k = true ↔ LocationLike k := by
  rw [isLocationKey, LocationLike, hk, Bool.or_eq_true, eqIgnoreCase, eqIgnoreCase, hyphen_lower,
    underscore_lower, beq_iff_eq, beq_iff_eq]

theorem mem_of_dropWhile {p : Char → Bool} {l : Name} {x : Char} (h : x ∈ l) (hp : p x = false) :
    x ∈ l.dropWhile p := by
  induction l with
  | nil => exact nomatch h
  | cons a l ih =>
    rw [List.dropWhile_cons]
    split
    · rename_i ha
      rcases List.mem_cons.1 h with rfl | h
      · rw [hp] at ha
        exact nomatch ha
      · exact ih h
    · exact h

theorem dropWhile_none {p : Char → Bool} {l : Name} (h : ∀ x ∈ l, p x = false) :
    l.dropWhile p = l := by
  cases l with
  | nil => rfl
  | cons a l => rw [List.dropWhile_cons, if_neg (by rw [h a List.mem_cons_self]; exact Bool.false_ne_true)]

theorem isSpace_lower (c : Char) (h : isSpace c = true) : isSpace c.toLower = true := by
  have : ¬(c.val ≥ 'A'.val ∧ c.val ≤ 'Z'.val) := by
    rintro ⟨h1, h2⟩
    have h3 : 65 ≤ c.toNat := h1
    have h4 : c.toNat ≤ 90 := h2
    simp only [isSpace, Bool.or_eq_true, Bool.and_eq_true, decide_eq_true_eq, beq_iff_eq] at h
    omega
  rw [Char.toLower, dif_neg this]
  exact h

/-- Spellings of the location keys contain no white space, so `trim` does not change them. -/
theorem trim_of_location {k : Name} (h : isLocationKey k = true) : trim k = k := by
  have hall : ∀ x ∈ k, isSpace x = false := by
    intro x hx
    cases hs : isSpace x with
    | false => rfl
    | true =>
      have hm : x.toLower ∈ k.map Char.toLower := List.mem_map.2 ⟨x, hx, rfl⟩
      have hl := isSpace_lower x hs
      rw [isLocationKey, Bool.or_eq_true, eqIgnoreCase, eqIgnoreCase, hyphen_lower,
        underscore_lower, beq_iff_eq, beq_iff_eq] at h
      have : ∀ y ∈ k.map Char.toLower, isSpace y = false := by
        rcases h with h | h <;> rw [h] <;> decide +kernel
      rw [this _ hm] at hl
      exact nomatch hl
  rw [trim, dropWhile_none hall, dropWhile_none, List.reverse_reverse]
  exact fun x hx => hall x (List.mem_reverse.1 hx)

theorem existingKey_eq {k : Name} {ps : Properties} (h : OneKey k ps) : existingKey ps = some k := by
  obtain ⟨v, hv⟩ := h.here
  have hk : isLocationKey k = true := (isLocationKey_iff k h.plain).2 h.like
  rw [existingKey]
  cases hf : ps.find? fun p => isLocationKey p.1 with
  | none =>
    have := List.find?_eq_none.1 hf _ hv
    exact absurd hk this
  | some p =>
    have h1 := List.mem_of_find?_eq_some hf
    have h2 := List.find?_some hf
    have h3 := (isLocationKey_iff p.1 (trim_of_location h2)).1 h2
    rw [Option.map_some, h.only p h1 h3]

theorem previous_not_location : isLocationKey previousKey = false ∧ trim previousKey = previousKey := by
  decide +kernel

theorem Spec.LocationLike.of_key {k : Name} (h : isLocationKey k = true) : LocationLike k :=
  (isLocationKey_iff k (trim_of_location h)).1 h

theorem commit_lookups {k : Name} (hk : isLocationKey k = true) (base new : Name) :
    previousUpdate [(k, new), (previousKey, base)] = some base ∧
      locationUpdate [(k, new), (previousKey, base)] = some new := by
  constructor
  · rw [previousUpdate, List.find?_cons]
    have : eqIgnoreCase k previousKey = false := by
      rw [eqIgnoreCase, beq_eq_false_iff_ne]
      intro h
      rw [isLocationKey, Bool.or_eq_true, eqIgnoreCase, eqIgnoreCase, beq_iff_eq, beq_iff_eq, h] at hk
      revert hk
      decide +kernel
    rw [this, List.find?_cons, show eqIgnoreCase previousKey previousKey = true by decide +kernel]
    rfl
  · rw [locationUpdate, List.find?_cons, hk]
    rfl

theorem valueOf_eq_find (k : Name) (ps : Properties) : valueOf k ps = find ps k := by
  induction ps with
  | nil => rfl
  | cons p ps ih =>
    obtain ⟨a, v⟩ := p
    rw [valueOf, find, ih]

theorem mem_setProperty {ps : Properties} {k v : Name} {p : Name × Name}
    (h : p ∈ setProperty ps k v) : p = (k, v) ∨ p ∈ ps := by
  induction ps with
  | nil => exact .inl (List.mem_singleton.1 h)
  | cons q ps ih =>
    obtain ⟨a, w⟩ := q
    rw [setProperty] at h
    split at h
    · rcases List.mem_cons.1 h with h | h
      · exact .inl h
      · exact .inr (List.mem_cons_of_mem _ h)
    · rcases List.mem_cons.1 h with h | h
      · exact .inr (h ▸ List.mem_cons_self)
      · rcases ih h with h | h
        · exact .inl h
        · exact .inr (List.mem_cons_of_mem _ h)

theorem Spec.OneKey.set {k : Name} {ps : Properties} (h : OneKey k ps) (a v : Name)
    (ha : LocationLike a → a = k) : OneKey k (setProperty ps a v) := by
  refine ⟨?_, h.like, h.plain, fun p hp hl => ?_⟩
  · obtain ⟨w, hw⟩ := h.here
    have : ∃ w, find (setProperty ps a v) k = some w := by
      rw [find_setProperty]
      split
      · exact ⟨v, rfl⟩
      · cases hf : find ps k with
        | some x => exact ⟨x, rfl⟩
        | none => exact absurd hw (find_eq_none.1 hf w)
    obtain ⟨w, hw⟩ := this
    exact ⟨w, mem_of_find hw⟩
  · rcases mem_setProperty hp with rfl | hp
    · exact ha hl
    · exact h.only p hp hl

/-- A commit based on the metadata location `base` succeeds exactly if `base` is the current
one, and then the new location is the current one. -/
theorem C87_commit {α : Type} (nested : α → List Name → α → Option α) (s : Status α)
    (cs : List (Column α)) (f : Name) (pb : List (Name × Bool)) (bb : Option (List Name)) (r : α)
    (k : Name) (ps seen : Properties) (base new : Name) (hs : s.kind = .table cs f pb bb ps r)
    (hk : OneKey k ps) (hseen : OneKey k seen) :
    let a := alterStatus nested s (.setProperties (commitUpdate seen (some base) new))
    (locationValue ps = some base → ∃ ps', a = (.ok (), { s with kind := .table cs f pb bb ps' r }) ∧
      locationValue ps' = some new ∧ OneKey k ps') ∧
    (locationValue ps ≠ some base → a = (.error .conflict, s)) := by
  intro a
  have hk' : isLocationKey k = true := (isLocationKey_iff k hk.plain).2 hk.like
  have hu : commitUpdate seen (some base) new = [(k, new), (previousKey, base)] := by
    rw [commitUpdate, existingKey_eq hseen]
    rfl
  have ha : a = if decide (locationValue ps = some base) = true then
      (.ok (),
        { s with
          kind := .table cs f pb bb (setProperties ps [(k, new), (previousKey, base)]) r })
      else (.error .conflict, s) := by
    show alterStatus nested s (.setProperties (commitUpdate seen (some base) new)) = _
    rw [hu, alterStatus, hs]
    dsimp only
    rw [validLocation, (commit_lookups hk' base new).1, (commit_lookups hk' base new).2]
    rfl
  have hprev : LocationLike previousKey → previousKey = k := by
    intro h
    have := (isLocationKey_iff previousKey previous_not_location.2).2 h
    rw [previous_not_location.1] at this
    exact nomatch this
  constructor
  · intro hb
    refine ⟨_, by rw [ha, if_pos (decide_eq_true hb)], ?_, ?_⟩
    · have h2 : OneKey k (setProperties ps [(k, new), (previousKey, base)]) :=
        (hk.set k new fun _ => rfl).set previousKey base hprev
      rw [locationValue_eq h2, valueOf_eq_find]
      rw [setProperties, List.foldl_cons, List.foldl_cons, List.foldl_nil, find_setProperty,
        find_setProperty, if_pos rfl, if_neg]
      intro h
      rw [← h, previous_not_location.1] at hk'
      exact nomatch hk'
    · exact (hk.set k new fun _ => rfl).set previousKey base hprev
  · intro hb
    rw [ha, if_neg (by rw [decide_eq_true_eq]; exact hb)]

/-! ## Many writers -/

/-- A table in the catalog and its writers. A writer remembers the properties it read. -/
structure Writers where
  properties : Properties
  seen : Nat → Option Properties
  /-- Successful commits, the latest first: the location the writer had read and its new
  location. -/
  log : List (Name × Name)

/-- What happens to the table. -/
inductive Event
  | read (writer : Nat)
  | commit (writer : Nat) (new : Name)
  | set (key value : Name)

/-- One event. A writer reads the properties (`get_table`) and later sends the update of
`update_metadata_location` (commit.rs:229-255), based on the location it read; another
statement sets some property. -/
def Writers.step (w : Writers) : Event → Writers
  | .read i => { w with seen := fun j => if j = i then some w.properties else w.seen j }
  | .commit i new =>
    match w.seen i with
    | none => w
    | some seen =>
      let update := commitUpdate seen (locationValue seen) new
      if validLocation w.properties update then
        { w with
          properties := setProperties w.properties update
          log := ((locationValue seen).getD [], new) :: w.log }
      else w
  | .set k v => { w with properties := setProperty w.properties k v }

namespace Spec

/-- The commits of a log follow each other from one location to another. -/
def Chain (first : Name) : List (Name × Name) → Name → Prop
  | [], last => last = first
  | (base, new) :: log, last => last = new ∧ Chain first log base

end Spec

theorem oneKey_value {k : Name} {ps : Properties} (h : OneKey k ps) :
    ∃ v, locationValue ps = some v := by
  rw [locationValue_eq h, valueOf_eq_find]
  cases hf : find ps k with
  | some v => exact ⟨v, rfl⟩
  | none =>
    obtain ⟨v, hv⟩ := h.here
    exact absurd hv (find_eq_none.1 hf v)

/-- Whatever the order in which any number of writers read and commit, the successful commits
form one chain: each is based on the location of the one before it, and the last one is the
current location. -/
theorem C87_chain (k : Name) (ps : Properties) (h : OneKey k ps) (first : Name)
    (hf : locationValue ps = some first) (es : List Event)
    (hes : ∀ a v, Event.set a v ∈ es → ¬LocationLike a) :
    let w := es.foldl Writers.step ⟨ps, fun _ => none, []⟩
    ∃ current, locationValue w.properties = some current ∧ Chain first w.log current := by
  intro w
  have key : ∀ (es : List Event) (w : Writers), (∀ a v, Event.set a v ∈ es → ¬LocationLike a) →
      OneKey k w.properties → (∀ i seen, w.seen i = some seen → OneKey k seen) →
      (∃ current, locationValue w.properties = some current ∧ Chain first w.log current) →
      ∃ current, locationValue (es.foldl Writers.step w).properties = some current ∧
        Chain first (es.foldl Writers.step w).log current := by
    intro es
    induction es with
    | nil => exact fun w _ _ _ h => h
    | cons e es ih =>
      intro w he h1 h2 h3
      rw [List.foldl_cons]
      have he' := fun a v hm => he a v (List.mem_cons_of_mem _ hm)
      cases e with
      | read i =>
        refine ih _ he' h1 (fun j seen hj => ?_) h3
        dsimp only [Writers.step] at hj
        split at hj
        · cases hj
          exact h1
        · exact h2 j seen hj
      | set a v =>
        have ha := he a v List.mem_cons_self
        refine ih _ he' (h1.set a v fun h => absurd h ha) h2 ?_
        obtain ⟨c, hc, hch⟩ := h3
        refine ⟨c, ?_, hch⟩
        have h1' := h1.set a v fun h => absurd h ha
        rw [locationValue_eq h1, valueOf_eq_find] at hc
        show locationValue (setProperty w.properties a v) = some c
        rw [locationValue_eq h1', valueOf_eq_find, find_setProperty, if_neg, hc]
        rintro rfl
        exact ha h1.like
      | commit i new =>
        dsimp only [Writers.step]
        cases hs : w.seen i with
        | none => exact ih _ he' h1 h2 h3
        | some seen =>
          dsimp only
          have hseen := h2 i seen hs
          obtain ⟨base, hb⟩ := oneKey_value hseen
          obtain ⟨cur, hc, hch⟩ := h3
          have hC := C87_commit (fun _ _ _ => none) (⟨[], ⟨[], []⟩, [],
            .table [] [] [] none w.properties ()⟩ : Status Unit) [] [] [] none () k w.properties seen
            base new rfl h1 hseen
          rw [hb]
          split
          · rename_i hv
            by_cases hbase : locationValue w.properties = some base
            · obtain ⟨ps', ha, hl, ho⟩ := hC.1 hbase
              have : ps' = setProperties w.properties (commitUpdate seen (some base) new) := by
                rw [alterStatus] at ha
                dsimp only at ha
                rw [if_pos hv] at ha
                simp only [Prod.mk.injEq, Status.mk.injEq, Kind.table.injEq] at ha
                exact ha.2.2.2.2.2.2.2.2.1.symm
              subst this
              refine ih _ he' ho h2 ⟨new, hl, rfl, ?_⟩
              rw [hc] at hbase
              cases hbase
              exact hch
            · have ha := hC.2 hbase
              rw [alterStatus] at ha
              dsimp only at ha
              rw [if_pos hv] at ha
              exact nomatch (Prod.mk.inj ha).1
          · exact ih _ he' h1 h2 ⟨cur, hc, hch⟩
  exact key es _ hes h (fun _ _ h => nomatch h) ⟨first, hf, rfl⟩

/-- Reading and committing without another commit in between succeeds. -/
theorem C87_progress (k : Name) (w : Writers) (h : OneKey k w.properties) (i : Nat) (new : Name) :
    ∃ base, locationValue w.properties = some base ∧
      ((w.step (.read i)).step (.commit i new)).log = (base, new) :: w.log ∧
      locationValue ((w.step (.read i)).step (.commit i new)).properties = some new := by
  obtain ⟨base, hb⟩ := oneKey_value h
  have hC := C87_commit (fun _ _ _ => none) (⟨[], ⟨[], []⟩, [],
    .table [] [] [] none w.properties ()⟩ : Status Unit) [] [] [] none () k w.properties
    w.properties base new rfl h h
  obtain ⟨ps', ha, hl, _⟩ := hC.1 hb
  rw [alterStatus] at ha
  dsimp only at ha
  refine ⟨base, hb, ?_⟩
  simp only [Writers.step, if_true, hb]
  by_cases hv : validLocation w.properties (commitUpdate w.properties (some base) new) = true
  · rw [if_pos hv] at ha ⊢
    simp only [Prod.mk.injEq, Status.mk.injEq, Kind.table.injEq] at ha
    refine ⟨rfl, ?_⟩
    rw [← ha.2.2.2.2.2.2.2.2.1] at hl
    exact hl
  · rw [if_neg hv] at ha
    exact nomatch (Prod.mk.inj ha).1

/-! ## Examples and exceptions -/

/-- A table with its metadata under `Metadata-Location`. -/
def sampleProps : Properties :=
  [("owner".toList, "me".toList), ("Metadata-Location".toList, "m0".toList)]

example : OneKey "Metadata-Location".toList sampleProps := by
  refine ⟨⟨"m0".toList, by decide +kernel⟩, .inl (by decide +kernel), by decide +kernel, ?_⟩
  intro p hp
  rcases List.mem_cons.1 hp with rfl | hp
  · exact fun h => by rcases h with h | h <;> exact absurd h (by decide +kernel)
  · cases List.mem_singleton.1 hp
    exact fun _ => rfl

-- Two writers read `m0`; the first commit succeeds, the second does not.
example : ([Event.read 1, .read 2, .commit 1 "m1".toList, .set "x".toList "y".toList,
    .commit 2 "m2".toList].foldl Writers.step ⟨sampleProps, fun _ => none, []⟩).log =
    [("m0".toList, "m1".toList)] := by
  decide +kernel

/-- With the location under both spellings, a commit succeeds and readers still see the old
location. -/
theorem C87_two_keys_lose_commit :
    let ps : Properties :=
      [("metadata_location".toList, "m0".toList), ("metadata-location".toList, "m0".toList)]
    let w := [Event.read 1, .commit 1 "m1".toList, .read 2, .commit 2 "m2".toList].foldl
      Writers.step ⟨ps, fun _ => none, []⟩
    w.log = [("m0".toList, "m2".toList), ("m0".toList, "m1".toList)] ∧
      locationValue w.properties = some "m0".toList := by
  decide +kernel

/-- The first commits of two writers to a table without a metadata location both succeed. -/
theorem C87_first_commits_both_succeed :
    let w := [Event.read 1, .read 2, .commit 1 "m1".toList, .commit 2 "m2".toList].foldl
      Writers.step ⟨[], fun _ => none, []⟩
    w.log.map (·.2) = ["m2".toList, "m1".toList] ∧
      locationValue w.properties = some "m2".toList := by
  decide +kernel

end Verif.Catalog
