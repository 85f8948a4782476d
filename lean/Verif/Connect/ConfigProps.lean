import Verif.Connect.Config

/-!
# C64: the runtime configuration reads what was written
-/

namespace Verif.Connect.Conf

theorem lookup_erase (k j : String) (m : Map) :
    lookup j (erase k m) = if j = k then none else lookup j m := by
  unfold lookup erase
  induction m with
  | nil => simp
  | cons e m ih =>
    by_cases he : e.1 = k
    · rw [List.filter_cons_of_neg (by simp [he]), ih]
      by_cases hj : j = k
      · simp [hj]
      · rw [if_neg hj, if_neg hj, List.find?_cons]
        have : (e.1 == j) = false := by simp [he, Ne.symm hj]
        rw [this]
    · rw [List.filter_cons_of_pos (by simp [he]), List.find?_cons]
      cases hb : e.1 == j with
      | true =>
        simp only [beq_iff_eq] at hb
        have : ¬ j = k := fun h => he (hb.trans h)
        rw [if_neg this, List.find?_cons]
        simp [hb]
      | false =>
        simp only
        rw [ih]
        by_cases hj : j = k
        · simp [hj]
        · rw [if_neg hj, if_neg hj, List.find?_cons, hb]

theorem lookup_insert (k v j : String) (m : Map) :
    lookup j (insert k v m) = if j = k then some v else lookup j m := by
  by_cases hj : j = k
  · subst hj
    simp [lookup, insert]
  · have h1 := lookup_erase k j m
    rw [if_neg hj] at h1 ⊢
    rw [← h1]
    unfold lookup insert erase
    rw [List.find?_cons]
    have : (k == j) = false := by simp [Ne.symm hj]
    rw [this]

namespace Spec

/-- The keys whose values a read of `k` looks at: the key, its alternatives, and those of the keys it
falls back to. -/
inductive Uses (t : Table) : String → String → Prop where
  | self (k) : Uses t k k
  | alternative {k a e} : t.entry k = some e → a ∈ e.alternatives → Uses t k a
  | fallback {k f j e} : t.entry k = some e → e.fallback = some f → Uses t f j → Uses t k j

/-- The requests that do not mention a key. -/
def Silent (k : String) : Request → Prop
  | .set kvs => ∀ v, (k, v) ∉ kvs
  | .unset ks => k ∉ ks

end Spec

open Spec

theorem findSome_congr {l : List String} {f g : String → Option String}
    (h : ∀ a ∈ l, f a = g a) : l.findSome? f = l.findSome? g := by
  induction l with
  | nil => rfl
  | cons a l ih =>
    rw [List.findSome?_cons, List.findSome?_cons, h a (by simp), ih fun b hb => h b (by simp [hb])]

theorem getByKey_congr (t : Table) (m m' : Map) (k : String)
    (h : ∀ j, Uses t k j → lookup j m = lookup j m') : getByKey t m k = getByKey t m' k := by
  unfold getByKey
  rw [h k (.self k)]
  cases lookup k m' with
  | some v => rfl
  | none =>
    simp only
    apply findSome_congr
    intro a ha
    unfold alternatives at ha
    cases he : t.entry k with
    | none => rw [he] at ha; exact absurd ha (by simp)
    | some e => rw [he] at ha; exact h a (.alternative he ha)

/-- What a read of a key returns depends only on the values of the keys it looks at. -/
theorem C64_reads_depend_on_used_keys (t : Table) (m m' : Map) (k : String) (d : Option String)
    (h : ∀ j, Uses t k j → lookup j m = lookup j m') :
    get t m k = get t m' k ∧ getOption t m k = getOption t m' k ∧
      getWithDefault t m k d = getWithDefault t m' k d := by
  have hk := getByKey_congr t m m' k h
  rw [get, get.eq_def t m' k, getOption, getOption.eq_def t m' k, getWithDefault,
    getWithDefault.eq_def t m' k d, hk]
  cases getByKey t m' k with
  | some v => exact ⟨rfl, rfl, rfl⟩
  | none =>
    simp only
    split
    · exact ⟨rfl, rfl, rfl⟩
    · rename_i e he
      split
      · rename_i f hf
        exact C64_reads_depend_on_used_keys t m m' f d fun j hj => h j (.fallback he hf hj)
      · exact ⟨rfl, rfl, rfl⟩
termination_by t.rank k
decreasing_by exact t.acyclic k _ _ (by assumption) (by assumption)

/-- C64: setting or unsetting a key does not change what a key reads that does not look at it. -/
theorem C64_unrelated_keys_keep_their_values (t : Table) (m m' : Map) (k v j : String)
    (d : Option String) (hu : ¬ Uses t j k) (hs : set t m k v = some m' ∨ m' = unset m k) :
    get t m' j = get t m j ∧ getOption t m' j = getOption t m j ∧
      getWithDefault t m' j d = getWithDefault t m j d := by
  refine C64_reads_depend_on_used_keys t m' m j d fun i hi => ?_
  have hne : ¬ i = k := fun h => hu (h ▸ hi)
  rcases hs with hs | hs
  · unfold set at hs
    split at hs
    · rw [← Option.some.inj hs, lookup_insert, if_neg hne]
    · exact absurd hs (by simp)
  · rw [hs]
    unfold unset
    rw [lookup_erase, if_neg hne]

theorem lookup_setAll_silent (t : Table) (k : String) (kvs : List (String × Option String)) :
    ∀ m : Map, (∀ v, (k, v) ∉ kvs) → lookup k (setAll t m kvs).1 = lookup k m := by
  induction kvs with
  | nil => exact fun m _ => rfl
  | cons e kvs ih =>
    intro m h
    obtain ⟨j, v⟩ := e
    have hj : ¬ k = j := fun hx => h v (by rw [hx]; exact List.mem_cons_self)
    have h' : ∀ v, (k, v) ∉ kvs := fun v hv => h v (List.mem_cons_of_mem _ hv)
    cases v with
    | none => rfl
    | some v =>
      simp only [setAll]
      cases hs : set t m j v with
      | none => rfl
      | some m' =>
        simp only
        rw [ih m' h']
        unfold set at hs
        split at hs
        · rw [← Option.some.inj hs, lookup_insert, if_neg hj]
        · exact absurd hs (by simp)

theorem lookup_unsetAll (k : String) (ks : List String) : ∀ m : Map,
    lookup k (unsetAll m ks) = if k ∈ ks then none else lookup k m := by
  induction ks with
  | nil => intro m; simp [unsetAll]
  | cons j ks ih =>
    intro m
    simp only [unsetAll, ih, unset, lookup_erase, List.mem_cons]
    by_cases h1 : k ∈ ks
    · simp [h1]
    · by_cases h2 : k = j
      · simp [h2]
      · simp [h1, h2]

theorem lookup_run_silent (t : Table) (k : String) (rs : List Request) : ∀ m : Map,
    (∀ r ∈ rs, Silent k r) → lookup k (run t m rs) = lookup k m := by
  induction rs with
  | nil => exact fun m _ => rfl
  | cons r rs ih =>
    intro m h
    simp only [run]
    rw [ih _ fun r hr => h r (List.mem_cons_of_mem _ hr)]
    have hr := h r List.mem_cons_self
    cases r with
    | set kvs => exact lookup_setAll_silent t k kvs m hr
    | unset ks => simp only [step]; rw [lookup_unsetAll, if_neg hr]

theorem lookup_setAll_last (t : Table) (k v : String) (kvs : List (String × Option String))
    (rest : List (String × Option String)) (hrest : ∀ v, (k, v) ∉ rest) : ∀ m : Map,
    (setAll t m (kvs ++ (k, some v) :: rest)).2 = true →
      lookup k (setAll t m (kvs ++ (k, some v) :: rest)).1 = some v := by
  induction kvs with
  | nil =>
    intro m h
    simp only [List.nil_append, setAll] at h ⊢
    cases hs : set t m k v with
    | none => rw [hs] at h; exact absurd h (by simp)
    | some m' =>
      simp only
      rw [lookup_setAll_silent t k rest m' hrest]
      unfold set at hs
      split at hs
      · rw [← Option.some.inj hs, lookup_insert, if_pos rfl]
      · exact absurd hs (by simp)
  | cons e kvs ih =>
    intro m h
    obtain ⟨j, w⟩ := e
    cases w with
    | none => exact absurd h (by simp [setAll])
    | some w =>
      simp only [List.cons_append, setAll] at h ⊢
      cases hs : set t m j w with
      | none => rw [hs] at h; exact absurd h (by simp)
      | some m' => rw [hs] at h; exact ih m' h

theorem reads_of_lookup (t : Table) (m : Map) (k v : String) (d : Option String)
    (h : lookup k m = some v) : get t m k = some (some v) ∧ getOption t m k = some v ∧
      getWithDefault t m k d = some v := by
  have hk : getByKey t m k = some v := by simp [getByKey, h]
  rw [get, getOption, getWithDefault, hk]
  exact ⟨rfl, rfl, rfl⟩

/-- C64: reading a key after a successful set request, and any requests that do not mention the key,
returns the last value set for it, in each of the three ways of reading. -/
theorem C64_reads_what_was_set (t : Table) (m : Map) (k v : String) (d : Option String)
    (kvs rest : List (String × Option String)) (hrest : ∀ w, (k, w) ∉ rest) (rs : List Request)
    (hrs : ∀ r ∈ rs, Silent k r) (hok : (setAll t m (kvs ++ (k, some v) :: rest)).2 = true) :
    let m' := run t m (.set (kvs ++ (k, some v) :: rest) :: rs)
    get t m' k = some (some v) ∧ getOption t m' k = some v ∧ getWithDefault t m' k d = some v := by
  intro m'
  apply reads_of_lookup
  show lookup k (run t (setAll t m (kvs ++ (k, some v) :: rest)).1 rs) = some v
  rw [lookup_run_silent t k rs _ hrs]
  exact lookup_setAll_last t k v kvs rest hrest m hok

/-- C64: unsetting a key that had no value before it was set restores what every key read before. -/
theorem C64_unset_restores (t : Table) (m m' : Map) (k v j : String) (d : Option String)
    (h : lookup k m = none) (hs : set t m k v = some m') :
    get t (unset m' k) j = get t m j ∧ getOption t (unset m' k) j = getOption t m j ∧
      getWithDefault t (unset m' k) j d = getWithDefault t m j d := by
  refine C64_reads_depend_on_used_keys t _ m j d fun i _ => ?_
  unfold set at hs
  split at hs
  · rw [← Option.some.inj hs, unset, lookup_erase, lookup_insert]
    by_cases hi : i = k
    · rw [if_pos hi, hi, h]
    · rw [if_neg hi, if_neg hi]
  · exact absurd hs (by simp)

/-- C64: after an unset request, and requests that do not mention the key, the key reads as if it had
never been set: what it reads is what the values of the other keys say. -/
theorem C64_unset_forgets (t : Table) (m : Map) (k : String) (ks : List String) (hk : k ∈ ks)
    (rs : List Request) (hrs : ∀ r ∈ rs, Silent k r) :
    lookup k (run t m (.unset ks :: rs)) = none ∧
    (∀ j, k ≠ j → (∀ r ∈ rs, Silent j r) → j ∉ ks →
      lookup j (run t m (.unset ks :: rs)) = lookup j m) := by
  refine ⟨?_, ?_⟩
  · show lookup k (run t (unsetAll m ks) rs) = none
    rw [lookup_run_silent t k rs _ hrs, lookup_unsetAll, if_pos hk]
  · intro j _ hj hjk
    show lookup j (run t (unsetAll m ks) rs) = _
    rw [lookup_run_silent t j rs _ hj, lookup_unsetAll, if_neg hjk]

/-! ## The listing -/

theorem keys_insert {m : Map} (k v : String) (h : (m.map (·.1)).Nodup) :
    ((insert k v m).map (·.1)).Nodup := by
  simp only [insert, List.map_cons, List.nodup_cons]
  refine ⟨?_, h.sublist (List.filter_sublist.map _)⟩
  intro hm
  obtain ⟨e, he, h1⟩ := List.mem_map.1 hm
  simp only [List.mem_filter, bne_iff_ne, ne_eq] at he
  exact he.2 h1

theorem keys_run (t : Table) (rs : List Request) : ∀ m : Map, (m.map (·.1)).Nodup →
    ((run t m rs).map (·.1)).Nodup := by
  have hset : ∀ (kvs : List (String × Option String)) (m : Map), (m.map (·.1)).Nodup →
      ((setAll t m kvs).1.map (·.1)).Nodup := by
    intro kvs
    induction kvs with
    | nil => exact fun m h => h
    | cons e kvs ih =>
      intro m h
      obtain ⟨j, w⟩ := e
      cases w with
      | none => exact h
      | some w =>
        simp only [setAll]
        cases hs : set t m j w with
        | none => exact h
        | some m' =>
          unfold set at hs
          split at hs
          · rw [← Option.some.inj hs]
            exact ih _ (keys_insert j w h)
          · exact absurd hs (by simp)
  have hunset : ∀ (ks : List String) (m : Map), (m.map (·.1)).Nodup →
      ((unsetAll m ks).map (·.1)).Nodup := by
    intro ks
    induction ks with
    | nil => exact fun m h => h
    | cons k ks ih => exact fun m h => ih _ (h.sublist (List.filter_sublist.map _))
  induction rs with
  | nil => exact fun m h => h
  | cons r rs ih =>
    intro m h
    refine ih _ ?_
    cases r with
    | set kvs => exact hset kvs m h
    | unset ks => exact hunset ks m h

theorem mem_iff_lookup {m : Map} (h : (m.map (·.1)).Nodup) (k v : String) :
    (k, v) ∈ m ↔ lookup k m = some v := by
  induction m with
  | nil => simp [lookup]
  | cons e m ih =>
    simp only [List.map_cons, List.nodup_cons] at h
    unfold lookup
    rw [List.find?_cons]
    by_cases he : e.1 = k
    · have : (e.1 == k) = true := by simp [he]
      rw [this]
      simp only [Option.map_some, Option.some.injEq, List.mem_cons]
      constructor
      · rintro (h1 | h1)
        · rw [← h1]
        · exact absurd (List.mem_map.2 ⟨_, h1, he.symm⟩) h.1
      · intro h1
        left
        rw [← he, ← h1]
    · have : (e.1 == k) = false := by simp [he]
      rw [this]
      simp only [List.mem_cons]
      rw [show (Option.map (·.2) (List.find? (fun e => e.1 == k) m)) = lookup k m from rfl, ← ih h.2]
      constructor
      · rintro (h1 | h1)
        · exact absurd (by rw [← h1]) he
        · exact h1
      · exact fun h1 => .inr h1

/-- C64: after any history from an empty configuration, the listing has no key twice, and has a key with
a value exactly if the key is set to that value (and, with a prefix, begins with it). -/
theorem C64_listing (t : Table) (rs : List Request) (p : Option String) :
    ((getAll (run t [] rs) p).map (·.1)).Nodup ∧
    ∀ k v, (k, v) ∈ getAll (run t [] rs) p ↔
      lookup k (run t [] rs) = some v ∧ ∀ q, p = some q → q.toList <+: k.toList := by
  have h := keys_run t rs [] (by simp)
  cases p with
  | none =>
    refine ⟨h, fun k v => ?_⟩
    simp only [getAll]
    rw [mem_iff_lookup h]
    simp
  | some q =>
    refine ⟨h.sublist (List.filter_sublist.map _), fun k v => ?_⟩
    simp only [getAll, List.mem_filter]
    rw [mem_iff_lookup h, List.isPrefixOf_iff_prefix]
    simp

/-- C64: a key that is set to a value by the last request that mentions it is in the listing with that
value; a key that is unset by the last request that mentions it is not listed. -/
theorem C64_listing_of_histories (t : Table) (rs : List Request) (k : String) :
    (∀ (before : List Request) (kvs rest : List (String × Option String)) (v : String)
        (after : List Request), rs = before ++ .set (kvs ++ (k, some v) :: rest) :: after →
      (setAll t (run t [] before) (kvs ++ (k, some v) :: rest)).2 = true →
      (∀ w, (k, w) ∉ rest) → (∀ r ∈ after, Silent k r) → (k, v) ∈ getAll (run t [] rs) none) ∧
    (∀ (before : List Request) (ks : List String) (after : List Request),
      rs = before ++ .unset ks :: after → k ∈ ks → (∀ r ∈ after, Silent k r) →
      ∀ v, (k, v) ∉ getAll (run t [] rs) none) ∧
    ((∀ r ∈ rs, Silent k r) → ∀ v, (k, v) ∉ getAll (run t [] rs) none) := by
  have happ : ∀ (a b : List Request) (m : Map), run t m (a ++ b) = run t (run t m a) b := by
    intro a
    induction a with
    | nil => exact fun b m => rfl
    | cons r a ih => exact fun b m => ih b _
  have hmem : ∀ v, (k, v) ∈ getAll (run t [] rs) none ↔ lookup k (run t [] rs) = some v := by
    intro v
    rw [(C64_listing t rs none).2]
    simp
  refine ⟨?_, ?_, ?_⟩
  · intro before kvs rest v after he hok hrest hs
    rw [hmem, he, happ]
    show lookup k (run t (setAll t (run t [] before) (kvs ++ (k, some v) :: rest)).1 after) = some v
    rw [lookup_run_silent t k after _ hs]
    exact lookup_setAll_last t k v kvs rest hrest _ hok
  · intro before ks after he hk hs v
    rw [hmem, he, happ, (C64_unset_forgets t (run t [] before) k ks hk after hs).1]
    simp
  · intro hs v
    rw [hmem, lookup_run_silent t k rs _ hs]
    simp [lookup]

/-! ## Ways of reading, defaults and errors -/

/-- C64: reading as an option is reading with errors turned into "no value". -/
theorem C64_option_agrees (t : Table) (m : Map) (k : String) :
    getOption t m k = (get t m k).join := by
  rw [get, getOption]
  cases getByKey t m k with
  | some v => rfl
  | none =>
    simp only
    split
    · rfl
    · split
      · exact C64_option_agrees t m _
      · rfl
termination_by t.rank k
decreasing_by exact t.acyclic k _ _ (by assumption) (by assumption)

/-- C64: a known key can be read, if the keys that known keys fall back to are known. -/
theorem C64_known_keys_can_be_read (t : Table) (m : Map) (k : String)
    (hclosed : ∀ k e f, t.entry k = some e → e.fallback = some f → t.entry f ≠ none)
    (hk : t.entry k ≠ none) : get t m k ≠ none := by
  rw [get]
  cases getByKey t m k with
  | some v => simp
  | none =>
    simp only
    split
    · rename_i h
      exact absurd h hk
    · split
      · exact C64_known_keys_can_be_read t m _ hclosed (hclosed k _ _ (by assumption) (by assumption))
      · simp
termination_by t.rank k
decreasing_by exact t.acyclic k _ _ (by assumption) (by assumption)

/-- C64: a key none of whose used keys is set reads the default of the table, or the given default. -/
theorem C64_defaults (t : Table) (m : Map) (k : String) (e : Entry) (d : Option String)
    (he : t.entry k = some e) (hf : e.fallback = none) (h : ∀ j, Uses t k j → lookup j m = none) :
    get t m k = some e.default ∧ getWithDefault t m k d = d := by
  have hk : getByKey t m k = none := by
    unfold getByKey
    rw [h k (.self k)]
    simp only
    rw [List.findSome?_eq_none_iff]
    intro a ha
    unfold alternatives at ha
    rw [he] at ha
    exact h a (.alternative he ha)
  rw [get, getWithDefault, hk]
  simp only
  split
  · rename_i h; rw [he] at h; exact absurd h (by simp)
  · rename_i e' he'
    rw [he] at he'
    have := Option.some.inj he'
    subst this
    split
    · rename_i f hf'; rw [hf] at hf'; exact absurd hf' (by simp)
    · exact ⟨rfl, rfl⟩

/-- C64: a removed key is refused any value but its default, and nothing changes. -/
theorem C64_removed_keys_are_refused (t : Table) (m : Map) (k v : String) (e : Entry)
    (he : t.entry k = some e) (hr : e.removed = true) (hv : e.default ≠ some v) :
    set t m k v = none ∧ setAll t m [(k, some v)] = (m, false) := by
  have : set t m k v = none := by simp [set, setAllowed, he, hr, hv]
  exact ⟨this, by simp [setAll, this]⟩

/-- C64: a removed key accepts its default, which is what reading it gave before. -/
theorem C64_removed_keys_accept_their_default (t : Table) (m : Map) (k v : String) (e : Entry)
    (he : t.entry k = some e) (hv : e.default = some v) :
    ∃ m', set t m k v = some m' ∧ get t m' k = some (some v) := by
  refine ⟨insert k v m, by simp [set, setAllowed, he, hv], ?_⟩
  exact (reads_of_lookup t _ k v none (by rw [lookup_insert, if_pos rfl])).1

/-- C64: a key reported as modifiable can be set to any value, and is known. -/
theorem C64_modifiable_can_be_set (t : Table) (m : Map) (k v : String)
    (h : isModifiable t k = true) :
    (t.entry k).isSome ∧ ∃ m', set t m k v = some m' ∧ get t m' k = some (some v) := by
  unfold isModifiable at h
  split at h
  · rename_i e he
    simp only [Bool.and_eq_true, Bool.not_eq_true'] at h
    refine ⟨by simp [he], insert k v m, by simp [set, setAllowed, he, h.2], ?_⟩
    exact (reads_of_lookup t _ k v none (by rw [lookup_insert, if_pos rfl])).1
  · contradiction

/-- C64: a client is warned about exactly the deprecated keys it names. -/
theorem C64_warnings (t : Table) (ks : List String) (w : String) :
    w ∈ warnings t ks ↔ ∃ k ∈ ks, ∃ e, t.entry k = some e ∧ e.deprecated = some w := by
  simp [warnings, Option.bind_eq_some_iff]

/-! ## An example table -/

/-- A key with an alternative, a key that falls back to it, a static key and a removed one. -/
def exTable : Table where
  entry k :=
    if k = "a" then some ⟨["old.a"], none, some "0", false, false, none⟩
    else if k = "b" then some ⟨[], some "a", none, false, false, some "use a"⟩
    else if k = "s" then some ⟨[], none, some "1", false, true, none⟩
    else if k = "r" then some ⟨[], none, some "x", true, false, none⟩
    else if k = "dangling" then some ⟨[], some "unknown", none, false, false, none⟩
    else none
  rank k := if k = "b" ∨ k = "dangling" then 1 else 0
  acyclic := by
    intro k e f hk hf
    by_cases h1 : k = "a"
    · subst h1; simp at hk; subst hk; simp at hf
    · by_cases h2 : k = "b"
      · subst h2; simp at hk; subst hk; simp at hf; subst hf; simp
      · by_cases h3 : k = "s"
        · subst h3; simp at hk; subst hk; simp at hf
        · by_cases h4 : k = "r"
          · subst h4; simp at hk; subst hk; simp at hf
          · by_cases h5 : k = "dangling"
            · subst h5; simp at hk; subst hk; simp at hf; subst hf; simp
            · simp [h1, h2, h3, h4, h5] at hk

/-- Reads through the alternative and the fallback. -/
example : let m := run exTable [] [.set [("old.a", some "7"), ("z", some "1")], .unset ["z"]]
    get exTable m "a" = some (some "7") ∧ get exTable m "b" = some (some "7") ∧
      getAll m none = [("old.a", "7")] := by
  refine ⟨?_, ?_, by decide⟩
  · rw [get]; rfl
  · rw [get, show getByKey exTable _ "b" = none from rfl]
    simp only
    split
    · rename_i h; exact absurd h (by simp [exTable])
    · rename_i e he
      have : e = ⟨[], some "a", none, false, false, some "use a"⟩ := by
        simpa [exTable] using he.symm
      subst this
      simp only
      rw [get]
      rfl

/-- What `b` looks at. -/
example : Uses exTable "b" "old.a" :=
  .fallback (e := ⟨[], some "a", none, false, false, some "use a"⟩) (by rfl) rfl
    (.alternative (e := ⟨["old.a"], none, some "0", false, false, none⟩) (by rfl) (by simp))

/-- The hypotheses of `C64_reads_what_was_set`. -/
example : (setAll exTable [] [("z", some "0"), ("a", some "3"), ("z", some "1")]).2 = true ∧
    get exTable (run exTable [] [.set [("z", some "0"), ("a", some "3"), ("z", some "1")],
      .unset ["z"]]) "a" = some (some "3") :=
  ⟨by decide, by rw [get]; rfl⟩

/-! ## What does not hold -/

/-- C64, the negation of the last sentence: static keys and unknown keys are reported as not modifiable
and can be set; so can a removed key, to its default. -/
theorem C64_not_modifiable_can_be_set (t : Table) (m : Map) (k v : String)
    (h : t.entry k = none ∨ ∃ e, t.entry k = some e ∧ e.isStatic = true ∧ e.removed = false) :
    isModifiable t k = false ∧ ∃ m', set t m k v = some m' ∧ get t m' k = some (some v) := by
  have hset : set t m k v = some (insert k v m) := by
    unfold set
    rw [if_pos]
    rcases h with h | ⟨e, h, -, hr⟩ <;> simp [setAllowed, h]
    simp [hr]
  refine ⟨?_, _, hset, ?_⟩
  · rcases h with h | ⟨e, h, hs, -⟩ <;> simp [isModifiable, h]
    simp [hs]
  · exact (reads_of_lookup t _ k v none (by rw [lookup_insert, if_pos rfl])).1

/-- The removed, an ordinary and a deprecated key of the example table. -/
example : (set exTable [] "r" "x").isSome = true ∧ set exTable [] "r" "y" = none ∧
    isModifiable exTable "a" = true ∧ isModifiable exTable "r" = false ∧
    warnings exTable ["a", "b", "zz"] = ["use a"] := by decide

/-- The static key of the example table. -/
example : isModifiable exTable "s" = false ∧ (set exTable [] "s" "2").isSome = true := by decide

/-- C64: a set request that fails leaves the pairs before the failing one set. -/
theorem C64_failed_set_is_not_undone :
    ∃ kvs, (setAll exTable [] kvs).2 = false ∧ lookup "a" (setAll exTable [] kvs).1 = some "5" :=
  ⟨[("a", some "5"), ("r", some "y")], by decide, by decide⟩

/-- C64: a known key that falls back to a key that is not in the table cannot be read. -/
theorem C64_dangling_fallback_is_an_error :
    exTable.entry "dangling" ≠ none ∧ get exTable [] "dangling" = none := by
  refine ⟨by decide, ?_⟩
  rw [get, show getByKey exTable [] "dangling" = none from rfl]
  simp only
  split
  · rfl
  · rename_i e he
    have : e = ⟨[], some "unknown", none, false, false, none⟩ := by
      simpa [exTable] using he.symm
    subst this
    simp only
    rw [get, show getByKey exTable [] "unknown" = none from rfl]
    simp only
    split
    · rfl
    · rename_i h; exact absurd h (by simp [exTable])

end Verif.Connect.Conf
