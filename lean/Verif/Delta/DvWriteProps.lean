import Mathlib.Data.Finset.Card
import Mathlib.Data.Finset.Dedup
import Verif.Delta.DvWriteLemmas

/-! C134: deletion vectors written by MERGE and DELETE mark exactly the rows the statement names. -/

namespace Verif.Delta.Dv

variable {M : Type}

/-- A writer that has written nothing yet, on the storage `d`. -/
def Out.start (d : Disk) : Out M := ⟨d, [], 0, 0, 0⟩

theorem start_done [DecidableEq M] (t : List (Add M)) (d : Disk) :
    Done t d (fun _ => ∅) (Out.start d) id := by
  refine ⟨⟨by simp [Out.start, applyActions], fun _ _ => rfl, fun _ _ => rfl, fun _ _ => Or.inl rfl, ?_,
    fun _ _ _ => rfl⟩, ⟨[], by simp [Out.start]⟩, ?_, ?_, ?_⟩
  · intro a _ old h
    rw [Finset.union_empty]
    exact h
  all_goals
    simp [Out.start, Spec.newRows, Spec.newFiles, Spec.updatedFiles]

/-! ### What the rows of a successful MERGE are -/

theorem writePath_active {adds : List (Add M)} {p : String} {b : Bitmap} {o o' : Out M}
    (h : writePath adds p b o = .ok o') : ∃ a ∈ adds, a.path = p := by
  unfold writePath at h
  cases hl : lookup adds p with
  | none => rw [hl] at h; cases h
  | some a => exact ⟨a, lookup_mem hl⟩

/-- A row that names a position of a file. -/
def Spec.Named (r : Row) (p : String) (i : Nat) : Prop := r = (some p, some (i : Int))

theorem rowStep_good {adds : List (Add M)} {s s' : Loop M} {r : Row} (h : rowStep adds s r = .ok s') :
    (∃ p i, Spec.Named r p i ∧ s'.current = some p)
    ∧ (∀ c, s.current = some c → s'.current = some c ∨ ∃ a ∈ adds, a.path = c) := by
  obtain ⟨rp, ri⟩ := r
  cases rp with
  | none => cases h
  | some p =>
    cases ri with
    | none => cases h
    | some i =>
      unfold rowStep at h
      by_cases hneg : i < 0
      · simp only [if_pos hneg] at h; cases h
      · simp only [if_neg hneg] at h
        have hi : Spec.Named (some p, some i) p i.toNat := by
          unfold Spec.Named
          rw [Int.toNat_of_nonneg (by omega)]
        cases hc : s.current with
        | none =>
          rw [hc] at h
          cases h
          exact ⟨⟨p, _, hi, rfl⟩, fun c hx => by cases hx⟩
        | some c =>
          rw [hc] at h
          dsimp only at h
          by_cases hcp : c = p
          · rw [if_pos hcp] at h
            cases h
            subst hcp
            exact ⟨⟨c, _, hi, rfl⟩, fun c' hx => Or.inl hx⟩
          · rw [if_neg hcp] at h
            cases hwp : writePath adds c s.bitmap s.out with
            | error e => rw [hwp] at h; cases h
            | ok o =>
              rw [hwp] at h
              cases h
              exact ⟨⟨p, _, hi, rfl⟩, fun c' hx => by cases hx; exact Or.inr (writePath_active hwp)⟩

theorem rowLoop_good {adds : List (Add M)} : ∀ {rows : List Row} {s s' : Loop M},
    rowLoop adds s rows = .ok s' →
    (∀ r ∈ rows, ∃ p i, Spec.Named r p i ∧ (s'.current = some p ∨ ∃ a ∈ adds, a.path = p))
    ∧ (∀ c, s.current = some c → s'.current = some c ∨ ∃ a ∈ adds, a.path = c) := by
  intro rows
  induction rows with
  | nil => intro s s' h; cases h; exact ⟨fun r hr => absurd hr (by simp), fun c hc => Or.inl hc⟩
  | cons r rs ih =>
    intro s s' h
    unfold rowLoop at h
    cases hs : rowStep adds s r with
    | error e => rw [hs] at h; cases h
    | ok s1 =>
      rw [hs] at h
      obtain ⟨⟨p, i, hp, hcur⟩, hprev⟩ := rowStep_good hs
      obtain ⟨hrest, hcarry⟩ := ih h
      refine ⟨fun x hx => ?_, fun c hc => ?_⟩
      · rcases List.mem_cons.1 hx with rfl | hx
        · exact ⟨p, i, hp, hcarry p hcur⟩
        · exact hrest x hx
      · rcases hprev c hc with h1 | h1
        · exact hcarry c h1
        · exact Or.inr h1

theorem runRows_good {adds : List (Add M)} {rows : List Row} {o o' : Out M}
    (h : runRows adds rows o = .ok o') : ∀ r ∈ rows, ∃ p i, Spec.Named r p i ∧ ∃ a ∈ adds, a.path = p := by
  unfold runRows at h
  cases hl : rowLoop adds ⟨none, ∅, o⟩ rows with
  | error e => rw [hl] at h; cases h
  | ok s =>
    rw [hl] at h
    dsimp only at h
    intro r hr
    obtain ⟨p, i, hp, hc | ha⟩ := (rowLoop_good hl).1 r hr
    · rw [hc] at h
      exact ⟨p, i, hp, writePath_active h⟩
    · exact ⟨p, i, hp, ha⟩

theorem mem_namedIn {rows : List Row} (hg : ∀ r ∈ rows, ∃ p i, Spec.Named r p i) {p : String} {i : Nat} :
    i ∈ namedIn rows p ↔ ∃ r ∈ rows, Spec.Named r p i := by
  unfold namedIn
  rw [List.mem_toFinset, List.mem_filterMap]
  constructor
  · rintro ⟨r, hr, h⟩
    obtain ⟨q, j, hq⟩ := hg r hr
    refine ⟨r, hr, ?_⟩
    rw [hq] at h ⊢
    by_cases hqp : q = p
    · subst hqp
      simp at h
      rw [Spec.Named, h]
    · simp [hqp] at h
  · rintro ⟨r, hr, h⟩
    exact ⟨r, hr, by rw [h]; simp⟩

/-- No file is named in two partitions. -/
def Spec.Apart : List (List (Add M) × List Row) → Prop
  | [] => True
  | x :: xs => (∀ y ∈ xs, ∀ r ∈ x.2, ∀ q ∈ y.2, r.1 = q.1 → r.1 = none) ∧ Spec.Apart xs

theorem runMerge_done [DecidableEq M] {t : List (Add M)} (hn : (t.map Add.path).Nodup) {d : Disk}
    (hw : Spec.Stored d t) : ∀ {parts : List (List (Add M) × List Row)} {S : String → Finset Nat},
    (∀ x ∈ parts, ∀ a ∈ x.1, a ∈ t) → (∀ x ∈ parts, Spec.Together x.2) → Spec.Apart parts →
    (∀ x ∈ parts, ∀ r ∈ x.2, ∀ p, r.1 = some p → S p = ∅) →
    ∀ {o o' : Out M} {f : Add M → Add M}, Done t d S o f → runMerge parts o = .ok o' →
    ∃ f', Done t d (fun p => S p ∪ namedIn (parts.flatMap fun x => x.2) p) o' f' := by
  intro parts
  induction parts with
  | nil =>
    intro S _ _ _ _ o o' f hd h
    cases h
    refine ⟨f, ?_⟩
    have : (fun p => S p ∪ namedIn (List.flatMap (fun x : List (Add M) × List Row => x.2) []) p) = S := by
      funext q; simp [namedIn]
    rw [this]
    exact hd
  | cons x xs ih =>
    intro S hsub ht hap hS o o' f hd h
    unfold runMerge at h
    cases hx : runRows x.1 x.2 o with
    | error e => rw [hx] at h; cases h
    | ok o1 =>
      rw [hx] at h
      obtain ⟨f1, hf1⟩ := runRows_done hn hw (hsub x (List.mem_cons_self ..))
        (hS x (List.mem_cons_self ..)) (ht x (List.mem_cons_self ..)) hd hx
      obtain ⟨f2, hf2⟩ := ih (S := fun p => S p ∪ namedIn x.2 p)
        (fun y hy => hsub y (List.mem_cons_of_mem _ hy)) (fun y hy => ht y (List.mem_cons_of_mem _ hy)) hap.2
        (fun y hy r hr p hp => by
          rw [hS y (List.mem_cons_of_mem _ hy) r hr p hp, Finset.empty_union]
          refine namedIn_none fun q hq he => ?_
          have := hap.1 y hy q hq r hr (he.trans hp.symm)
          rw [he] at this
          cases this) hf1 h
      refine ⟨f2, ?_⟩
      have : (fun p => S p ∪ namedIn ((x :: xs).flatMap fun x => x.2) p)
          = fun p => (S p ∪ namedIn x.2 p) ∪ namedIn (xs.flatMap fun x => x.2) p := by
        funext q
        rw [List.flatMap_cons, namedIn_append, Finset.union_assoc]
      rw [this]
      exact hf2

theorem runMerge_good : ∀ {parts : List (List (Add M) × List Row)} {o o' : Out M},
    runMerge parts o = .ok o' →
    ∀ x ∈ parts, ∀ r ∈ x.2, ∃ p i, Spec.Named r p i ∧ ∃ a ∈ x.1, a.path = p := by
  intro parts
  induction parts with
  | nil => intro o o' _ x hx; cases hx
  | cons y ys ih =>
    intro o o' h x hx
    unfold runMerge at h
    cases hy : runRows y.1 y.2 o with
    | error e => rw [hy] at h; cases h
    | ok o1 =>
      rw [hy] at h
      rcases List.mem_cons.1 hx with rfl | hx
      · exact runRows_good hy
      · exact ih h x hx

/-! ### When a MERGE succeeds -/

/-- A row that can be deleted: it names a position of an active file whose vector can be read. -/
def Spec.Good (d : Disk) (adds : List (Add M)) (r : Row) : Prop :=
  ∃ p i a, Spec.Named r p i ∧ a ∈ adds ∧ a.path = p ∧ Spec.marks d a ≠ none

theorem writeAdd_ok [DecidableEq M] {t : List (Add M)} {d : Disk} (hw : Spec.Stored d t)
    {S : String → Finset Nat} {o : Out M} {f : Add M → Add M} (hd : Done t d S o f) {a : Add M} (ha : a ∈ t)
    (hm : Spec.marks d a ≠ none) (b : Bitmap) : ∃ o', writeAdd a b o = .ok o' := by
  obtain ⟨e, he⟩ := hd.grown
  unfold writeAdd
  rw [existing_eq, he, marks_grown hw ha]
  cases h : Spec.marks d a with
  | none => exact (hm h).elim
  | some old =>
    dsimp only
    by_cases h0 : (old ∪ b).card - old.card = 0
    · exact ⟨_, if_pos h0⟩
    · exact ⟨_, if_neg h0⟩

theorem writePath_ok [DecidableEq M] {t adds : List (Add M)} (hn : (t.map Add.path).Nodup) {d : Disk}
    (hw : Spec.Stored d t) (hsub : ∀ a ∈ adds, a ∈ t) {S : String → Finset Nat} {o : Out M}
    {f : Add M → Add M} (hd : Done t d S o f) {a : Add M} (ha : a ∈ adds)
    (hm : Spec.marks d a ≠ none) (b : Bitmap) : ∃ o', writePath adds a.path b o = .ok o' := by
  unfold writePath
  cases hl : lookup adds a.path with
  | none =>
    unfold lookup at hl
    have := List.find?_eq_none.1 hl a (List.mem_reverse.2 ha)
    simp at this
  | some a' =>
    obtain ⟨ha', hp⟩ := lookup_mem hl
    have := path_inj hn (hsub a' ha') (hsub a ha) hp
    subst this
    exact writeAdd_ok hw hd (hsub a' ha') hm b

theorem rowStep_ok [DecidableEq M] {t adds : List (Add M)} (hn : (t.map Add.path).Nodup) {d : Disk}
    (hw : Spec.Stored d t) (hsub : ∀ a ∈ adds, a ∈ t) {S : String → Finset Nat} {done rest : List Row} {r : Row}
    (hg : ∀ x ∈ done ++ r :: rest, Spec.Good d adds x) {s : Loop M} (hi : Inv t d S done s) :
    ∃ s', rowStep adds s r = .ok s' := by
  obtain ⟨p, i, a, hr, ha, hp, hm⟩ := hg r (List.mem_append_right _ (List.mem_cons_self ..))
  rw [hr]
  unfold rowStep
  have hneg : ¬ (i : Int) < 0 := by omega
  simp only [if_neg hneg]
  rcases hi with ⟨hc, -, -, -⟩ | ⟨c, j, done', hc, hdone, hb, f, hf⟩
  · rw [hc]; exact ⟨_, rfl⟩
  · rw [hc]
    dsimp only
    by_cases hcp : c = p
    · rw [if_pos hcp]; exact ⟨_, rfl⟩
    · rw [if_neg hcp]
      obtain ⟨p', i', a', hr', ha', hp', hm'⟩ := hg (some c, j) (by simp [hdone])
      have : p' = c := by
        have := congrArg Prod.fst hr'
        exact (Option.some.inj this).symm
      subst this
      subst hp'
      obtain ⟨o', ho'⟩ := writePath_ok hn hw hsub hf ha' hm' s.bitmap
      rw [ho']
      exact ⟨_, rfl⟩

theorem rowLoop_ok [DecidableEq M] {t adds : List (Add M)} (hn : (t.map Add.path).Nodup) {d : Disk}
    (hw : Spec.Stored d t) (hsub : ∀ a ∈ adds, a ∈ t) {S : String → Finset Nat} :
    ∀ {rest done : List Row}, (∀ x ∈ done ++ rest, ∀ p, x.1 = some p → S p = ∅) →
    Spec.Together (done ++ rest) → (∀ x ∈ done ++ rest, Spec.Good d adds x) →
    ∀ {s : Loop M}, Inv t d S done s → ∃ s', rowLoop adds s rest = .ok s' := by
  intro rest
  induction rest with
  | nil => intro done _ _ _ s _; exact ⟨s, rfl⟩
  | cons r rs ih =>
    intro done hS ht hg s hi
    obtain ⟨s1, hs1⟩ := rowStep_ok hn hw hsub hg hi
    have h1 := rowStep_inv hn hw hsub hS ht hi hs1
    have e : done ++ r :: rs = (done ++ [r]) ++ rs := by simp
    rw [e] at hS ht hg
    unfold rowLoop
    rw [hs1]
    exact ih hS ht hg h1

theorem runRows_ok [DecidableEq M] {t adds : List (Add M)} (hn : (t.map Add.path).Nodup) {d : Disk}
    (hw : Spec.Stored d t) (hsub : ∀ a ∈ adds, a ∈ t) {S : String → Finset Nat} {rows : List Row}
    (hS : ∀ x ∈ rows, ∀ p, x.1 = some p → S p = ∅) (ht : Spec.Together rows)
    (hg : ∀ x ∈ rows, Spec.Good d adds x) {o : Out M}
    {f : Add M → Add M} (hd : Done t d S o f) : ∃ o', runRows adds rows o = .ok o' := by
  have h0 : Inv t d S [] (⟨none, ∅, o⟩ : Loop M) := Or.inl ⟨rfl, rfl, rfl, f, hd⟩
  obtain ⟨s, hs⟩ := rowLoop_ok hn hw hsub (done := []) hS ht hg h0
  have hi := rowLoop_inv hn hw hsub (done := []) hS ht h0 hs
  unfold runRows
  rw [hs]
  dsimp only
  rcases hi with ⟨hc, -, -, -⟩ | ⟨c, j, done', hc, hdone, hb, f', hf'⟩
  · rw [hc]; exact ⟨_, rfl⟩
  · rw [hc]
    obtain ⟨p', i', a', hr', ha', hp', hm'⟩ := hg (some c, j) (by rw [List.nil_append] at hdone; simp [hdone])
    have : p' = c := by
      have := congrArg Prod.fst hr'
      exact (Option.some.inj this).symm
    subst this
    subst hp'
    exact writePath_ok hn hw hsub hf' ha' hm' s.bitmap

theorem runMerge_ok [DecidableEq M] {t : List (Add M)} (hn : (t.map Add.path).Nodup) {d : Disk}
    (hw : Spec.Stored d t) : ∀ {parts : List (List (Add M) × List Row)} {S : String → Finset Nat},
    (∀ x ∈ parts, ∀ a ∈ x.1, a ∈ t) → (∀ x ∈ parts, Spec.Together x.2) → Spec.Apart parts →
    (∀ x ∈ parts, ∀ r ∈ x.2, ∀ p, r.1 = some p → S p = ∅) →
    (∀ x ∈ parts, ∀ r ∈ x.2, Spec.Good d x.1 r) →
    ∀ {o : Out M} {f : Add M → Add M}, Done t d S o f → ∃ o', runMerge parts o = .ok o' := by
  intro parts
  induction parts with
  | nil => intro S _ _ _ _ _ o f _; exact ⟨o, rfl⟩
  | cons x xs ih =>
    intro S hsub ht hap hS hg o f hd
    obtain ⟨o1, ho1⟩ := runRows_ok hn hw (hsub x (List.mem_cons_self ..))
      (hS x (List.mem_cons_self ..)) (ht x (List.mem_cons_self ..)) (hg x (List.mem_cons_self ..)) hd
    obtain ⟨f1, hf1⟩ := runRows_done hn hw (hsub x (List.mem_cons_self ..))
      (hS x (List.mem_cons_self ..)) (ht x (List.mem_cons_self ..)) hd ho1
    unfold runMerge
    rw [ho1]
    exact ih (S := fun p => S p ∪ namedIn x.2 p)
      (fun y hy => hsub y (List.mem_cons_of_mem _ hy)) (fun y hy => ht y (List.mem_cons_of_mem _ hy)) hap.2
      (fun y hy r hr p hp => by
        rw [hS y (List.mem_cons_of_mem _ hy) r hr p hp, Finset.empty_union]
        refine namedIn_none fun q hq he => ?_
        have := hap.1 y hy q hq r hr (he.trans hp.symm)
        rw [he] at this
        cases this)
      (fun y hy => hg y (List.mem_cons_of_mem _ hy)) hf1

/-! ### DELETE -/

theorem runFiles_done [DecidableEq M] {t : List (Add M)} (hn : (t.map Add.path).Nodup) {d : Disk}
    (hw : Spec.Stored d t) {cond : Add M → List (List (Option Bool))} :
    ∀ {fs : List (Add M)} {S : String → Finset Nat}, (∀ a ∈ fs, a ∈ t) → (fs.map Add.path).Nodup →
    (∀ a ∈ fs, S a.path = ∅) → ∀ {o o' : Out M} {f : Add M → Add M}, Done t d S o f →
    runFiles cond fs o = .ok o' →
    ∃ f' S', Done t d S' o' f' ∧ (∀ a ∈ fs, S' a.path = (matchingRows (cond a)).toFinset)
      ∧ ∀ p, p ∉ fs.map Add.path → S' p = S p := by
  intro fs
  induction fs with
  | nil =>
    intro S _ _ _ o o' f hd h
    cases h
    exact ⟨f, S, hd, (fun a ha => by simp at ha), fun p _ => rfl⟩
  | cons a as ih =>
    intro S hsub hnd hS o o' f hd h
    rw [List.map_cons, List.nodup_cons] at hnd
    have hrest : ∀ b, (∀ x ∈ as, upd S a.path b x.path = ∅) := by
      intro b x hx
      have hne : x.path ≠ a.path := fun he => hnd.1 (he ▸ List.mem_map.2 ⟨x, hx, rfl⟩)
      rw [upd, if_neg hne]
      exact hS x (List.mem_cons_of_mem _ hx)
    have fin : ∀ o1 f1, Done t d (upd S a.path (matchingRows (cond a)).toFinset) o1 f1 →
        runFiles cond as o1 = .ok o' →
        ∃ f' S', Done t d S' o' f' ∧ (∀ x ∈ a :: as, S' x.path = (matchingRows (cond x)).toFinset)
          ∧ ∀ p, p ∉ (a :: as).map Add.path → S' p = S p := by
      intro o1 f1 h1 h2
      obtain ⟨f', S', hd', hin, hout⟩ := ih (fun x hx => hsub x (List.mem_cons_of_mem _ hx)) hnd.2
        (hrest _) h1 h2
      refine ⟨f', S', hd', fun x hx => ?_, fun p hp => ?_⟩
      · rcases List.mem_cons.1 hx with rfl | hx
        · rw [hout _ hnd.1, upd, if_pos rfl]
        · exact hin x hx
      · rw [List.map_cons, List.mem_cons, not_or] at hp
        rw [hout p hp.2, upd, if_neg hp.1]
    unfold runFiles at h
    dsimp only at h
    by_cases h0 : matchingRows (cond a) = []
    · rw [if_pos h0] at h
      refine fin o f ?_ h
      rw [h0, List.toFinset_nil, upd_empty (hS a (List.mem_cons_self ..))]
      exact hd
    · rw [if_neg h0] at h
      cases hwa : writeAdd a (matchingRows (cond a)).toFinset o with
      | error e => rw [hwa] at h; cases h
      | ok o1 =>
        rw [hwa] at h
        obtain ⟨f1, hf1⟩ := writeAdd_done hn hw hd (hsub a (List.mem_cons_self ..))
          (hS a (List.mem_cons_self ..)) hwa
        exact fin o1 f1 hf1 h

theorem mem_matchingFrom : ∀ {bs : List (List (Option Bool))} {o i : Nat},
    i ∈ matchingFrom o bs ↔ o ≤ i ∧ bs.flatten[i - o]? = some (some true) := by
  intro bs
  induction bs with
  | nil => intro o i; simp [matchingFrom]
  | cons b bs ih =>
    intro o i
    rw [matchingFrom, List.mem_append, ih, List.mem_map, List.flatten_cons]
    constructor
    · rintro (⟨j, hj, rfl⟩ | ⟨hle, h⟩)
      · rw [List.mem_filter, List.mem_range] at hj
        refine ⟨by omega, ?_⟩
        rw [show o + j - o = j by omega, List.getElem?_append_left hj.1]
        simpa using hj.2
      · refine ⟨by omega, ?_⟩
        rw [List.getElem?_append_right (by omega)]
        rw [← h]
        congr 1
        omega
    · rintro ⟨hle, h⟩
      rcases Nat.lt_or_ge (i - o) b.length with hlt | hge
      · rw [List.getElem?_append_left hlt] at h
        exact Or.inl ⟨i - o, List.mem_filter.2 ⟨List.mem_range.2 hlt, by simp [h]⟩, by omega⟩
      · rw [List.getElem?_append_right hge] at h
        refine Or.inr ⟨by omega, ?_⟩
        rw [← h]
        congr 1
        omega

/-! ### Removals -/

theorem writePath_keeps {adds : List (Add M)} {P : Out M → Prop}
    (hP : ∀ a ∈ adds, ∀ b o o', P o → writeAdd a b o = .ok o' → P o') {p : String} {b : Bitmap}
    {o o' : Out M} (ho : P o) (h : writePath adds p b o = .ok o') : P o' := by
  unfold writePath at h
  cases hl : lookup adds p with
  | none => rw [hl] at h; cases h
  | some a => rw [hl] at h; exact hP a (lookup_mem hl).1 b o o' ho h

theorem rowStep_keeps {adds : List (Add M)} {P : Out M → Prop}
    (hP : ∀ a ∈ adds, ∀ b o o', P o → writeAdd a b o = .ok o' → P o') {r : Row} {s s' : Loop M}
    (ho : P s.out) (h : rowStep adds s r = .ok s') : P s'.out := by
  obtain ⟨p, i⟩ := r
  cases p with
  | none => cases h
  | some p =>
    cases i with
    | none => cases h
    | some i =>
      unfold rowStep at h
      dsimp only at h
      by_cases hi : i < 0
      · rw [if_pos hi] at h; cases h
      · rw [if_neg hi] at h
        cases hc : s.current with
        | none => rw [hc] at h; cases h; exact ho
        | some c =>
          rw [hc] at h
          dsimp only at h
          by_cases hcp : c = p
          · rw [if_pos hcp] at h; cases h; exact ho
          · rw [if_neg hcp] at h
            cases hw : writePath adds c s.bitmap s.out with
            | error e => rw [hw] at h; cases h
            | ok o => rw [hw] at h; cases h; exact writePath_keeps hP ho hw

theorem rowLoop_keeps {adds : List (Add M)} {P : Out M → Prop}
    (hP : ∀ a ∈ adds, ∀ b o o', P o → writeAdd a b o = .ok o' → P o') :
    ∀ {rows : List Row} {s s' : Loop M}, P s.out → rowLoop adds s rows = .ok s' → P s'.out := by
  intro rows
  induction rows with
  | nil => intro s s' ho h; cases h; exact ho
  | cons r rs ih =>
    intro s s' ho h
    unfold rowLoop at h
    cases hs : rowStep adds s r with
    | error e => rw [hs] at h; cases h
    | ok s1 => rw [hs] at h; exact ih (rowStep_keeps hP ho hs) h

theorem runMerge_keeps {P : Out M → Prop} : ∀ {parts : List (List (Add M) × List Row)},
    (∀ x ∈ parts, ∀ a ∈ x.1, ∀ b o o', P o → writeAdd a b o = .ok o' → P o') →
    ∀ {o o' : Out M}, P o → runMerge parts o = .ok o' → P o' := by
  intro parts
  induction parts with
  | nil => intro _ o o' ho h; cases h; exact ho
  | cons x xs ih =>
    intro hP o o' ho h
    unfold runMerge at h
    cases hr : runRows x.1 x.2 o with
    | error e => rw [hr] at h; cases h
    | ok o1 =>
      rw [hr] at h
      refine ih (fun y hy => hP y (List.mem_cons_of_mem _ hy)) ?_ h
      have hx := hP x (List.mem_cons_self ..)
      unfold runRows at hr
      cases hs : rowLoop x.1 ⟨none, ∅, o⟩ x.2 with
      | error e => rw [hs] at hr; cases hr
      | ok s =>
        rw [hs] at hr
        have hso : P s.out := rowLoop_keeps hx (s := ⟨none, ∅, o⟩) ho hs
        dsimp only at hr
        cases hc : s.current with
        | none => rw [hc] at hr; cases hr; exact hso
        | some c => rw [hc] at hr; exact writePath_keeps hx hso hr

/-- Removals are of active files with their vectors, and come with an addition. -/
def Paired (t : List (Add M)) (o : Out M) : Prop :=
  ∀ p v, Action.remove p v ∈ o.actions →
    (∃ a ∈ t, a.path = p ∧ a.dv = v) ∧ ∃ b, Action.add b ∈ o.actions ∧ b.path = p

theorem writeAdd_paired {t : List (Add M)} {a : Add M} (ha : a ∈ t) {b : Bitmap} {o o' : Out M}
    (ho : Paired t o) (h : writeAdd a b o = .ok o') : Paired t o' := by
  unfold writeAdd at h
  cases he : existing o.disk a with
  | none => rw [he] at h; cases h
  | some old =>
    rw [he] at h
    dsimp only at h
    by_cases h0 : (old ∪ b).card - old.card = 0
    · rw [if_pos h0] at h; cases h; exact ho
    · rw [if_neg h0] at h
      cases h
      intro p v hr
      simp only [List.mem_append, List.mem_cons, List.not_mem_nil, or_false] at hr ⊢
      rcases hr with hr | hr | hr
      · obtain ⟨h1, c, hc, hp⟩ := ho p v hr
        exact ⟨h1, c, Or.inl hc, hp⟩
      · cases hr
        exact ⟨⟨a, ha, rfl, rfl⟩, _, Or.inr (Or.inr rfl), rfl⟩
      · cases hr

/-! ### C134 -/

/-- A MERGE that succeeds: every file of the table is there once, with its metadata, and marks exactly the
rows it marked before and the rows named in it (`S`); a file in which nothing new is named is unchanged;
and the counts are those of the named rows that were not deleted, of the files they are in, and of those
files that had a vector. -/
theorem C134_merge [DecidableEq M] {t : List (Add M)} (distinct : (t.map Add.path).Nodup) {d : Disk}
    (stored : Spec.Stored d t) {parts : List (List (Add M) × List Row)}
    (active : ∀ x ∈ parts, ∀ a ∈ x.1, a ∈ t) (together : ∀ x ∈ parts, Spec.Together x.2)
    (apart : Spec.Apart parts) {S : String → Finset Nat}
    (named : ∀ p i, i ∈ S p ↔ ∃ x ∈ parts, ∃ r ∈ x.2, Spec.Named r p i) {o : Out M}
    (h : runMerge parts (Out.start d) = .ok o) :
    (∃ f, Spec.Marked t (applyActions t o.actions) d o.disk S f)
    ∧ o.deleted = Spec.newRows d S t ∧ o.added = Spec.newFiles d S t
    ∧ o.updated = Spec.updatedFiles d S t := by
  obtain ⟨f, hf⟩ := runMerge_done distinct stored active together apart (fun _ _ _ _ _ _ => rfl)
    (start_done t d) h
  have hg := runMerge_good h
  have hS : (fun p => ∅ ∪ namedIn (parts.flatMap fun x => x.2) p) = S := by
    funext p
    ext i
    rw [Finset.empty_union, named, mem_namedIn]
    · constructor
      · rintro ⟨r, hr, hi⟩
        obtain ⟨x, hx, hr⟩ := List.mem_flatMap.1 hr
        exact ⟨x, hx, r, hr, hi⟩
      · rintro ⟨x, hx, r, hr, hi⟩
        exact ⟨r, List.mem_flatMap.2 ⟨x, hx, hr⟩, hi⟩
    · intro r hr
      obtain ⟨x, hx, hr⟩ := List.mem_flatMap.1 hr
      obtain ⟨p, i, hp, -⟩ := hg x hx r hr
      exact ⟨p, i, hp⟩
  rw [hS] at hf
  exact ⟨⟨f, hf.marked⟩, hf.deleted, hf.added, hf.updated⟩

/-- A row without file or position, with a negative position, or of a file that is not in the table makes
the MERGE fail. -/
theorem C134_merge_refuses {parts : List (List (Add M) × List Row)} {o o' : Out M}
    (h : runMerge parts o = .ok o') {x : List (Add M) × List Row} (hx : x ∈ parts) {r : Row} (hr : r ∈ x.2) :
    ∃ (p : String) (i : Int), r = (some p, some i) ∧ 0 ≤ i ∧ ∃ a ∈ x.1, a.path = p := by
  obtain ⟨p, i, hp, ha⟩ := runMerge_good h x hx r hr
  exact ⟨p, i, hp, Int.natCast_nonneg i, ha⟩

/-- A MERGE whose rows all name positions of active files with readable vectors succeeds. -/
theorem C134_merge_succeeds [DecidableEq M] {t : List (Add M)} (distinct : (t.map Add.path).Nodup)
    {d : Disk} (stored : Spec.Stored d t) {parts : List (List (Add M) × List Row)}
    (active : ∀ x ∈ parts, ∀ a ∈ x.1, a ∈ t) (together : ∀ x ∈ parts, Spec.Together x.2)
    (apart : Spec.Apart parts) (good : ∀ x ∈ parts, ∀ r ∈ x.2, Spec.Good d x.1 r) :
    ∃ o, runMerge parts (Out.start d) = .ok o :=
  runMerge_ok distinct stored active together apart (fun _ _ _ _ _ _ => rfl) good (start_done t d)

/-- Rows that are sorted by path, as the plan requires, stand together. -/
theorem C134_sorted_rows {rows : List (String × Int)}
    (sorted : rows.Pairwise fun x y => x.1 ≤ y.1) :
    Spec.Together (rows.map fun r => (some r.1, some r.2)) := by
  intro l x m z r h hxz y hy
  have hs : (rows.map fun r => ((some r.1, some r.2) : Row)).Pairwise
      fun a b => ∃ p q, a.1 = some p ∧ b.1 = some q ∧ p ≤ q :=
    List.pairwise_map.2 (sorted.imp fun {a b} hab => ⟨a.1, b.1, rfl, rfl, hab⟩)
  rw [h, List.pairwise_append] at hs
  have h1 := hs.2.1
  rw [List.pairwise_cons, List.pairwise_append] at h1
  obtain ⟨p, q, hp, hq, hpq⟩ := h1.1 y (List.mem_append_left _ hy)
  obtain ⟨q', w, hq', hw, hqw⟩ := h1.2.2.2 y hy z (List.mem_cons_self ..)
  rw [hq] at hq'
  cases hq'
  rw [hp, hw] at hxz
  cases hxz
  rw [hq, hp, String.le_antisymm hqw hpq]

/-- A DELETE that succeeds: in the files it looked at, exactly the rows at which the condition is true are
marked beside those marked before, however the file is cut into batches; the other files are unchanged. -/
theorem C134_delete [DecidableEq M] {t : List (Add M)} (distinct : (t.map Add.path).Nodup) {d : Disk}
    (stored : Spec.Stored d t) {fs : List (Add M)} (active : ∀ a ∈ fs, a ∈ t)
    (once : (fs.map Add.path).Nodup) {cond : Add M → List (List (Option Bool))}
    {S : String → Finset Nat}
    (named : ∀ a ∈ t, ∀ i, i ∈ S a.path ↔ a ∈ fs ∧ (cond a).flatten[i]? = some (some true)) {o : Out M}
    (h : runFiles cond fs (Out.start d) = .ok o) :
    (∃ f, Spec.Marked t (applyActions t o.actions) d o.disk S f)
    ∧ o.deleted = Spec.newRows d S t ∧ o.added = Spec.newFiles d S t
    ∧ o.updated = Spec.updatedFiles d S t := by
  obtain ⟨f, S', hd, hin, hout⟩ := runFiles_done distinct stored active once (fun _ _ => rfl)
    (start_done t d) h
  have hS : ∀ a ∈ t, S' a.path = S a.path := by
    intro a ha
    ext i
    rw [named a ha]
    by_cases hf : a ∈ fs
    · rw [hin a hf, List.mem_toFinset, matchingRows, mem_matchingFrom]
      simp [hf]
    · have : a.path ∉ fs.map Add.path := by
        intro hp
        obtain ⟨b, hb, hbp⟩ := List.mem_map.1 hp
        exact hf (path_inj distinct (active b hb) ha hbp ▸ hb)
      rw [hout _ this]
      simp [hf]
  refine ⟨⟨f, hd.marked.files, hd.marked.path, hd.marked.info, hd.marked.tight, ?_, ?_⟩, ?_, ?_, ?_⟩
  · intro a ha
    rw [← hS a ha]
    exact hd.marked.marks a ha
  · intro a ha
    rw [← hS a ha]
    exact hd.marked.same a ha
  · rw [hd.deleted]
    unfold Spec.newRows
    congr 1
    exact List.map_congr_left fun a ha => by rw [hS a ha]
  · rw [hd.added]
    unfold Spec.newFiles
    congr 1
    exact List.map_congr_left fun a ha => by rw [hS a ha]
  · rw [hd.updated]
    unfold Spec.updatedFiles
    congr 1
    exact List.map_congr_left fun a ha => by rw [hS a ha]

/-- Every removal names an active file with the vector it had, and the file is added again. -/
theorem C134_removed_and_added {t : List (Add M)} {parts : List (List (Add M) × List Row)}
    (active : ∀ x ∈ parts, ∀ a ∈ x.1, a ∈ t) {d : Disk} {o : Out M}
    (h : runMerge parts (Out.start d) = .ok o) {p : String} {v : Option Nat}
    (removed : Action.remove p v ∈ o.actions) :
    (∃ a ∈ t, a.path = p ∧ a.dv = v) ∧ ∃ b, Action.add b ∈ o.actions ∧ b.path = p :=
  runMerge_keeps (P := Paired t) (fun x hx a ha b o o' ho hw => writeAdd_paired (active x hx a ha) ho hw)
    (fun p v h => by cases h) h p v removed

/-! ### Witnesses -/

/-- A table of three files: one with a vector that marks row 2, two without. -/
def exTable : List (Add Unit) :=
  [⟨"a", some 0, some true, ()⟩, ⟨"b", none, some true, ()⟩, ⟨"c", none, none, ()⟩]

/-- Its storage. -/
def exDisk : Disk := [some {2}]

/-- Two partitions: rows 1 and 2 of `a`, row 0 of `b` twice; nothing of `c`. -/
def exParts : List (List (Add Unit) × List Row) :=
  [([⟨"b", none, some true, ()⟩], [(some "b", some 0), (some "b", some 0)]),
   ([⟨"a", some 0, some true, ()⟩, ⟨"c", none, none, ()⟩], [(some "a", some 1), (some "a", some 2)])]

/-- Comparison field by field. -/
def gives (r : Except Err (Out Unit)) (o : Out Unit) : Bool :=
  match r with
  | .error _ => false
  | .ok x => decide (x.disk = o.disk) && decide (x.actions = o.actions) && x.deleted == o.deleted
      && x.added == o.added && x.updated == o.updated

/-- What the MERGE leaves: `a` marks 1 and 2, `b` marks 0, two rows deleted, two vectors, one replaced. -/
example : gives (runMerge exParts (Out.start exDisk))
    { disk := [some {2}, some {0}, some {1, 2}]
      actions := [.remove "b" none, .add ⟨"b", some 1, some false, ()⟩,
        .remove "a" (some 0), .add ⟨"a", some 2, some false, ()⟩]
      deleted := 2, added := 2, updated := 1 } = true := by decide +kernel

theorem ex_stored : Spec.Stored exDisk exTable := by
  intro a ha n hn
  simp only [exTable, List.mem_cons, List.not_mem_nil, or_false] at ha
  rcases ha with rfl | rfl | rfl <;> simp_all [exDisk]

theorem ex_distinct : (exTable.map Add.path).Nodup := by decide +kernel

theorem ex_active : ∀ x ∈ exParts, ∀ a ∈ x.1, a ∈ exTable := by decide +kernel

theorem ex_together : ∀ x ∈ exParts, Spec.Together x.2 := by
  intro x hx
  simp only [exParts, List.mem_cons, List.not_mem_nil, or_false] at hx
  rcases hx with rfl | rfl
  · exact C134_sorted_rows (rows := [("b", 0), ("b", 0)]) (by simp)
  · exact C134_sorted_rows (rows := [("a", 1), ("a", 2)]) (by simp)

theorem ex_apart : Spec.Apart exParts := by
  refine ⟨fun y hy r hr q hq h => ?_, fun y hy => absurd hy (by simp), trivial⟩
  simp only [List.mem_cons, List.not_mem_nil, or_false] at hy hr
  subst hy
  simp only [List.mem_cons, List.not_mem_nil, or_false] at hq
  rcases hr with rfl | rfl <;> rcases hq with rfl | rfl <;> simp at h

/-- The hypotheses of `C134_merge` hold of it. -/
example {S : String → Finset Nat}
    (named : ∀ p i, i ∈ S p ↔ ∃ x ∈ exParts, ∃ r ∈ x.2, Spec.Named r p i) {o : Out Unit}
    (h : runMerge exParts (Out.start exDisk) = .ok o) : o.deleted = Spec.newRows exDisk S exTable :=
  (C134_merge ex_distinct ex_stored ex_active ex_together ex_apart named h).2.1

example : ∃ o, runMerge exParts (Out.start exDisk) = .ok o := by
  refine C134_merge_succeeds ex_distinct ex_stored ex_active ex_together ex_apart fun x hx r hr => ?_
  simp only [exParts, List.mem_cons, List.not_mem_nil, or_false] at hx
  rcases hx with rfl | rfl
  · simp only [List.mem_cons, List.not_mem_nil, or_false, or_self] at hr
    subst hr
    exact ⟨"b", 0, _, rfl, List.mem_cons_self .., rfl, by simp [Spec.marks]⟩
  · simp only [List.mem_cons, List.not_mem_nil, or_false] at hr
    rcases hr with rfl | rfl
    · exact ⟨"a", 1, _, rfl, List.mem_cons_self .., rfl, by simp [Spec.marks, exDisk]⟩
    · exact ⟨"a", 2, _, rfl, List.mem_cons_self .., rfl, by simp [Spec.marks, exDisk]⟩

/-- A MERGE that names a file which is not in the table, or a row without position, fails. -/
example : runMerge [(exTable, [(some "x", some 0)])] (Out.start exDisk) = .error .inactive := by
  decide +kernel
example : runMerge [(exTable, [(some "b", some 0), (some "b", none)])] (Out.start exDisk)
    = .error .null := by decide +kernel

/-- DELETE on the same table; the file `a` is read in two batches, `c` has no match. -/
example : gives (runFiles (fun a => if a.path = "a" then [[some true, none], [some true, some true]]
      else if a.path = "b" then [[some false], [], [some true]] else [[none]]) exTable (Out.start exDisk))
    { disk := [some {2}, some {0, 2, 3}, some {1}]
      actions := [.remove "a" (some 0), .add ⟨"a", some 1, some false, ()⟩,
        .remove "b" none, .add ⟨"b", some 2, some false, ()⟩]
      deleted := 3, added := 2, updated := 1 } = true := by decide +kernel

/-- Without rows standing together the second group of a file would replace the first: the order
required of the plan is needed. -/
example : (match runMerge [([⟨"a", none, none, ()⟩, ⟨"b", none, none, ()⟩],
      [(some "a", some 0), (some "b", some 0), (some "a", some 1)])] (Out.start []) with
    | .ok o => o.disk
    | .error _ => []) = [some {0}, some {0}, some {1}] := by decide +kernel

end Verif.Delta.Dv
