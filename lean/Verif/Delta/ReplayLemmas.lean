import Mathlib.Data.List.Pairwise
import Verif.Delta.Replay
import Verif.Delta.CompactProps

/-! # Lemmas about replaying the log inside a query -/

namespace Verif.Delta.Log

open Spec

namespace Spec

/-- `a` is decided after `b`: it comes from a later file, or from the same file and adds what `b`
removes. -/
def Beats (a b : Row) : Prop := a.version > b.version ∨ (a.version = b.version ∧ b.remove = true ∧ a.remove = false)

/-- `r` decides about its key. -/
def Winner (rows : List Row) (r : Row) : Prop := r ∈ rows ∧ ∀ x ∈ rows, x.key = r.key → x = r ∨ Beats r x

end Spec

/-- No two rows say the same about the same key in the same file. -/
def Distinct (rows : List Row) : Prop :=
  rows.Pairwise fun a b => ¬ (a.key = b.key ∧ a.version = b.version ∧ a.remove = b.remove)

theorem distinct_perm {a b : List Row} (h : a.Perm b) : Distinct a ↔ Distinct b :=
  h.pairwise_iff (fun hn ⟨h1, h2, h3⟩ => hn ⟨h1.symm, h2.symm, h3.symm⟩)

theorem winner_perm {a b : List Row} (h : a.Perm b) {r : Row} : Winner a r ↔ Winner b r := by
  unfold Winner
  simp [h.mem_iff]

theorem beats_total {rows : List Row} (hd : Distinct rows) {a b : Row} (ha : a ∈ rows) (hb : b ∈ rows)
    (hk : a.key = b.key) : a = b ∨ Beats a b ∨ Beats b a := by
  by_cases hab : a = b
  · exact .inl hab
  · right
    haveI : Std.Symm fun a b : Row => ¬ (a.key = b.key ∧ a.version = b.version ∧ a.remove = b.remove) :=
      ⟨fun a b hn ⟨h1, h2, h3⟩ => hn ⟨h1.symm, h2.symm, h3.symm⟩⟩
    have hne := List.Pairwise.forall hd ha hb hab
    unfold Beats
    rcases Nat.lt_trichotomy a.version b.version with h | h | h
    · exact .inr (.inl h)
    · have : a.remove ≠ b.remove := fun h3 => hne ⟨hk, h, h3⟩
      cases h1 : a.remove <;> cases h2 : b.remove
      · exact absurd (h1.trans h2.symm) this
      · exact .inl (.inr ⟨h, rfl, rfl⟩)
      · exact .inr (.inr ⟨h.symm, rfl, rfl⟩)
      · exact absurd (h1.trans h2.symm) this
    · exact .inl (.inl h)

theorem beats_asymm {a b : Row} (h : Beats a b) : ¬ Beats b a := by
  unfold Beats at *
  rintro (h' | ⟨h1, h2, h3⟩)
  · omega
  · obtain h | ⟨h4, h5, h6⟩ := h
    · omega
    · rw [h2] at h6; cases h6

theorem beats_trans {a b c : Row} (h : Beats a b) (h' : Beats b c) : Beats a c := by
  unfold Beats at *
  obtain h | ⟨h1, h2, h3⟩ := h <;> obtain h' | ⟨h4, h5, h6⟩ := h'
  · exact .inl (by omega)
  · exact .inl (by omega)
  · exact .inl (by omega)
  · exact .inr ⟨by omega, h5, h3⟩

theorem winner_unique {rows : List Row} {a b : Row} (ha : Winner rows a) (hb : Winner rows b) (hk : a.key = b.key) :
    a = b := by
  obtain h | h := ha.2 b hb.1 hk.symm
  · exact h.symm
  · obtain h' | h' := hb.2 a ha.1 hk
    · exact h'
    · exact absurd h' (beats_asymm h)

/-! ## Hash mode -/

def entryOf (r : Row) : Entry := ⟨r.version, r.remove, if r.remove then none else some r.file⟩

structure Built (rows : List Row) (m : List (Key × Entry)) : Prop where
  keys : Keys m
  sound : ∀ k e, (k, e) ∈ m → ∃ r, Winner rows r ∧ r.key = k ∧ e = entryOf r
  complete : ∀ r ∈ rows, ∃ e, (r.key, e) ∈ m

theorem build_spec {rows : List Row} (hd : Distinct rows) : Built rows (build rows) := by
  induction rows using List.reverseRecOn with
  | nil => exact ⟨List.nodup_nil, fun k e h => absurd h List.not_mem_nil, fun r h => absurd h List.not_mem_nil⟩
  | append_singleton rows r ih =>
    have hd' : Distinct rows := (List.pairwise_append.mp hd).1
    have ih := ih hd'
    have hstep : build (rows ++ [r]) = buildRow (build rows) r := by simp [build]
    rw [hstep]
    generalize build rows = m at ih
    have keep : ∀ x, x.key ≠ r.key → Winner rows x → Winner (rows ++ [r]) x := by
      rintro x hx ⟨h1, h2⟩
      refine ⟨by simp [h1], ?_⟩
      intro y hy hyk
      rw [List.mem_append, List.mem_singleton] at hy
      obtain hy | rfl := hy
      · exact h2 y hy hyk
      · exact absurd hyk.symm hx
    have hput : Winner (rows ++ [r]) r → Built (rows ++ [r]) (put r.key (entryOf r) m) := by
      intro hw
      refine ⟨keys_put ih.keys, ?_, ?_⟩
      · intro k e h
        rw [mem_put] at h
        obtain h | ⟨h1, h2⟩ := h
        · obtain ⟨rfl, rfl⟩ := Prod.mk.inj h
          exact ⟨r, hw, rfl, rfl⟩
        · obtain ⟨x, hx, rfl, rfl⟩ := ih.sound k e h2
          exact ⟨x, keep x h1 hx, rfl, rfl⟩
      · intro x hx
        by_cases hxk : x.key = r.key
        · exact ⟨entryOf r, by rw [mem_put]; exact .inl (by rw [hxk])⟩
        · rw [List.mem_append, List.mem_singleton] at hx
          obtain hx | rfl := hx
          · obtain ⟨e, he⟩ := ih.complete x hx
            exact ⟨e, by rw [mem_put]; exact .inr ⟨hxk, he⟩⟩
          · exact absurd rfl hxk
    unfold buildRow
    dsimp only
    cases hf : m.find? fun x => decide (x.1 = r.key) with
    | none =>
      dsimp only
      apply hput
      refine ⟨by simp, ?_⟩
      intro x hx hxk
      rw [List.mem_append, List.mem_singleton] at hx
      obtain hx | rfl := hx
      · obtain ⟨e, he⟩ := ih.complete x hx
        have := List.find?_eq_none.mp hf _ he
        simp [hxk] at this
      · exact .inl rfl
    | some ke =>
      obtain ⟨k, e⟩ := ke
      have hmem := List.mem_of_find?_eq_some hf
      have hk : k = r.key := by simpa using List.find?_some hf
      subst hk
      obtain ⟨w, hw, hwk, rfl⟩ := ih.sound _ _ hmem
      dsimp only
      have hcond : (r.version > (entryOf w).version ∨ (r.version = (entryOf w).version ∧ (entryOf w).remove = true ∧
          r.remove = false)) ↔ Beats r w := Iff.rfl
      split
      · rename_i hb
        rw [hcond] at hb
        apply hput
        refine ⟨by simp, ?_⟩
        intro x hx hxk
        rw [List.mem_append, List.mem_singleton] at hx
        obtain hx | rfl := hx
        · obtain rfl | hx := hw.2 x hx (hxk.trans hwk.symm)
          · exact .inr hb
          · exact .inr (beats_trans hb hx)
        · exact .inl rfl
      · rename_i hb
        rw [hcond] at hb
        have hww : Winner (rows ++ [r]) w := by
          refine ⟨by simp [hw.1], ?_⟩
          intro x hx hxk
          rw [List.mem_append, List.mem_singleton] at hx
          obtain hx | rfl := hx
          · exact hw.2 x hx hxk
          · obtain h | h | h := beats_total hd (a := x) (b := w) (by simp) (by simp [hw.1]) hxk
            · exact .inl h
            · exact absurd h hb
            · exact .inr h
        refine ⟨ih.keys, ?_, ?_⟩
        · intro k e h
          obtain ⟨x, hx, rfl, rfl⟩ := ih.sound k e h
          by_cases hxk : x.key = r.key
          · have := winner_unique hx hw (hxk.trans hwk.symm)
            subst this
            exact ⟨x, hww, rfl, rfl⟩
          · exact ⟨x, keep x hxk hx, rfl, rfl⟩
        · intro x hx
          rw [List.mem_append, List.mem_singleton] at hx
          obtain hx | rfl := hx
          · exact ih.complete x hx
          · exact ⟨_, hmem⟩

theorem mem_emit {rows : List Row} (hd : Distinct rows) {k : Key} {f : Nat} :
    (k, f) ∈ emit (build rows) ↔ ∃ r, Winner rows r ∧ r.key = k ∧ r.remove = false ∧ r.file = f := by
  have hb := build_spec hd
  unfold emit
  simp only [List.mem_filterMap, Prod.exists]
  constructor
  · rintro ⟨k', e, h, h'⟩
    obtain ⟨r, hw, rfl, rfl⟩ := hb.sound k' e h
    cases hr : r.remove with
    | true => simp [entryOf, hr] at h'
    | false =>
      simp [entryOf, hr] at h'
      exact ⟨r, hw, h'.1, hr, h'.2⟩
  · rintro ⟨r, hw, rfl, hr, rfl⟩
    obtain ⟨e, he⟩ := hb.complete r hw.1
    obtain ⟨r', hw', hk, rfl⟩ := hb.sound _ _ he
    have := winner_unique hw' hw hk
    subst this
    exact ⟨_, _, he, by simp [entryOf, hr]⟩

theorem nodup_emit {m : List (Key × Entry)} (h : Keys m) : ((emit m).map (·.1)).Nodup := by
  unfold emit
  unfold Keys at h
  induction m with
  | nil => simp
  | cons x m ih =>
    rw [List.map_cons, List.nodup_cons] at h
    rw [List.filterMap_cons]
    split
    · exact ih h.2
    · rename_i b hb
      rw [List.map_cons, List.nodup_cons]
      refine ⟨?_, ih h.2⟩
      intro hm
      apply h.1
      have hb1 : b.1 = x.1 := by
        split at hb
        · cases hb
        · cases hp : x.2.payload with
          | none => rw [hp] at hb; cases hb
          | some f => rw [hp] at hb; simp at hb; rw [← hb]
      rw [hb1] at hm
      obtain ⟨y, hy, hyx⟩ := List.mem_map.mp hm
      obtain ⟨z, hz, hzy⟩ := List.mem_filterMap.mp hy
      refine List.mem_map.mpr ⟨z, hz, ?_⟩
      split at hzy
      · cases hzy
      · cases hp : z.2.payload with
        | none => rw [hp] at hzy; cases hzy
        | some f => rw [hp] at hzy; simp at hzy; rw [← hzy] at hyx; exact hyx

/-- One row per key. -/
def OneRow (rows : List Row) : Prop := rows.Pairwise fun a b => a.key ≠ b.key

theorem hash_spec {ck cs : List Row} (hd : Distinct (ck ++ cs)) (hlt : ∀ a ∈ ck, ∀ b ∈ cs, a.version < b.version)
    (h1 : OneRow ck) {k : Key} {f : Nat} :
    (k, f) ∈ hashReplay ck cs ↔ ∃ r, Winner (ck ++ cs) r ∧ r.key = k ∧ r.remove = false ∧ r.file = f := by
  have hdc : Distinct cs := (List.pairwise_append.mp hd).2.1
  have hb := build_spec hdc
  unfold hashReplay
  rw [List.mem_append, mem_emit hdc]
  have hany : ∀ k, (build cs).any (fun x => decide (x.1 = k)) = true ↔ ∃ r ∈ cs, r.key = k := by
    intro k
    simp only [List.any_eq_true, decide_eq_true_eq, Prod.exists]
    constructor
    · rintro ⟨k', e, h, rfl⟩
      obtain ⟨r, hw, rfl, -⟩ := hb.sound k' e h
      exact ⟨r, hw.1, rfl⟩
    · rintro ⟨r, hr, rfl⟩
      obtain ⟨e, he⟩ := hb.complete r hr
      exact ⟨_, e, he, rfl⟩
  have hone : ∀ a ∈ ck, ∀ b ∈ ck, a.key = b.key → a = b := by
    intro a ha b hb hk
    haveI : Std.Symm fun a b : Row => a.key ≠ b.key := ⟨fun a b h h' => h h'.symm⟩
    by_contra hn
    exact List.Pairwise.forall h1 ha hb hn hk
  constructor
  · rintro (h | ⟨r, ⟨hr1, hr2⟩, rfl, hr3, rfl⟩)
    · unfold probe at h
      obtain ⟨r, hr, h⟩ := List.mem_filterMap.mp h
      split at h
      · cases h
      · rename_i hrem
        split at h
        · cases h
        · rename_i hno
          rw [hany] at hno
          obtain ⟨rfl, rfl⟩ := Prod.mk.inj (Option.some.inj h)
          refine ⟨r, ⟨by simp [hr], ?_⟩, rfl, by simpa using hrem, rfl⟩
          intro x hx hxk
          rw [List.mem_append] at hx
          obtain hx | hx := hx
          · exact .inl (hone x hx r hr hxk)
          · exact absurd ⟨x, hx, hxk⟩ hno
    · refine ⟨r, ⟨by simp [hr1], ?_⟩, rfl, hr3, rfl⟩
      intro x hx hxk
      rw [List.mem_append] at hx
      obtain hx | hx := hx
      · exact .inr (.inl (hlt x hx r hr1))
      · exact hr2 x hx hxk
  · rintro ⟨r, ⟨hr1, hr2⟩, rfl, hr3, rfl⟩
    rw [List.mem_append] at hr1
    obtain hr1 | hr1 := hr1
    · left
      unfold probe
      refine List.mem_filterMap.mpr ⟨r, hr1, ?_⟩
      rw [if_neg (by simp [hr3]), if_neg]
      rw [hany]
      rintro ⟨x, hx, hxk⟩
      have hv := hlt r hr1 x hx
      obtain rfl | h := hr2 x (by simp [hx]) hxk
      · omega
      · unfold Beats at h; omega
    · right
      refine ⟨r, ⟨hr1, fun x hx => hr2 x (by simp [hx])⟩, rfl, hr3, rfl⟩

theorem hash_nodup {ck cs : List Row} (hd : Distinct (ck ++ cs)) (h1 : OneRow ck) :
    ((hashReplay ck cs).map (·.1)).Nodup := by
  have hdc : Distinct cs := (List.pairwise_append.mp hd).2.1
  have hb := build_spec hdc
  unfold hashReplay
  rw [List.map_append, List.nodup_append]
  refine ⟨?_, nodup_emit hb.keys, ?_⟩
  · unfold probe
    unfold List.Nodup
    rw [List.pairwise_map, List.pairwise_filterMap]
    refine h1.imp ?_
    intro a b hab x hx y hy
    split at hx
    · cases hx
    · split at hx
      · cases hx
      · split at hy
        · cases hy
        · split at hy
          · cases hy
          · cases hx; cases hy; exact hab
  · intro k hk k' hk' hkk
    subst hkk
    obtain ⟨x, hx, rfl⟩ := List.mem_map.mp hk
    obtain ⟨y, hy, hyx⟩ := List.mem_map.mp hk'
    obtain ⟨⟨k1, e⟩, hz, hzy⟩ := List.mem_filterMap.mp hy
    obtain ⟨r, -, hr⟩ := List.mem_filterMap.mp hx
    split at hr
    · cases hr
    · split at hr
      · cases hr
      · rename_i hno
        apply hno
        rw [List.any_eq_true]
        refine ⟨_, hz, ?_⟩
        dsimp only at hzy
        split at hzy
        · cases hzy
        · cases hp : e.payload with
          | none => rw [hp] at hzy; cases hzy
          | some f =>
            rw [hp] at hzy
            simp at hzy
            cases hr
            rw [← hzy] at hyx
            simpa using hyx

/-! ## Sort mode -/

namespace Spec

/-- The order required by `required_input_ordering`: by key, for an order `lt` of the keys, then newest
version first, then additions before removals. -/
def Ordered (lt : Key → Key → Prop) (rows : List Row) : Prop :=
  rows.Pairwise fun a b => lt a.key b.key ∨ (a.key = b.key ∧
    (a.version > b.version ∨ (a.version = b.version ∧ (a.remove = false ∨ b.remove = true))))

end Spec

structure Scanned (rows : List Row) (s : Scan) : Prop where
  path : s.path = rows.getLast?.map (·.key)
  out : ∀ k f, (k, f) ∈ s.out ↔ s.path ≠ some k ∧ ∃ r, rows.find? (fun x => decide (x.key = k)) = some r ∧
    r.remove = false ∧ r.file = f
  nodup : (s.out.map (·.1)).Nodup
  row : ∀ k f, s.row = some (k, f) ↔ s.path = some k ∧ ∃ r, rows.find? (fun x => decide (x.key = k)) = some r ∧
    r.remove = false ∧ r.file = f
  removed : s.removed = true ↔ ∃ k, s.path = some k ∧ ∃ r, rows.find? (fun x => decide (x.key = k)) = some r ∧
    r.remove = true

theorem find_snoc {rows : List Row} {r : Row} {k : Key} :
    (rows ++ [r]).find? (fun x => decide (x.key = k)) =
      match rows.find? (fun x => decide (x.key = k)) with
      | some x => some x
      | none => if r.key = k then some r else none := by
  rw [List.find?_append]
  cases rows.find? (fun x => decide (x.key = k)) with
  | some x => rfl
  | none =>
    simp only [Option.none_or, List.find?_cons, List.find?_nil]
    by_cases h : r.key = k
    · simp [h]
    · simp [h]

theorem scan_spec {lt : Key → Key → Prop} (hlt : ∀ a b, lt a b → ¬ lt b a) {rows : List Row} (ho : Ordered lt rows) :
    Scanned rows (rows.foldl Scan.row1 ⟨none, false, none, []⟩) := by
  induction rows using List.reverseRecOn with
  | nil =>
    constructor
    · rfl
    · intro k f; simp
    · simp
    · intro k f; simp
    · simp
  | append_singleton rows r ih =>
    have ho' : Ordered lt rows := (List.pairwise_append.mp ho).1
    have ih := ih ho'
    rw [List.foldl_append, List.foldl_cons, List.foldl_nil]
    generalize rows.foldl Scan.row1 ⟨none, false, none, []⟩ = s at ih
    have hlast : (rows ++ [r]).getLast?.map (·.key) = some r.key := by simp
    -- if the last row has another key, this key is new
    have hnew : s.path ≠ some r.key → ∀ x ∈ rows, x.key ≠ r.key := by
      intro hp x hx hxk
      rw [ih.path] at hp
      rcases List.eq_nil_or_concat rows with rfl | ⟨l, y, rfl⟩
      · cases hx
      · simp only [List.concat_eq_append] at *
        simp at hp
        have h1 := (List.pairwise_append.mp ho).2.2
        have hyr := h1 y (by simp) r (by simp)
        have hyr : lt y.key r.key := by
          obtain h | h := hyr
          · exact h
          · exact absurd h.1 hp
        rw [List.mem_append, List.mem_singleton] at hx
        obtain hx | rfl := hx
        · have hxy := (List.pairwise_append.mp ho').2.2 x hx y (by simp)
          obtain h | h := hxy
          · rw [hxk] at h
            exact hlt _ _ h hyr
          · exact hp (h.1 ▸ hxk)
        · exact hp hxk
    have hnone : s.path ≠ some r.key → rows.find? (fun x => decide (x.key = r.key)) = none := by
      intro hp
      rw [List.find?_eq_none]
      intro x hx
      simpa using hnew hp x hx
    by_cases hp : s.path = some r.key
    · -- same group: already decided
      have hmem : ∃ x ∈ rows, x.key = r.key := by
        rw [ih.path] at hp
        rcases List.eq_nil_or_concat rows with rfl | ⟨l, y, rfl⟩
        · cases hp
        · simp at hp
          exact ⟨y, by simp, hp⟩
      obtain ⟨x, hx⟩ : ∃ x, rows.find? (fun x => decide (x.key = r.key)) = some x := by
        cases h : rows.find? (fun x => decide (x.key = r.key)) with
        | some x => exact ⟨x, rfl⟩
        | none =>
          obtain ⟨x, hx, hxk⟩ := hmem
          have := List.find?_eq_none.mp h x hx
          simp [hxk] at this
      have hdec : s.removed = true ∨ s.row.isSome = true := by
        cases hr : x.remove with
        | true => exact .inl (ih.removed.mpr ⟨_, hp, x, hx, hr⟩)
        | false =>
          right
          have := (ih.row r.key x.file).mpr ⟨hp, x, hx, hr, rfl⟩
          rw [this]
          rfl
      have hs : s.row1 r = s := by
        have he : s.enter r.key = s := by
          unfold Scan.enter
          rw [hp]
          simp
        unfold Scan.row1
        rw [he, Scan.take, if_pos hdec]
      rw [hs]
      have hfind : ∀ k, (rows ++ [r]).find? (fun x => decide (x.key = k)) = rows.find? (fun x => decide (x.key = k)) ∨
          (k ≠ r.key ∧ True) := by
        intro k
        by_cases hk : k = r.key
        · subst hk
          left
          rw [find_snoc, hx]
        · exact .inr ⟨hk, trivial⟩
      have hfind : ∀ k, (rows ++ [r]).find? (fun x => decide (x.key = k)) = rows.find? (fun x => decide (x.key = k)) := by
        intro k
        obtain h | ⟨h, -⟩ := hfind k
        · exact h
        · rw [find_snoc]
          cases rows.find? (fun x => decide (x.key = k)) with
          | some x => rfl
          | none => dsimp only; rw [if_neg (Ne.symm h)]
      refine ⟨hp.trans hlast.symm, ?_, ih.nodup, ?_, ?_⟩
      · intro k f; rw [hfind]; exact ih.out k f
      · intro k f; rw [hfind]; exact ih.row k f
      · rw [ih.removed]
        simp only [hfind]
    · -- a new group
      have hn := hnone hp
      have hs : s.row1 r = if r.remove then ⟨some r.key, true, none, s.out ++ s.row.toList⟩
          else ⟨some r.key, false, some (r.key, r.file), s.out ++ s.row.toList⟩ := by
        have he : s.enter r.key = ⟨some r.key, false, none, s.out ++ s.row.toList⟩ := by
          unfold Scan.enter
          cases hsp : s.path with
          | none =>
            have h1 : s.removed = false := by
              cases h : s.removed with
              | false => rfl
              | true => obtain ⟨k, h, -⟩ := ih.removed.mp h; rw [hsp] at h; cases h
            have h2 : s.row = none := by
              cases h : s.row with
              | none => rfl
              | some x => have := ((ih.row x.1 x.2).mp h).1; rw [hsp] at this; cases this
            simp [h1, h2]
          | some q =>
            rw [hsp] at hp
            have : q ≠ r.key := fun h => hp (by rw [h])
            dsimp only
            rw [if_pos this]
            simp [Scan.flush]
        unfold Scan.row1
        rw [he, Scan.take, if_neg (by simp)]
      have hfk : (rows ++ [r]).find? (fun x => decide (x.key = r.key)) = some r := by
        rw [find_snoc, hn]; simp
      have hfo : ∀ k, k ≠ r.key → (rows ++ [r]).find? (fun x => decide (x.key = k)) =
          rows.find? (fun x => decide (x.key = k)) := by
        intro k hk
        rw [find_snoc]
        cases rows.find? (fun x => decide (x.key = k)) with
        | some x => rfl
        | none => dsimp only; rw [if_neg (Ne.symm hk)]
      have hout : ∀ k f, (k, f) ∈ s.out ++ s.row.toList ↔ ∃ x, rows.find? (fun x => decide (x.key = k)) = some x ∧
          x.remove = false ∧ x.file = f := by
        intro k f
        rw [List.mem_append, Option.mem_toList, ih.out, ih.row]
        constructor
        · rintro (⟨-, h⟩ | ⟨-, h⟩) <;> exact h
        · intro h
          by_cases hk : s.path = some k
          · exact .inr ⟨hk, h⟩
          · exact .inl ⟨hk, h⟩
      have hnd : ((s.out ++ s.row.toList).map (·.1)).Nodup := by
        rw [List.map_append, List.nodup_append]
        refine ⟨ih.nodup, ?_, ?_⟩
        · cases s.row <;> simp
        · intro a ha b hb hab
          subst hab
          obtain ⟨⟨k, f⟩, hx, rfl⟩ := List.mem_map.mp ha
          obtain ⟨⟨k', f'⟩, hy, hxy⟩ := List.mem_map.mp hb
          rw [Option.mem_toList] at hy
          have h1 := ((ih.out k f).mp hx).1
          have h2 := ((ih.row k' f').mp hy).1
          dsimp only at hxy
          rw [hxy] at h2
          exact h1 h2
      have houtk : ∀ k f, (k, f) ∈ s.out ++ s.row.toList ↔ some r.key ≠ some k ∧
          ∃ x, (rows ++ [r]).find? (fun x => decide (x.key = k)) = some x ∧ x.remove = false ∧ x.file = f := by
        intro k f
        rw [hout]
        by_cases hk : k = r.key
        · subst hk
          rw [hn]
          simp
        · rw [hfo k hk]
          simp only [ne_eq, Option.some.injEq]
          constructor
          · exact fun h => ⟨fun h' => hk h'.symm, h⟩
          · exact fun h => h.2
      rw [hs]
      cases hr : r.remove with
      | true =>
        simp only [if_true]
        refine ⟨hlast.symm, houtk, hnd, ?_, ?_⟩
        · intro k f
          simp only [reduceCtorEq, Option.some.injEq, false_iff]
          rintro ⟨rfl, x, hx, hx1, -⟩
          rw [hfk] at hx
          cases hx
          rw [hr] at hx1
          cases hx1
        · simp only [true_iff]
          exact ⟨_, rfl, r, hfk, hr⟩
      | false =>
        simp only [Bool.false_eq_true, if_false]
        refine ⟨hlast.symm, houtk, hnd, ?_, ?_⟩
        · intro k f
          simp only [Option.some.injEq, Prod.mk.injEq]
          constructor
          · rintro ⟨rfl, rfl⟩; exact ⟨rfl, r, hfk, hr, rfl⟩
          · rintro ⟨rfl, x, hx, -, rfl⟩
            rw [hfk] at hx
            cases hx
            exact ⟨rfl, rfl⟩
        · simp only [Bool.false_eq_true, Option.some.injEq, false_iff]
          rintro ⟨k, rfl, x, hx, hx1⟩
          rw [hfk] at hx
          cases hx
          rw [hr] at hx1
          cases hx1

/-- In an ordered sequence the first row of a key decides. -/
theorem first_winner {lt : Key → Key → Prop} {rows : List Row} (ho : Ordered lt rows) (hirr : ∀ a, ¬ lt a a)
    (hd : Distinct rows) {k : Key} {r : Row} :
    rows.find? (fun x => decide (x.key = k)) = some r ↔ Winner rows r ∧ r.key = k := by
  have key : ∀ {r}, rows.find? (fun x => decide (x.key = k)) = some r → Winner rows r ∧ r.key = k := by
    intro r h
    obtain ⟨hk, pre, post, rfl, hpre⟩ := List.find?_eq_some_iff_append.mp h
    have hk : r.key = k := by simpa using hk
    refine ⟨⟨by simp, ?_⟩, hk⟩
    intro x hx hxk
    rw [List.mem_append, List.mem_cons] at hx
    obtain hx | rfl | hx := hx
    · have := hpre x hx
      simp [hxk, hk] at this
    · exact .inl rfl
    · right
      have h1 := (List.pairwise_cons.mp (List.pairwise_append.mp ho).2.1).1 x hx
      have h2 := (List.pairwise_cons.mp (List.pairwise_append.mp hd).2.1).1 x hx
      obtain h1 | ⟨-, h1⟩ := h1
      · rw [hxk] at h1; exact absurd h1 (hirr _)
      · obtain h1 | ⟨h1, h3⟩ := h1
        · exact .inl h1
        · have : r.remove ≠ x.remove := fun h => h2 ⟨hxk.symm, h1, h⟩
          refine .inr ⟨h1, ?_, ?_⟩
          · cases hx : x.remove with
            | true => rfl
            | false =>
              obtain h | h := h3
              · rw [hx] at this; exact absurd h this
              · rw [hx] at h; cases h
          · cases hr : r.remove with
            | false => rfl
            | true =>
              obtain h | h := h3
              · rw [hr] at h; cases h
              · rw [hr] at this; exact absurd h.symm this
  constructor
  · exact key
  · rintro ⟨hw, rfl⟩
    cases h : rows.find? (fun x => decide (x.key = r.key)) with
    | none =>
      have := List.find?_eq_none.mp h r hw.1
      simp at this
    | some x =>
      obtain ⟨h1, h2⟩ := key h
      rw [winner_unique h1 hw h2]

theorem sort_spec {lt : Key → Key → Prop} (hlt : ∀ a b, lt a b → ¬ lt b a) {rows : List Row} (ho : Ordered lt rows)
    (hd : Distinct rows) {k : Key} {f : Nat} :
    (k, f) ∈ sortReplay rows ↔ ∃ r, Winner rows r ∧ r.key = k ∧ r.remove = false ∧ r.file = f := by
  have hs := scan_spec hlt ho
  unfold sortReplay
  generalize rows.foldl Scan.row1 ⟨none, false, none, []⟩ = s at hs
  simp only [Scan.flush, List.mem_append, Option.mem_toList]
  rw [hs.out, hs.row]
  have hirr : ∀ a, ¬ lt a a := fun a h => hlt a a h h
  constructor
  · rintro (⟨-, r, hr, h⟩ | ⟨-, r, hr, h⟩)
    · rw [first_winner ho hirr hd] at hr; exact ⟨r, hr.1, hr.2, h⟩
    · rw [first_winner ho hirr hd] at hr; exact ⟨r, hr.1, hr.2, h⟩
  · rintro ⟨r, hw, hk, h⟩
    have hr := (first_winner ho hirr hd).mpr ⟨hw, hk⟩
    by_cases hp : s.path = some k
    · exact .inr ⟨hp, r, hr, h⟩
    · exact .inl ⟨hp, r, hr, h⟩

theorem sort_nodup {lt : Key → Key → Prop} (hlt : ∀ a b, lt a b → ¬ lt b a) {rows : List Row} (ho : Ordered lt rows) :
    ((sortReplay rows).map (·.1)).Nodup := by
  have hs := scan_spec hlt ho
  unfold sortReplay
  generalize rows.foldl Scan.row1 ⟨none, false, none, []⟩ = s at hs
  simp only [Scan.flush]
  rw [List.map_append, List.nodup_append]
  refine ⟨hs.nodup, by cases s.row <;> simp, ?_⟩
  intro a ha b hb hab
  subst hab
  obtain ⟨⟨k, f⟩, hx, rfl⟩ := List.mem_map.mp ha
  obtain ⟨⟨k', f'⟩, hy, hxy⟩ := List.mem_map.mp hb
  rw [Option.mem_toList] at hy
  have h1 := ((hs.out k f).mp hx).1
  have h2 := ((hs.row k' f').mp hy).1
  dsimp only at hxy
  rw [hxy] at h2
  exact h1 h2

end Verif.Delta.Log
