import Mathlib.Data.Finset.Card
import Mathlib.Data.Finset.SDiff
import Mathlib.Data.Finset.Dedup
import Verif.Delta.DvWrite

/-! What the deletion vector writer leaves behind, file by file. -/

namespace Verif.Delta.Dv

variable {M : Type}

/-- The rows a file marks as deleted: none without a vector, and `none` if its vector cannot be read. -/
def Spec.marks (d : Disk) (a : Add M) : Option (Finset Nat) :=
  match a.dv with
  | none => some ∅
  | some n => match d[n]? with
    | some (some b) => some b
    | _ => none

/-- The table `t'` with storage `d'` is the table `t` with storage `d` after the rows `S` were deleted:
`f` gives the new entry of a file. -/
structure Spec.Marked (t t' : List (Add M)) (d d' : Disk) (S : String → Finset Nat)
    (f : Add M → Add M) : Prop where
  files : t'.Perm (t.map f)
  path : ∀ a ∈ t, (f a).path = a.path
  info : ∀ a ∈ t, (f a).info = a.info
  tight : ∀ a ∈ t, f a = a ∨ (f a).tight ≠ some true
  marks : ∀ a ∈ t, ∀ old, Spec.marks d a = some old → Spec.marks d' (f a) = some (old ∪ S a.path)
  same : ∀ a ∈ t, S a.path ⊆ (Spec.marks d a).getD ∅ → f a = a

theorem existing_eq (d : Disk) (a : Add M) : existing d a = Spec.marks d a := by
  unfold existing Spec.marks read
  cases a.dv with
  | none => rfl
  | some n =>
    dsimp only
    cases h : d[n]? with
    | none => rfl
    | some x => cases x <;> rfl

theorem marks_append {d e : Disk} {a : Add M} {b : Finset Nat} (h : Spec.marks d a = some b) :
    Spec.marks (d ++ e) a = some b := by
  unfold Spec.marks at h ⊢
  cases hv : a.dv with
  | none => rw [hv] at h; exact h
  | some n =>
    rw [hv] at h
    dsimp only at h ⊢
    have hn : n < d.length := by
      rcases Nat.lt_or_ge n d.length with hn | hn
      · exact hn
      · rw [List.getElem?_eq_none hn] at h
        cases h
    rw [List.getElem?_append_left hn]
    exact h

theorem applyActions_append [DecidableEq M] (t : List (Add M)) (as bs : List (Action M)) :
    applyActions t (as ++ bs) = applyActions (applyActions t as) bs := by
  simp [applyActions]

/-- The number of rows of `S` that were not deleted before. -/
def Spec.newRows (d : Disk) (S : String → Finset Nat) (t : List (Add M)) : Nat :=
  (t.map fun a => (S a.path \ (Spec.marks d a).getD ∅).card).sum

/-- The number of files in which `S` has a row that was not deleted before. -/
def Spec.newFiles (d : Disk) (S : String → Finset Nat) (t : List (Add M)) : Nat :=
  (t.map fun a => if S a.path ⊆ (Spec.marks d a).getD ∅ then 0 else 1).sum

/-- The number of those that had a vector already. -/
def Spec.updatedFiles (d : Disk) (S : String → Finset Nat) (t : List (Add M)) : Nat :=
  (t.map fun a => if S a.path ⊆ (Spec.marks d a).getD ∅ then 0 else if a.dv = none then 0 else 1).sum

/-- The writer has deleted `S` from the table `t` with storage `d`. -/
structure Done [DecidableEq M] (t : List (Add M)) (d : Disk) (S : String → Finset Nat) (o : Out M)
    (f : Add M → Add M) : Prop where
  marked : Spec.Marked t (applyActions t o.actions) d o.disk S f
  grown : ∃ e, o.disk = d ++ e
  deleted : o.deleted = Spec.newRows d S t
  added : o.added = Spec.newFiles d S t
  updated : o.updated = Spec.updatedFiles d S t

/-- Add the rows `b` of the file `p`. -/
def upd (S : String → Finset Nat) (p : String) (b : Finset Nat) : String → Finset Nat :=
  fun q => if q = p then b else S q

theorem sum_upd {S : String → Finset Nat} {b : Finset Nat} {a : Add M} (g : Add M → Finset Nat → Nat)
    (hg : ∀ x, g x ∅ = 0) (hS : S a.path = ∅) : ∀ {t : List (Add M)}, (t.map Add.path).Nodup → a ∈ t →
    (t.map fun x => g x (upd S a.path b x.path)).sum = (t.map fun x => g x (S x.path)).sum + g a b := by
  have hout : ∀ {t : List (Add M)}, a.path ∉ t.map Add.path →
      (t.map fun x => g x (upd S a.path b x.path)).sum = (t.map fun x => g x (S x.path)).sum := by
    intro t ht
    congr 1
    refine List.map_congr_left fun x hx => ?_
    have hne : x.path ≠ a.path := fun h => ht (List.mem_map.2 ⟨x, hx, h⟩)
    simp [upd, hne]
  intro t
  induction t with
  | nil => intro _ h; cases h
  | cons x t ih =>
    intro hn ha
    rw [List.map_cons, List.nodup_cons] at hn
    rw [List.map_cons, List.map_cons, List.sum_cons, List.sum_cons]
    rcases List.mem_cons.1 ha with h | h
    · subst h
      rw [hout hn.1, hS, hg]
      simp [upd]
      omega
    · have hne : x.path ≠ a.path := fun he => hn.1 (he ▸ List.mem_map.2 ⟨a, h, rfl⟩)
      rw [ih hn.2 h]
      simp only [upd, if_neg hne]
      omega

theorem newRows_upd {d : Disk} {S : String → Finset Nat} {b : Finset Nat} {a : Add M}
    (hS : S a.path = ∅) {t : List (Add M)} (hn : (t.map Add.path).Nodup) (ha : a ∈ t) :
    Spec.newRows d (upd S a.path b) t
      = Spec.newRows d S t + (b \ (Spec.marks d a).getD ∅).card :=
  sum_upd (fun x s => (s \ (Spec.marks d x).getD ∅).card) (fun x => by simp) hS hn ha

theorem newFiles_upd {d : Disk} {S : String → Finset Nat} {b : Finset Nat} {a : Add M}
    (hS : S a.path = ∅) {t : List (Add M)} (hn : (t.map Add.path).Nodup) (ha : a ∈ t) :
    Spec.newFiles d (upd S a.path b) t
      = Spec.newFiles d S t + (if b ⊆ (Spec.marks d a).getD ∅ then 0 else 1) :=
  sum_upd (fun x s => if s ⊆ (Spec.marks d x).getD ∅ then 0 else 1) (fun x => by simp) hS hn ha

theorem updatedFiles_upd {d : Disk} {S : String → Finset Nat} {b : Finset Nat} {a : Add M}
    (hS : S a.path = ∅) {t : List (Add M)} (hn : (t.map Add.path).Nodup) (ha : a ∈ t) :
    Spec.updatedFiles d (upd S a.path b) t
      = Spec.updatedFiles d S t
        + (if b ⊆ (Spec.marks d a).getD ∅ then 0 else if a.dv = none then 0 else 1) :=
  sum_upd (fun x s => if s ⊆ (Spec.marks d x).getD ∅ then 0 else if x.dv = none then 0 else 1)
    (fun x => by simp) hS hn ha

theorem upd_empty {S : String → Finset Nat} {p : String} (h : S p = ∅) : upd S p ∅ = S := by
  funext q
  unfold upd
  by_cases hq : q = p
  · simp [hq, h]
  · simp [hq]

/-- The vectors of the table are in the storage (a new vector never takes the name of an old one). -/
def Spec.Stored (d : Disk) (t : List (Add M)) : Prop :=
  ∀ a ∈ t, ∀ n, a.dv = some n → n < d.length

theorem marks_grown {d e : Disk} {t : List (Add M)} (hw : Spec.Stored d t) {a : Add M} (ha : a ∈ t) :
    Spec.marks (d ++ e) a = Spec.marks d a := by
  unfold Spec.marks
  cases hv : a.dv with
  | none => rfl
  | some n =>
    dsimp only
    rw [List.getElem?_append_left (hw a ha n hv)]

theorem path_inj {t : List (Add M)} (hn : (t.map Add.path).Nodup) {a b : Add M} (ha : a ∈ t) (hb : b ∈ t)
    (h : a.path = b.path) : a = b := by
  induction t with
  | nil => cases ha
  | cons x t ih =>
    rw [List.map_cons, List.nodup_cons] at hn
    rcases List.mem_cons.1 ha with rfl | ha'
    · rcases List.mem_cons.1 hb with rfl | hb'
      · rfl
      · exact (hn.1 (h ▸ List.mem_map.2 ⟨b, hb', rfl⟩)).elim
    · rcases List.mem_cons.1 hb with rfl | hb'
      · exact (hn.1 (h ▸ List.mem_map.2 ⟨a, ha', rfl⟩)).elim
      · exact ih hn.2 ha' hb'

/-- Replacing one file of a table with distinct paths. -/
theorem replace_perm [DecidableEq M] {t t' : List (Add M)} (hn : (t.map Add.path).Nodup)
    {f : Add M → Add M} (hf : ∀ x ∈ t, (f x).path = x.path) (hp : t'.Perm (t.map f)) {a new : Add M}
    (ha : a ∈ t) (hfa : f a = a) (hnew : new.path = a.path) :
    (applyActions t' [.remove a.path a.dv, .add new]).Perm
      (t.map fun x => if x.path = a.path then new else f x) := by
  obtain ⟨l, r, rfl⟩ := List.append_of_mem ha
  have hne : ∀ x ∈ l ++ r, x.path ≠ a.path := by
    intro x hx he
    rw [List.map_append, List.map_cons, List.nodup_append, List.nodup_cons] at hn
    rcases List.mem_append.1 hx with h | h
    · exact hn.2.2 _ (List.mem_map.2 ⟨x, h, rfl⟩) _ (List.mem_cons_self ..) he
    · exact hn.2.1.1 (he ▸ List.mem_map.2 ⟨x, h, rfl⟩)
  have hmem : ∀ x ∈ l ++ r, x ∈ l ++ a :: r := by
    intro x hx
    rcases List.mem_append.1 hx with h | h
    · exact List.mem_append_left _ h
    · exact List.mem_append_right _ (List.mem_cons_of_mem _ h)
  have h1 : (t'.filter fun x => !(x.path == a.path && x.dv == a.dv)).Perm ((l ++ r).map f) := by
    refine (hp.filter _).trans (List.Perm.of_eq ?_)
    rw [List.map_append, List.map_cons, List.filter_append, List.filter_cons, hfa]
    simp only [BEq.rfl, Bool.and_self, Bool.not_true, Bool.false_eq_true, if_false]
    rw [List.map_append]
    have keep : ∀ m : List (Add M), (∀ x ∈ m, x ∈ l ++ r) →
        (m.map f).filter (fun x => !(x.path == a.path && x.dv == a.dv)) = m.map f := by
      intro m hm
      rw [List.filter_eq_self]
      intro y hy
      obtain ⟨x, hx, rfl⟩ := List.mem_map.1 hy
      have := hne x (hm x hx)
      rw [← hf x (hmem x (hm x hx))] at this
      simp [this]
    rw [keep l fun x h => List.mem_append_left _ h, keep r fun x h => List.mem_append_right _ h]
  have h2 : ((t'.filter fun x => !(x.path == a.path && x.dv == a.dv)).filter
      fun x => !(x.path == new.path && x.dv == new.dv)).Perm ((l ++ r).map f) := by
    refine (h1.filter _).trans (List.Perm.of_eq ?_)
    rw [List.filter_eq_self]
    intro y hy
    obtain ⟨x, hx, rfl⟩ := List.mem_map.1 hy
    have := hne x hx
    rw [← hf x (hmem x hx), ← hnew] at this
    simp [this]
  have h3 : (applyActions t' [.remove a.path a.dv, .add new]).Perm ((l ++ r).map f ++ [new]) :=
    h2.append_right [new]
  refine h3.trans ?_
  have e1 : l.map (fun x => if x.path = a.path then new else f x) = l.map f :=
    List.map_congr_left fun x hx => if_neg (hne x (List.mem_append_left _ hx))
  have e2 : r.map (fun x => if x.path = a.path then new else f x) = r.map f :=
    List.map_congr_left fun x hx => if_neg (hne x (List.mem_append_right _ hx))
  rw [List.map_append, List.map_append, List.map_cons, e1, e2, if_pos rfl, List.append_assoc]
  exact List.Perm.append_left _ (List.perm_append_singleton new _)

theorem widen_ne (x : Option Bool) : widen x ≠ some true := by
  cases x <;> simp [widen]

theorem writeAdd_done [DecidableEq M] {t : List (Add M)} (hn : (t.map Add.path).Nodup) {d : Disk}
    (hw : Spec.Stored d t)
    {S : String → Finset Nat} {o o' : Out M} {f : Add M → Add M} (hd : Done t d S o f) {a : Add M}
    (ha : a ∈ t) (hS : S a.path = ∅) {b : Finset Nat} (h : writeAdd a b o = .ok o') :
    ∃ f', Done t d (upd S a.path b) o' f' := by
  have hfa : f a = a := hd.marked.same a ha (by rw [hS]; exact Finset.empty_subset _)
  obtain ⟨e, he⟩ := hd.grown
  unfold writeAdd at h
  rw [existing_eq, he, marks_grown hw ha] at h
  cases hm : Spec.marks d a with
  | none => rw [hm] at h; cases h
  | some old =>
    rw [hm] at h
    dsimp only at h
    have hcard : (old ∪ b).card - old.card = (b \ old).card := by
      rw [Finset.union_comm, ← Finset.sdiff_union_self_eq_union,
        Finset.card_union_of_disjoint Finset.sdiff_disjoint]
      omega
    have hold : (Spec.marks d a).getD ∅ = old := by rw [hm]; rfl
    have hnew := newRows_upd (d := d) (b := b) hS hn ha
    have hfil := newFiles_upd (d := d) (b := b) hS hn ha
    have hupd := updatedFiles_upd (d := d) (b := b) hS hn ha
    rw [hold] at hnew hfil hupd
    by_cases h0 : (old ∪ b).card - old.card = 0
    · rw [if_pos h0] at h
      cases h
      have hsub : b ⊆ old := by
        rw [hcard, Finset.card_eq_zero] at h0
        exact Finset.sdiff_eq_empty_iff_subset.1 h0
      refine ⟨f, ⟨⟨hd.marked.files, hd.marked.path, hd.marked.info, hd.marked.tight, ?_, ?_⟩, ⟨e, he⟩, ?_, ?_, ?_⟩⟩
      · intro x hx old' hx'
        by_cases hp : x.path = a.path
        · have := path_inj hn hx ha hp
          subst this
          rw [hm] at hx'
          cases hx'
          have := hd.marked.marks x hx old hm
          rw [this, hS]
          simp only [upd, if_pos]
          rw [Finset.union_empty, Finset.union_eq_left.2 hsub]
        · simp only [upd, if_neg hp]
          exact hd.marked.marks x hx old' hx'
      · intro x hx hs
        by_cases hp : x.path = a.path
        · have := path_inj hn hx ha hp
          subst this
          exact hfa
        · simp only [upd, if_neg hp] at hs
          exact hd.marked.same x hx hs
      · rw [hnew, hd.deleted]
        omega
      · rw [hfil, hd.added, if_pos hsub, Nat.add_zero]
      · rw [hupd, hd.updated, if_pos hsub, Nat.add_zero]
    · rw [if_neg h0] at h
      cases h
      have hsub : ¬ b ⊆ old := fun hs => h0 (by
        rw [hcard, Finset.card_eq_zero]
        exact Finset.sdiff_eq_empty_iff_subset.2 hs)
      refine ⟨fun x => if x.path = a.path then
          { a with dv := some (d ++ e).length, tight := widen a.tight } else f x,
        ⟨⟨?_, ?_, ?_, ?_, ?_, ?_⟩, ?_, ?_, ?_, ?_⟩⟩
      · dsimp only
        rw [applyActions_append]
        exact replace_perm hn hd.marked.path hd.marked.files ha hfa rfl
      · intro x hx
        by_cases hp : x.path = a.path
        · simp [hp]
        · simp only [if_neg hp]; exact hd.marked.path x hx
      · intro x hx
        by_cases hp : x.path = a.path
        · simp [path_inj hn hx ha hp]
        · simp only [if_neg hp]; exact hd.marked.info x hx
      · intro x hx
        by_cases hp : x.path = a.path
        · simp only [if_pos hp]; exact Or.inr (widen_ne _)
        · simp only [if_neg hp]; exact hd.marked.tight x hx
      · intro x hx old' hx'
        by_cases hp : x.path = a.path
        · have := path_inj hn hx ha hp
          subst this
          rw [hm] at hx'
          cases hx'
          simp [Spec.marks, upd]
        · simp only [if_neg hp, upd]
          have := hd.marked.marks x hx old' hx'
          rw [he] at this
          exact marks_append this
      · intro x hx hs
        by_cases hp : x.path = a.path
        · have := path_inj hn hx ha hp
          subst this
          exfalso
          rw [hold] at hs
          simp only [upd, if_pos] at hs
          rw [hcard, Finset.card_eq_zero] at h0
          exact h0 (Finset.sdiff_eq_empty_iff_subset.2 hs)
        · simp only [upd, if_neg hp] at hs
          simp only [if_neg hp]
          exact hd.marked.same x hx hs
      · exact ⟨e ++ [some (old ∪ b)], by dsimp only; rw [List.append_assoc]⟩
      · dsimp only
        rw [hnew, hd.deleted, hcard]
      · dsimp only
        rw [hfil, hd.added, if_neg hsub]
      · dsimp only
        rw [hupd, hd.updated, if_neg hsub]
        cases a.dv <;> simp

/-! ### The loop over the rows -/

theorem lookup_mem {adds : List (Add M)} {p : String} {a : Add M} (h : lookup adds p = some a) :
    a ∈ adds ∧ a.path = p := by
  unfold lookup at h
  exact ⟨List.mem_reverse.1 (List.mem_of_find?_eq_some h), by simpa using List.find?_some h⟩

/-- The rows of one file stand together. -/
def Spec.Together (rows : List Row) : Prop :=
  ∀ l x m z r, rows = l ++ x :: (m ++ z :: r) → x.1 = z.1 → ∀ y ∈ m, y.1 = x.1

/-- The positions named for a file. -/
def namedIn (rows : List Row) (p : String) : Finset Nat :=
  (rows.filterMap fun r => if r.1 = some p then r.2.map Int.toNat else none).toFinset

theorem namedIn_append (a b : List Row) (p : String) : namedIn (a ++ b) p = namedIn a p ∪ namedIn b p := by
  simp [namedIn, List.filterMap_append]

theorem namedIn_other {q p : String} {i : Option Int} (h : q ≠ p) : namedIn [(some q, i)] p = ∅ := by
  simp [namedIn, h]

theorem namedIn_own (p : String) (i : Int) : namedIn [(some p, some i)] p = {i.toNat} := by
  simp [namedIn]

theorem namedIn_none {rows : List Row} {p : String} (h : ∀ r ∈ rows, r.1 ≠ some p) : namedIn rows p = ∅ := by
  induction rows with
  | nil => rfl
  | cons r rs ih =>
    have h1 : namedIn [r] p = ∅ := by
      simp [namedIn, h r (List.mem_cons_self ..)]
    have := namedIn_append [r] rs p
    rw [h1, ih fun x hx => h x (List.mem_cons_of_mem _ hx)] at this
    simpa using this

/-- The state of the loop after the rows `done`, started when `S` was deleted. -/
def Inv [DecidableEq M] (t : List (Add M)) (d : Disk) (S : String → Finset Nat) (done : List Row)
    (s : Loop M) : Prop :=
  (s.current = none ∧ done = [] ∧ s.bitmap = ∅ ∧ ∃ f, Done t d S s.out f)
  ∨ ∃ c i done', s.current = some c ∧ done = done' ++ [(some c, i)] ∧ s.bitmap = namedIn done c
      ∧ ∃ f, Done t d (fun p => if p = c then ∅ else S p ∪ namedIn done p) s.out f

theorem not_before {done rest : List Row} {c p : String} {i : Option Int} {x : Option Int} {done' : List Row}
    (hd : done = done' ++ [(some c, i)]) (hc : c ≠ p)
    (ht : Spec.Together (done ++ (some p, x) :: rest)) : namedIn done p = ∅ := by
  refine namedIn_none fun r hr he => ?_
  subst hd
  rcases List.mem_append.1 hr with h | h
  · obtain ⟨l, m, rfl⟩ := List.append_of_mem h
    have := ht l r (m ++ [(some c, i)]) (some p, x) rest (by simp) he (some c, i) (by simp)
    dsimp only at this
    rw [he] at this
    exact hc (Option.some.inj this)
  · rw [List.mem_singleton.1 h] at he
    exact hc (Option.some.inj he)

theorem flush_done [DecidableEq M] {t adds : List (Add M)} (hn : (t.map Add.path).Nodup) {d : Disk}
    (hw : Spec.Stored d t) (hsub : ∀ a ∈ adds, a ∈ t) {S : String → Finset Nat} {c : String} {N : String → Finset Nat}
    (hS : S c = ∅) {o o' : Out M} {f : Add M → Add M}
    (hd : Done t d (fun p => if p = c then ∅ else S p ∪ N p) o f)
    (h : writePath adds c (N c) o = .ok o') :
    ∃ f', Done t d (fun p => S p ∪ N p) o' f' := by
  unfold writePath at h
  cases hl : lookup adds c with
  | none => rw [hl] at h; cases h
  | some a =>
    rw [hl] at h
    obtain ⟨ha, hp⟩ := lookup_mem hl
    subst hp
    obtain ⟨f', hf'⟩ := writeAdd_done hn hw hd (hsub a ha) (by simp) h
    refine ⟨f', ?_⟩
    have : upd (fun p => if p = a.path then ∅ else S p ∪ N p) a.path (N a.path) = fun p => S p ∪ N p := by
      funext q
      unfold upd
      by_cases hq : q = a.path
      · subst hq; simp [hS]
      · simp [hq]
    rw [this] at hf'
    exact hf'

theorem rowStep_inv [DecidableEq M] {t adds : List (Add M)} (hn : (t.map Add.path).Nodup) {d : Disk}
    (hw : Spec.Stored d t) (hsub : ∀ a ∈ adds, a ∈ t) {S : String → Finset Nat} {done rest : List Row} {r : Row}
    (hS : ∀ x ∈ done ++ r :: rest, ∀ p, x.1 = some p → S p = ∅) (ht : Spec.Together (done ++ r :: rest))
    {s s' : Loop M} (hi : Inv t d S done s) (h : rowStep adds s r = .ok s') : Inv t d S (done ++ [r]) s' := by
  obtain ⟨rp, ri⟩ := r
  cases rp with
  | none => cases h
  | some p =>
    cases ri with
    | none => cases h
    | some i =>
      have hSp : S p = ∅ := hS _ (List.mem_append_right _ (List.mem_cons_self ..)) p rfl
      unfold rowStep at h
      by_cases hneg : i < 0
      · simp only [if_pos hneg] at h; cases h
      · simp only [if_neg hneg] at h
        rcases hi with ⟨hc, hdone, hb, f, hf⟩ | ⟨c, j, done', hc, hdone, hb, f, hf⟩
        · rw [hc] at h
          cases h
          subst hdone
          refine Or.inr ⟨p, some i, [], rfl, rfl, ?_, f, ?_⟩
          · simp [hb, namedIn_own]
          · have : (fun q => if q = p then ∅ else S q ∪ namedIn ([] ++ [(some p, some i)]) q) = S := by
              funext q
              by_cases hq : q = p
              · subst hq; simp [hSp]
              · simp [hq, namedIn_other (Ne.symm hq)]
            rw [this]
            exact hf
        · rw [hc] at h
          dsimp only at h
          by_cases hcp : c = p
          · rw [if_pos hcp] at h
            cases h
            subst hcp
            refine Or.inr ⟨c, some i, done, rfl, rfl, ?_, f, ?_⟩
            · dsimp only
              rw [namedIn_append, namedIn_own, hb, Finset.union_comm]
              rfl
            · have : (fun q => if q = c then ∅ else S q ∪ namedIn (done ++ [(some c, some i)]) q)
                  = fun q => if q = c then ∅ else S q ∪ namedIn done q := by
                funext q
                by_cases hq : q = c
                · simp [hq]
                · simp [hq, namedIn_append, namedIn_other (Ne.symm hq)]
              rw [this]
              exact hf
          · rw [if_neg hcp, hb] at h
            cases hwp : writePath adds c (namedIn done c) s.out with
            | error e => rw [hwp] at h; cases h
            | ok o' =>
              rw [hwp] at h
              cases h
              have hSc : S c = ∅ := hS (some c, j) (by simp [hdone]) c rfl
              obtain ⟨f', hf'⟩ := flush_done (N := namedIn done) hn hw hsub hSc hf hwp
              have hbefore : namedIn done p = ∅ := not_before hdone hcp ht
              refine Or.inr ⟨p, some i, done, rfl, rfl, ?_, f', ?_⟩
              · dsimp only
                rw [namedIn_append, namedIn_own, hbefore, Finset.empty_union]
              · have : (fun q => if q = p then ∅ else S q ∪ namedIn (done ++ [(some p, some i)]) q)
                    = fun q => S q ∪ namedIn done q := by
                  funext q
                  by_cases hq : q = p
                  · subst hq; simp [hSp, hbefore]
                  · simp [hq, namedIn_append, namedIn_other (Ne.symm hq)]
                rw [this]
                exact hf'

theorem rowLoop_inv [DecidableEq M] {t adds : List (Add M)} (hn : (t.map Add.path).Nodup) {d : Disk}
    (hw : Spec.Stored d t) (hsub : ∀ a ∈ adds, a ∈ t) {S : String → Finset Nat} :
    ∀ {rest done : List Row}, (∀ x ∈ done ++ rest, ∀ p, x.1 = some p → S p = ∅) →
    Spec.Together (done ++ rest) → ∀ {s s' : Loop M}, Inv t d S done s → rowLoop adds s rest = .ok s' →
    Inv t d S (done ++ rest) s' := by
  intro rest
  induction rest with
  | nil =>
    intro done _ _ s s' hi h
    cases h
    simpa using hi
  | cons r rs ih =>
    intro done hS ht s s' hi h
    unfold rowLoop at h
    cases hs : rowStep adds s r with
    | error e => rw [hs] at h; cases h
    | ok s1 =>
      rw [hs] at h
      have h1 := rowStep_inv hn hw hsub hS ht hi hs
      have e : done ++ r :: rs = (done ++ [r]) ++ rs := by simp
      rw [e] at hS ht ⊢
      exact ih hS ht h1 h

theorem runRows_done [DecidableEq M] {t adds : List (Add M)} (hn : (t.map Add.path).Nodup) {d : Disk}
    (hw : Spec.Stored d t) (hsub : ∀ a ∈ adds, a ∈ t) {S : String → Finset Nat} {rows : List Row}
    (hS : ∀ x ∈ rows, ∀ p, x.1 = some p → S p = ∅) (ht : Spec.Together rows) {o o' : Out M}
    {f : Add M → Add M} (hd : Done t d S o f) (h : runRows adds rows o = .ok o') :
    ∃ f', Done t d (fun p => S p ∪ namedIn rows p) o' f' := by
  unfold runRows at h
  cases hl : rowLoop adds ⟨none, ∅, o⟩ rows with
  | error e => rw [hl] at h; cases h
  | ok s =>
    rw [hl] at h
    have hi := rowLoop_inv hn hw hsub (done := []) hS ht (s := ⟨none, ∅, o⟩)
      (Or.inl ⟨rfl, rfl, rfl, f, hd⟩) hl
    rw [List.nil_append] at hi
    rcases hi with ⟨hc, hrows, -, f', hf'⟩ | ⟨c, i, done', hc, hrows, hb, f', hf'⟩
    · dsimp only at h
      rw [hc] at h
      cases h
      subst hrows
      refine ⟨f', ?_⟩
      have : (fun p => S p ∪ namedIn [] p) = S := by funext q; simp [namedIn]
      rw [this]
      exact hf'
    · dsimp only at h
      rw [hc, hb] at h
      exact flush_done hn hw hsub (hS (some c, i) (by simp [hrows]) c rfl) hf' h

end Verif.Delta.Dv
