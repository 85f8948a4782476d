import Verif.Func.Accumulator
import Mathlib.Data.List.Perm.Basic
/-!
# Hash maps from values to numbers of occurrences

Used by `mode` and `percentile`.  A hash map is a list of entries with distinct keys; the order in
which it is iterated is unspecified, so every claim is made for all orders of the entries.
-/
namespace Verif.Func.Counts

variable {α : Type} [DecidableEq α]

/-- `*map.entry(k).or_insert(0) += n`: `crates/sail-function/src/aggregate/mode.rs` 277-278, 366-367
and `crates/sail-function/src/aggregate/percentile.rs` 250, 306.  Counts are natural numbers; that
they fit 64 bits is not modelled. -/
def bump (m : List (α × Nat)) (k : α) (n : Nat) : List (α × Nat) :=
  match m with
  | [] => [(k, n)]
  | (k', c) :: m => if k' = k then (k', c + n) :: m else (k', c) :: bump m k n

/-- `if let Some(count) = map.get_mut(k) { *count -= 1; if *count == 0 { map.remove(k) } }`:
`crates/sail-function/src/aggregate/percentile.rs` 326-337. -/
def drop1 (m : List (α × Nat)) (k : α) : List (α × Nat) :=
  match m with
  | [] => []
  | (k', c) :: m => if k' = k then (if c - 1 = 0 then m else (k', c - 1) :: m) else (k', c) :: drop1 m k

/-- The number of occurrences of a value, zero without an entry. -/
def get (m : List (α × Nat)) (k : α) : Nat :=
  match m with
  | [] => 0
  | (k', c) :: m => if k' = k then c else get m k

/-- The map has the values of `l` as its keys, each once, with the number of their occurrences. -/
structure Rep (m : List (α × Nat)) (l : List α) : Prop where
  nodup : (m.map Prod.fst).Nodup
  pos : ∀ e ∈ m, 0 < e.2
  get : ∀ k, get m k = l.count k

theorem get_of_mem {m : List (α × Nat)} (hn : (m.map Prod.fst).Nodup) {e : α × Nat} (he : e ∈ m) :
    get m e.1 = e.2 := by
  induction m with
  | nil => cases he
  | cons x m ih =>
    simp only [List.map_cons, List.nodup_cons] at hn
    unfold get
    rcases List.mem_cons.mp he with rfl | he'
    · simp
    · rw [if_neg, ih hn.2 he']
      intro h
      exact hn.1 (List.mem_map.mpr ⟨e, he', h.symm⟩)

theorem get_pos {m : List (α × Nat)} {k : α} (h : 0 < get m k) : (k, get m k) ∈ m := by
  induction m with
  | nil => simp [get] at h
  | cons x m ih =>
    unfold get at h ⊢
    split at h
    · rename_i hk
      subst hk
      simp
    · rename_i hk
      rw [if_neg hk]
      exact .tail _ (ih h)

theorem Rep.mem_iff {m : List (α × Nat)} {l : List α} (h : Rep m l) (k : α) (c : Nat) :
    (k, c) ∈ m ↔ c = l.count k ∧ 0 < c := by
  constructor
  · intro he
    have h1 := get_of_mem h.nodup he
    have h2 := h.get k
    have h3 := h.pos _ he
    simp only at h1 h3
    omega
  · rintro ⟨rfl, hc⟩
    rw [← h.get] at hc ⊢
    exact get_pos hc

theorem Rep.empty : Rep ([] : List (α × Nat)) [] := ⟨by simp, by simp, by simp [Counts.get]⟩

theorem mem_bump {m : List (α × Nat)} {k : α} {n : Nat} {x : α} :
    x ∈ (bump m k n).map Prod.fst ↔ x ∈ m.map Prod.fst ∨ x = k := by
  induction m with
  | nil => simp [bump]
  | cons e m ih =>
    unfold bump
    split
    · rename_i hk
      simp only [List.map_cons, List.mem_cons]
      grind
    · simp only [List.map_cons, List.mem_cons, ih]
      grind

theorem get_bump (m : List (α × Nat)) (k : α) (n : Nat) (x : α) :
    get (bump m k n) x = get m x + if x = k then n else 0 := by
  induction m with
  | nil => simp [bump, get]; grind
  | cons e m ih =>
    unfold bump
    split
    · rename_i hk
      simp only [get]
      grind
    · rename_i hk
      simp only [get, ih]
      grind

theorem Rep.bump {m : List (α × Nat)} {l : List α} (h : Rep m l) (k : α) {n : Nat} (hn : 0 < n) :
    Rep (bump m k n) (l ++ .replicate n k) := by
  refine ⟨?_, ?_, fun x => ?_⟩
  · have := h.nodup
    clear h
    induction m with
    | nil => simp [Counts.bump]
    | cons e m ih =>
      simp only [List.map_cons, List.nodup_cons] at this
      unfold Counts.bump
      split
      · simpa using this
      · rename_i hk
        simp only [List.map_cons, List.nodup_cons, mem_bump]
        exact ⟨by grind, ih this.2⟩
  · have := h.pos
    clear h
    induction m with
    | nil => simpa [Counts.bump] using hn
    | cons e m ih =>
      intro x hx
      unfold Counts.bump at hx
      have h1 := this e (.head _)
      have h2 := ih (fun y hy => this y (.tail _ hy))
      split at hx
      · rcases List.mem_cons.mp hx with rfl | hx
        · simp; omega
        · exact this x (.tail _ hx)
      · rcases List.mem_cons.mp hx with rfl | hx
        · exact h1
        · exact h2 x hx
  · rw [get_bump, h.get, List.count_append, List.count_replicate]
    grind

theorem get_drop1 (m : List (α × Nat)) (hn : (m.map Prod.fst).Nodup) (k x : α) :
    get (drop1 m k) x = get m x - if x = k then 1 else 0 := by
  induction m with
  | nil => simp [drop1, get]
  | cons e m ih =>
    simp only [List.map_cons, List.nodup_cons] at hn
    have hz : ∀ y, y ∉ m.map Prod.fst → get m y = 0 := by
      intro y hy
      rcases Nat.eq_zero_or_pos (get m y) with h | h
      · exact h
      · exact absurd (List.mem_map.mpr ⟨_, get_pos h, rfl⟩) hy
    unfold drop1
    split
    · rename_i hk
      split
      · rename_i hc
        simp only [get]
        have := hz e.1 hn.1
        grind
      · simp only [get]
        grind
    · simp only [get, ih hn.2]
      grind

theorem mem_drop1 {m : List (α × Nat)} {k x : α} (h : x ∈ (drop1 m k).map Prod.fst) :
    x ∈ m.map Prod.fst := by
  induction m with
  | nil => exact h
  | cons e m ih =>
    unfold drop1 at h
    split at h
    · split at h
      · exact .tail _ h
      · simpa using h
    · simp only [List.map_cons, List.mem_cons] at h ⊢
      exact h.imp_right ih

theorem Rep.drop1 {m : List (α × Nat)} {l : List α} (h : Rep m l) (k : α) :
    Rep (drop1 m k) (l.erase k) := by
  refine ⟨?_, ?_, fun x => ?_⟩
  · have := h.nodup
    clear h
    induction m with
    | nil => simp [Counts.drop1]
    | cons e m ih =>
      simp only [List.map_cons, List.nodup_cons] at this
      unfold Counts.drop1
      split
      · split
        · exact this.2
        · simpa using this
      · simp only [List.map_cons, List.nodup_cons]
        exact ⟨fun hx => this.1 (mem_drop1 hx), ih this.2⟩
  · have := h.pos
    clear h
    induction m with
    | nil => simp [Counts.drop1]
    | cons e m ih =>
      have h2 := ih (fun y hy => this y (.tail _ hy))
      intro x hx
      unfold Counts.drop1 at hx
      split at hx
      · split at hx
        · exact this x (.tail _ hx)
        · rcases List.mem_cons.mp hx with rfl | hx
          · simp; omega
          · exact this x (.tail _ hx)
      · rcases List.mem_cons.mp hx with rfl | hx
        · exact this e (.head _)
        · exact h2 x hx
  · rw [get_drop1 m h.nodup, h.get, List.count_erase]
    grind

theorem Rep.perm {m m' : List (α × Nat)} {l : List α} (h : Rep m l) (hp : m.Perm m') : Rep m' l := by
  have hn : (m'.map Prod.fst).Nodup := (hp.map _).nodup_iff.mp h.nodup
  refine ⟨hn, fun e he => h.pos e (hp.mem_iff.mpr he), fun k => ?_⟩
  rcases Nat.eq_zero_or_pos (Counts.get m' k) with h0 | h0
  · rcases Nat.eq_zero_or_pos (l.count k) with h1 | h1
    · omega
    · have := (h.mem_iff k _).mpr ⟨rfl, h1⟩
      have := get_of_mem hn (hp.mem_iff.mp this)
      simp only at this
      omega
  · have := get_pos h0
    have := (h.mem_iff _ _).mp (hp.mem_iff.mpr this)
    omega

theorem Rep.perm_rows {m : List (α × Nat)} {l l' : List α} (h : Rep m l) (hp : l.Perm l') : Rep m l' :=
  ⟨h.nodup, h.pos, fun k => by rw [h.get, hp.count_eq]⟩

/-- The rows behind the entries of a map. -/
def expand (m : List (α × Nat)) : List α := m.flatMap fun e => .replicate e.2 e.1

theorem count_expand (m : List (α × Nat)) (hn : (m.map Prod.fst).Nodup) (k : α) :
    (expand m).count k = get m k := by
  induction m with
  | nil => simp [expand, get]
  | cons e m ih =>
    simp only [List.map_cons, List.nodup_cons] at hn
    have ih' : List.count k (expand m) = get m k := ih hn.2
    have : expand (e :: m) = .replicate e.2 e.1 ++ expand m := rfl
    rw [this, List.count_append, List.count_replicate, ih']
    show _ = if e.1 = k then e.2 else get m k
    by_cases hk : e.1 = k
    · have : get m k = 0 := by
        rcases Nat.eq_zero_or_pos (get m k) with h | h
        · exact h
        · exact absurd (List.mem_map.mpr ⟨_, get_pos h, hk.symm⟩) hn.1
      simp [hk, this]
    · simp [hk]

theorem Rep.expand_perm {m : List (α × Nat)} {l : List α} (h : Rep m l) : (expand m).Perm l := by
  rw [List.perm_iff_count]
  intro k
  rw [count_expand m h.nodup, h.get]

/-- Adding all entries of a map to another one. -/
theorem Rep.fold {m : List (α × Nat)} {l : List α} (h : Rep m l) (es : List (α × Nat))
    (hes : ∀ e ∈ es, 0 < e.2) :
    Rep (es.foldl (fun m e => Counts.bump m e.1 e.2) m) (l ++ expand es) := by
  induction es generalizing m l with
  | nil => simpa [expand] using h
  | cons e es ih =>
    have h1 := h.bump e.1 (hes e (.head _))
    have h2 := ih h1 (fun x hx => hes x (.tail _ hx))
    have : expand (e :: es) = .replicate e.2 e.1 ++ expand es := rfl
    rw [this, ← List.append_assoc]
    exact h2

end Verif.Func.Counts
