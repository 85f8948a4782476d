import Verif.PySource.Read

/-!
# C125: every row a Python reader yields arrives
-/

namespace Verif.PySource.Read

variable {T R : Type}

namespace Spec

/-- The row of a tuple. -/
def rowOf (conv : T → Except String R) (t : T) : List R := match conv t with | .ok r => [r] | .error _ => []

/-- The rows of an item. -/
def rowsOf (conv : T → Except String R) : Item T R → List R
  | .batch _ rows => rows
  | .tuple t => rowOf conv t
  | .raise _ => []

/-- Nothing is wrong with an item. -/
def fine (conv : T → Except String R) : Item T R → Prop
  | .batch ok _ => ok = true
  | .tuple t => ∃ r, conv t = .ok r
  | .raise _ => False

/-- The rows that arrive before an error, and whether the stream has an error. -/
def arrived : List (Except String (List R)) → List R
  | [] => []
  | .ok b :: r => b ++ arrived r
  | .error _ :: _ => []

def failed (out : List (Except String (List R))) : Prop := ∃ e, Except.error e ∈ out

end Spec

open Spec

theorem convert_fine (conv : T → Except String R) : ∀ ts : List T, (∀ t ∈ ts, ∃ r, conv t = .ok r) →
    convert conv ts = .ok (ts.flatMap (rowOf conv))
  | [], _ => rfl
  | t :: ts, h => by
    obtain ⟨r, hr⟩ := h t (by simp)
    simp [convert, hr, convert_fine conv ts (fun x hx => h x (by simp [hx])), rowOf]

theorem convert_fails (conv : T → Except String R) : ∀ ts : List T, (¬ ∀ t ∈ ts, ∃ r, conv t = .ok r) →
    ∃ e, convert conv ts = .error e
  | [], h => absurd (by simp) h
  | t :: ts, h => by
    cases hc : conv t with
    | error e => exact ⟨e, by simp [convert, hc]⟩
    | ok r =>
      obtain ⟨e, he⟩ := convert_fails conv ts (fun hh => h (fun x hx => by
        rcases List.mem_cons.1 hx with rfl | hx
        · exact ⟨r, hc⟩
        · exact hh x hx))
      exact ⟨e, by simp [convert, hc, he]⟩

theorem flush_fine (conv : T → Except String R) (buf : List T) (h : ∀ t ∈ buf, ∃ r, conv t = .ok r) (hne : buf ≠ []) :
    flush conv buf = .ok (some (buf.flatMap (rowOf conv))) := by
  cases buf with
  | nil => exact absurd rfl hne
  | cons t ts => simp only [flush, convert_fine conv (t :: ts) h]

theorem flush_fails (conv : T → Except String R) (buf : List T) (h : ¬ ∀ t ∈ buf, ∃ r, conv t = .ok r) :
    ∃ e, flush conv buf = .error e := by
  cases buf with
  | nil => exact absurd (by simp) h
  | cons t ts =>
    obtain ⟨e, he⟩ := convert_fails conv (t :: ts) h
    exact ⟨e, by simp only [flush, he]⟩

theorem loop_fine (conv : T → Except String R) (size : Nat) (items : List (Item T R)) :
    ∀ buf : List T, (∀ t ∈ buf, ∃ r, conv t = .ok r) → (∀ i ∈ items, fine conv i) →
      ¬ failed (readLoop conv size buf items) ∧
      (arrived (readLoop conv size buf items)).Perm (buf.flatMap (rowOf conv) ++ items.flatMap (rowsOf conv)) := by
  induction items with
  | nil =>
    intro buf hb _
    cases buf with
    | nil => simp [readLoop, flush, failed, arrived]
    | cons t ts =>
      simp only [readLoop, flush_fine conv _ hb (List.cons_ne_nil _ _)]
      exact ⟨by simp [failed], by simp [arrived]⟩
  | cons i r ih =>
    intro buf hb hi
    have hr := fun x (hx : x ∈ r) => hi x (by simp [hx])
    match i with
    | .raise e => exact absurd (hi (.raise e) (by simp)) (by simp [fine])
    | .batch ok rows =>
      have : ok = true := hi (.batch ok rows) (by simp)
      subst this
      obtain ⟨h1, h2⟩ := ih buf hb hr
      simp only [readLoop, if_true]
      refine ⟨?_, ?_⟩
      · rintro ⟨e, he⟩
        rcases List.mem_cons.1 he with h | h
        · cases h
        · exact h1 ⟨e, h⟩
      · simp only [arrived, List.flatMap_cons, rowsOf]
        refine (h2.append_left rows).trans ?_
        rw [← List.append_assoc, ← List.append_assoc]
        exact (List.perm_append_comm).append_right _
    | .tuple t =>
      have ht : ∃ r, conv t = .ok r := hi (.tuple t) (by simp)
      have hb' : ∀ x ∈ buf ++ [t], ∃ r, conv x = .ok r := fun x hx => by
        rcases List.mem_append.1 hx with h | h
        · exact hb x h
        · simp at h; subst h; exact ht
      simp only [readLoop]
      split
      · rw [flush_fine conv _ hb' (by simp)]
        obtain ⟨h1, h2⟩ := ih [] (by simp) hr
        refine ⟨?_, ?_⟩
        · rintro ⟨e, he⟩
          rcases List.mem_cons.1 he with h | h
          · cases h
          · exact h1 ⟨e, h⟩
        · simp only [arrived, List.flatMap_cons, rowsOf]
          simp only [List.flatMap_nil, List.nil_append] at h2
          refine (h2.append_left _).trans ?_
          simp [List.append_assoc]
      · obtain ⟨h1, h2⟩ := ih (buf ++ [t]) hb' hr
        refine ⟨h1, h2.trans ?_⟩
        simp [List.append_assoc, rowsOf]

theorem loop_fails (conv : T → Except String R) (size : Nat) (items : List (Item T R)) :
    ∀ buf : List T, ¬ ((∀ t ∈ buf, ∃ r, conv t = .ok r) ∧ ∀ i ∈ items, fine conv i) →
      failed (readLoop conv size buf items) := by
  induction items with
  | nil =>
    intro buf h
    obtain ⟨e, he⟩ := flush_fails conv buf (fun hb => h ⟨hb, by simp⟩)
    exact ⟨e, by simp [readLoop, he]⟩
  | cons i r ih =>
    intro buf h
    match i with
    | .raise e => exact ⟨e, by simp [readLoop]⟩
    | .batch ok rows =>
      cases ok with
      | false => exact ⟨"schema", by simp [readLoop]⟩
      | true =>
        obtain ⟨e, he⟩ := ih buf (fun hh => h ⟨hh.1, fun x hx => by
          rcases List.mem_cons.1 hx with rfl | hx
          · rfl
          · exact hh.2 x hx⟩)
        exact ⟨e, by simp [readLoop, he]⟩
    | .tuple t =>
      simp only [readLoop]
      split
      · by_cases hb : ∀ x ∈ buf ++ [t], ∃ r, conv x = .ok r
        · rw [flush_fine conv _ hb (by simp)]
          obtain ⟨e, he⟩ := ih [] (fun hh => h ⟨fun x hx => hb x (by simp [hx]), fun x hx => by
            rcases List.mem_cons.1 hx with rfl | hx
            · exact hb t (by simp)
            · exact hh.2 x hx⟩)
          exact ⟨e, List.mem_cons_of_mem _ he⟩
        · obtain ⟨e, he⟩ := flush_fails conv _ hb
          rw [he]
          exact ⟨e, by simp⟩
      · refine ih _ (fun hh => h ⟨fun x hx => hh.1 x (by simp [hx]), fun x hx => ?_⟩)
        rcases List.mem_cons.1 hx with rfl | hx
        · exact hh.1 t (by simp)
        · exact hh.2 x hx

/-- C125. If nothing is wrong with what the reader yields, exactly its rows arrive. -/
theorem C125_every_row_arrives (conv : T → Except String R) (size : Nat) (items : List (Item T R))
    (h : ∀ i ∈ items, fine conv i) :
    ¬ failed (read conv size items) ∧ (arrived (read conv size items)).Perm (items.flatMap (rowsOf conv)) := by
  have := loop_fine conv size items [] (by simp) h
  simpa [read] using this

/-- C125. An exception of the reader, a tuple that does not fit the schema and a batch of another
schema fail the query. -/
theorem C125_failures_are_reported (conv : T → Except String R) (size : Nat) (items : List (Item T R))
    (h : ¬ ∀ i ∈ items, fine conv i) : failed (read conv size items) :=
  loop_fails conv size items [] (fun hh => h hh.2)

theorem tuples_in_order (conv : T → Except String R) (size : Nat) (ts : List T) :
    ∀ buf : List T, (∀ t ∈ buf ++ ts, ∃ r, conv t = .ok r) →
      arrived (readLoop conv size buf (ts.map .tuple)) = (buf ++ ts).flatMap (rowOf conv) := by
  induction ts with
  | nil =>
    intro buf hb
    rw [List.append_nil] at hb
    cases buf with
    | nil => rfl
    | cons t ts => simp [readLoop, flush_fine conv _ hb (List.cons_ne_nil _ _), arrived]
  | cons t ts ih =>
    intro buf hb
    have e : buf ++ t :: ts = (buf ++ [t]) ++ ts := by simp
    simp only [List.map_cons, readLoop]
    split
    · rw [flush_fine conv _ (fun x hx => hb x (by rw [e]; exact List.mem_append_left _ hx)) (by simp)]
      simp only [arrived]
      rw [ih [] (fun x hx => hb x (by simp at hx; simp [hx])), e]
      simp
    · rw [ih (buf ++ [t]) (fun x hx => hb x (by rw [e]; exact hx)), e]

/-- C125. Tuples arrive in the order in which they are yielded, whatever the batch size. -/
theorem C125_tuples_in_order (conv : T → Except String R) (size : Nat) (ts : List T) (h : ∀ t ∈ ts, ∃ r, conv t = .ok r) :
    arrived (read conv size (ts.map .tuple)) = ts.flatMap (rowOf conv) :=
  tuples_in_order conv size ts [] h

/-- C125. So do batches. -/
theorem C125_batches_in_order (conv : T → Except String R) (size : Nat) (bs : List (List R)) :
    read conv size (bs.map (.batch true)) = bs.map .ok := by
  unfold read
  induction bs with
  | nil => rfl
  | cons b bs ih => simp [readLoop, ih]

theorem sizes (conv : T → Except String R) (size : Nat) (ts : List T) :
    ∀ buf : List T, buf.length < max 1 size → (∀ t ∈ buf ++ ts, ∃ r, conv t = .ok r) →
      ∀ b, Except.ok b ∈ readLoop conv size buf (ts.map .tuple) → b.length ≤ max 1 size := by
  have hlen : ∀ l : List T, (∀ t ∈ l, ∃ r, conv t = .ok r) → (l.flatMap (rowOf conv)).length = l.length := by
    intro l hl
    induction l with
    | nil => rfl
    | cons t l ih =>
      obtain ⟨r, hr⟩ := hl t (by simp)
      simp only [List.flatMap_cons, List.length_append, ih (fun x hx => hl x (by simp [hx])), rowOf, hr, List.length_cons,
        List.length_nil]
      omega
  induction ts with
  | nil =>
    intro buf hlt hb b hm
    rw [List.append_nil] at hb
    cases buf with
    | nil => simp [readLoop, flush] at hm
    | cons t ts =>
      simp only [List.map_nil, readLoop, flush_fine conv _ hb (List.cons_ne_nil _ _), List.mem_singleton, Except.ok.injEq] at hm
      rw [hm, hlen _ hb]
      omega
  | cons t ts ih =>
    intro buf hlt hb b hm
    have e : buf ++ t :: ts = (buf ++ [t]) ++ ts := by simp
    have hb' : ∀ x ∈ buf ++ [t], ∃ r, conv x = .ok r := fun x hx => hb x (by rw [e]; exact List.mem_append_left _ hx)
    simp only [List.map_cons, readLoop] at hm
    split at hm
    · rw [flush_fine conv _ hb' (by simp)] at hm
      rcases List.mem_cons.1 hm with hm | hm
      · rw [Except.ok.inj hm, hlen _ hb', List.length_append, List.length_singleton]
        omega
      · exact ih [] (by simp; omega) (fun x hx => hb x (by simp at hx; simp [hx])) b hm
    · rename_i hs
      rw [List.length_append, List.length_singleton] at hs
      refine ih (buf ++ [t]) ?_ (fun x hx => hb x (by rw [e]; exact hx)) b hm
      rw [List.length_append, List.length_singleton]
      omega

/-- C125. No batch made of tuples is longer than the batch size. -/
theorem C125_batch_size (conv : T → Except String R) (size : Nat) (ts : List T) (h : ∀ t ∈ ts, ∃ r, conv t = .ok r) :
    ∀ b, Except.ok b ∈ read conv size (ts.map .tuple) → b.length ≤ max 1 size :=
  sizes conv size ts [] (by simp; omega) h

/-- C125, the order refuted for a reader that yields both: a batch overtakes the tuples before it. -/
theorem C125_batch_overtakes_tuples :
    arrived (read (T := Nat) (fun t => .ok t) 8192 [.tuple 1, .batch true [2], .tuple 3]) = [2, 1, 3] := by
  decide +kernel

/-! ## Examples -/

example : (read (T := Nat) (R := Nat) (fun t => .ok t) 2 [.tuple 1, .tuple 2, .tuple 3, .batch true [4, 5]]).length = 3 ∧
    arrived (read (T := Nat) (R := Nat) (fun t => .ok t) 2 [.tuple 1, .tuple 2, .tuple 3, .batch true [4, 5]]) = [1, 2, 4, 5, 3] := by
  decide +kernel

example : ∀ i ∈ ([.tuple 1, .batch true [2]] : List (Item Nat Nat)), fine (fun t => .ok t) i := by
  intro i hi
  simp only [List.mem_cons, List.not_mem_nil, or_false] at hi
  rcases hi with rfl | rfl
  · exact ⟨1, rfl⟩
  · rfl

/-- Rows collected before an exception do not arrive, but the exception does. -/
example : ∃ e, read (T := Nat) (R := Nat) (fun t => .ok t) 2 [.tuple 1, .raise "boom"] = [.error e] := ⟨_, rfl⟩

end Verif.PySource.Read
