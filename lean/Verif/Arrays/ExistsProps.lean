import Verif.Arrays.Lambda
import Verif.Arrays.MapFromProps
/-!
# exists and forall stop where Spark stops (C131)
-/
namespace Verif.Arrays

variable {α β : Type}

namespace Spec

/-- exists (`stop = true`) and forall (`stop = false`) on one array, `none` when the query has to
fail.  The elements reached are those up to the first on which the lambda gives `stop`. -/
def stopRow (stop : Bool) (f : α → Option (Option Bool)) (xs : List α) : Option (Option Bool) :=
  let found := xs.findIdx? (fun x : α => f x == some (some stop))
  let reached := found.elim xs (fun i : Nat => xs.take (i + 1))
  if reached.any (fun x : α => (f x).isNone) then none
  else if found.isSome then some (some stop)
  else if xs.any (fun x : α => f x == some none) then some none
  else some (some (!stop))

/-- The same for a cell. -/
def stopCell (stop : Bool) (f : α → Option (Option Bool)) (c : Option (List α)) :
    Option (Option Bool) :=
  match c with
  | none => some none
  | some xs => stopRow stop f xs

/-- The elements of a column with the numbers of their rows. -/
def elements (k : Nat) (cells : List (Option (List α))) : List (α × Nat) :=
  ((cells.zipIdx k).map (fun e : Option (List α) × Nat =>
    (e.1.getD []).map (fun x : α => (x, e.2)))).flatten

/-- What may be assumed of the vectorised evaluation when it succeeds: it gives what the lambda
gives on every element. -/
def Faithful (f : Nat → α → Option (Option Bool)) (cells : List (Option (List α))) : PredOut → Prop
  | .scalar b => ∀ e ∈ elements 0 cells, f e.2 e.1 = some b
  | .array p => (elements 0 cells).map (fun e : α × Nat => f e.2 e.1) = p.map some

end Spec

/-- `stopRow` with a NULL met before. -/
def stopFrom (stop : Bool) (f : α → Option (Option Bool)) (n : Bool) (xs : List α) :
    Option (Option Bool) :=
  let found := xs.findIdx? (fun x : α => f x == some (some stop))
  let reached := found.elim xs (fun i : Nat => xs.take (i + 1))
  if reached.any (fun x : α => (f x).isNone) then none
  else if found.isSome then some (some stop)
  else if n || xs.any (fun x : α => f x == some none) then some none
  else some (some (!stop))

theorem elim_any (stop : Bool) (f : α → Option (Option Bool)) (x : α) (xs : List α)
    (hx : (f x).isNone = false) :
    (((xs.findIdx? (fun x : α => f x == some (some stop))).map (fun i : Nat => i + 1)).elim (x :: xs)
      (fun i : Nat => (x :: xs).take (i + 1))).any (fun x : α => (f x).isNone) =
    ((xs.findIdx? (fun x : α => f x == some (some stop))).elim xs
      (fun i : Nat => xs.take (i + 1))).any (fun x : α => (f x).isNone) := by
  cases xs.findIdx? (fun x : α => f x == some (some stop)) with
  | none => simp [hx]
  | some i => simp [hx]

theorem walk_spec (f : α → Option (Option Bool)) (stop n : Bool) (xs : List α) :
    walk f stop n xs = stopFrom stop f n xs := by
  induction xs generalizing n with
  | nil => cases n <;> simp [walk, stopFrom]
  | cons x xs ih =>
    simp only [walk, stopFrom, List.findIdx?_cons]
    cases hx : f x with
    | none =>
      have h0 : (none == some (some stop)) = false := rfl
      simp only [h0, Bool.false_eq_true, if_false]
      have : (((xs.findIdx? (fun x : α => f x == some (some stop))).map (fun i : Nat => i + 1)).elim (x :: xs)
          (fun i : Nat => (x :: xs).take (i + 1))).any (fun x : α => (f x).isNone) = true := by
        cases xs.findIdx? (fun x : α => f x == some (some stop)) with
        | none => simp [hx]
        | some i => simp [hx]
      rw [if_pos this]
    | some r =>
      cases r with
      | none =>
        have h0 : (some (none : Option Bool) == some (some stop)) = false := rfl
        simp only [h0, Bool.false_eq_true, if_false]
        rw [ih true, stopFrom, elim_any stop f x xs (by simp [hx])]
        simp [hx]
      | some b =>
        by_cases hb : b = stop
        · subst hb
          simp [hx]
        · have h0 : (some (some b) == some (some stop)) = false := by
            rw [beq_eq_false_iff_ne]; intro h; cases h; exact hb rfl
          simp only [h0, Bool.false_eq_true, if_false, if_neg hb]
          rw [ih n, stopFrom, elim_any stop f x xs (by simp [hx])]
          simp [hx]

theorem stopFrom_false (stop : Bool) (f : α → Option (Option Bool)) (xs : List α) :
    stopFrom stop f false xs = Spec.stopRow stop f xs := by
  simp [stopFrom, Spec.stopRow]

theorem reduceLoop_walk (f : α → Option (Option Bool)) (stop n : Bool) (xs : List α)
    (ps : List (Option Bool)) (h : xs.map f = ps.map some) :
    walk f stop n xs = some (verdict stop (reduceLoop stop n ps)) := by
  induction xs generalizing ps n with
  | nil =>
    cases ps with
    | nil => cases n <;> rfl
    | cons _ _ => simp at h
  | cons x xs ih =>
    cases ps with
    | nil => simp at h
    | cons p ps =>
      simp only [List.map_cons, List.cons.injEq] at h
      obtain ⟨h1, h2⟩ := h
      simp only [walk, h1]
      cases p with
      | none => simp only [reduceLoop]; exact ih true ps h2
      | some b =>
        simp only [reduceLoop]
        by_cases hb : b = stop
        · rw [if_pos hb, if_pos hb]; rfl
        · rw [if_neg hb, if_neg hb]; exact ih n ps h2

theorem walk_const (f : α → Option (Option Bool)) (stop : Bool) (b : Option Bool) (xs : List α)
    (h : ∀ x ∈ xs, f x = some b) (n : Bool) :
    walk f stop n xs = some (match xs, b with
      | [], _ => if n then none else some (!stop)
      | _ :: _, some b => if b = stop then some stop else if n then none else some (!stop)
      | _ :: _, none => none) := by
  induction xs generalizing n with
  | nil => rfl
  | cons x xs ih =>
    simp only [walk, h x (by simp)]
    cases b with
    | none =>
      dsimp only
      rw [ih (fun y hy => h y (by simp [hy])) true]
      cases xs <;> rfl
    | some b =>
      dsimp only
      by_cases hb : b = stop
      · rw [if_pos hb, if_pos hb]
      · rw [if_neg hb, if_neg hb, ih (fun y hy => h y (by simp [hy])) n]
        cases xs with
        | nil => rfl
        | cons _ _ => dsimp only; rw [if_neg hb]

/-! ## Columns -/

theorem elements_cons (k : Nat) (c : Option (List α)) (rest : List (Option (List α))) :
    Spec.elements k (c :: rest) =
      (c.getD []).map (fun x : α => (x, k)) ++ Spec.elements (k + 1) rest := by
  simp [Spec.elements, List.zipIdx_cons]

theorem zip_replicate (xs : List α) (k : Nat) :
    xs.zip (List.replicate xs.length k) = xs.map (fun x : α => (x, k)) := by
  induction xs with
  | nil => rfl
  | cons x xs ih => simp [List.replicate_succ, ih]

theorem elements_zip (k : Nat) (cells : List (Option (List α))) :
    (flatValues cells).zip (rowNumbers k cells) = Spec.elements k cells := by
  induction cells generalizing k with
  | nil => rfl
  | cons c rest ih =>
    rw [elements_cons, ← ih (k + 1)]
    simp only [flatValues, List.map_cons, List.flatten_cons, rowNumbers]
    rw [List.zip_append (by simp), zip_replicate]

theorem first_segment (pre a b : List β) (o n : Nat) (ho : pre.length = o) (hn : a.length = n) :
    ((pre ++ (a ++ b)).drop o).take (o + n - o) = a := by
  subst ho; subst hn
  rw [List.drop_left, Nat.add_sub_cancel_left, List.take_left]

theorem shortCircuit_spec (f : Nat → α → Option (Option Bool)) (stop : Bool) (values : List α)
    (rowNums : List Nat) (k o : Nat) (cells : List (Option (List α))) (pre : List (α × Nat))
    (hz : values.zip rowNums = pre ++ Spec.elements k cells) (hp : pre.length = o) :
    shortCircuit f stop values rowNums (offsetsOf o (rowLens cells)) (validity cells) =
      Spec.allRows ((cells.zipIdx k).map (fun e : Option (List α) × Nat =>
        Spec.stopCell stop (f e.2) e.1)) := by
  induction cells generalizing k o pre with
  | nil => simp [rowLens, offsetsOf, validity, shortCircuit, Spec.allRows]
  | cons c rest ih =>
    rw [elements_cons] at hz
    have hne : ∃ o' t, offsetsOf (o + (c.getD []).length) (rowLens rest) = o' :: t ∧
        o' = o + (c.getD []).length := by
      cases rest <;> exact ⟨_, _, rfl, rfl⟩
    obtain ⟨o', t, ht, ho'⟩ := hne
    have hrec := ih (k + 1) (o + (c.getD []).length) (pre ++ (c.getD []).map (fun x : α => (x, k)))
      (by rw [hz, List.append_assoc]) (by simp [hp])
    simp only [rowLens, List.map_cons, offsetsOf, validity, List.zipIdx_cons, Spec.allRows] at hrec ⊢
    rw [show rest.map (fun c : Option (List α) => (c.getD []).length) = rowLens rest from rfl] at hrec ⊢
    rw [ht] at hrec ⊢
    generalize Spec.allRows ((rest.zipIdx (k + 1)).map (fun e : Option (List α) × Nat =>
        Spec.stopCell stop (f e.2) e.1)) = A at hrec ⊢
    cases c with
    | none =>
      simp only [shortCircuit, Option.isSome_none, Bool.not_false, if_true, hrec, Spec.stopCell]
      cases A <;> rfl
    | some xs =>
      simp only [Option.getD_some] at hz ho'
      simp only [shortCircuit, Option.isSome_some, Bool.not_true, Bool.false_eq_true, if_false, hrec,
        Spec.stopCell]
      rw [hz, ho', first_segment pre _ _ o xs.length hp (by simp)]
      have hw : walk (fun e : α × Nat => f e.2 e.1) stop false (xs.map (fun x : α => (x, k))) =
          Spec.stopRow stop (f k) xs := by
        rw [← stopFrom_false, ← walk_spec]
        generalize false = n
        clear hz hrec ih ht ho'
        induction xs generalizing n with
        | nil => rfl
        | cons x xs ih2 =>
          simp only [List.map_cons, walk]
          cases f k x with
          | none => rfl
          | some r => cases r with
            | none => exact ih2 true
            | some b =>
              dsimp only
              by_cases hb : b = stop
              · rw [if_pos hb, if_pos hb]
              · rw [if_neg hb, if_neg hb]; exact ih2 n
      rw [hw]
      cases Spec.stopRow stop (f k) xs <;> cases A <;> rfl

theorem allRows_some (l : List (Option β)) (m : List β) (h : l = m.map some) :
    Spec.allRows l = some m := by
  subst h
  induction m with
  | nil => rfl
  | cons x m ih => simp [Spec.allRows, ih]

theorem reduceRows_scalar (f : Nat → α → Option (Option Bool)) (stop : Bool) (b : Option Bool)
    (k o : Nat) (cells : List (Option (List α))) (h : ∀ e ∈ Spec.elements k cells, f e.2 e.1 = some b) :
    (cells.zipIdx k).map (fun e : Option (List α) × Nat => Spec.stopCell stop (f e.2) e.1) =
      (reduceRows stop (.scalar b) (offsetsOf o (rowLens cells)) (validity cells)).map some := by
  induction cells generalizing k o with
  | nil => simp [rowLens, offsetsOf, validity, reduceRows]
  | cons c rest ih =>
    rw [elements_cons] at h
    have hne : ∃ o' t, offsetsOf (o + (c.getD []).length) (rowLens rest) = o' :: t ∧
        o' = o + (c.getD []).length := by
      cases rest <;> exact ⟨_, _, rfl, rfl⟩
    obtain ⟨o', t, ht, ho'⟩ := hne
    have hrec := ih (k + 1) (o + (c.getD []).length) (fun e he => h e (by simp [he]))
    simp only [rowLens, List.map_cons, offsetsOf, validity, List.zipIdx_cons] at hrec ⊢
    rw [show rest.map (fun c : Option (List α) => (c.getD []).length) = rowLens rest from rfl] at hrec ⊢
    rw [ht] at hrec ⊢
    simp only [reduceRows, List.map_cons, ← hrec]
    congr 1
    cases c with
    | none => rfl
    | some xs =>
      simp only [Option.isSome_some, Bool.not_true, Bool.false_eq_true, if_false, reduceRow, Spec.stopCell]
      have hx : ∀ x ∈ xs, f k x = some b := fun x hx => h (x, k) (by simp [hx])
      rw [← stopFrom_false, ← walk_spec, walk_const (f k) stop b xs hx false, ho']
      cases xs with
      | nil => simp
      | cons x xs =>
        cases b with
        | none => simp
        | some b => cases b <;> cases stop <;> simp

theorem reduceRows_array (f : Nat → α → Option (Option Bool)) (stop : Bool) (p pre : List (Option Bool))
    (k o : Nat) (cells : List (Option (List α))) (ps : List (Option Bool)) (hp : p = pre ++ ps)
    (hl : pre.length = o) (h : (Spec.elements k cells).map (fun e : α × Nat => f e.2 e.1) = ps.map some) :
    (cells.zipIdx k).map (fun e : Option (List α) × Nat => Spec.stopCell stop (f e.2) e.1) =
      (reduceRows stop (.array p) (offsetsOf o (rowLens cells)) (validity cells)).map some := by
  induction cells generalizing k o pre ps with
  | nil => simp [rowLens, offsetsOf, validity, reduceRows]
  | cons c rest ih =>
    rw [elements_cons, List.map_append, List.map_map] at h
    have hne : ∃ o' t, offsetsOf (o + (c.getD []).length) (rowLens rest) = o' :: t ∧
        o' = o + (c.getD []).length := by
      cases rest <;> exact ⟨_, _, rfl, rfl⟩
    obtain ⟨o', t, ht, ho'⟩ := hne
    have hsplit := List.append_eq_map_iff.mp h
    obtain ⟨p1, p2, hps, h1, h2⟩ := hsplit
    have hp1 : p1.length = (c.getD []).length := by
      have := congrArg List.length h1
      simpa using this
    have hrec := ih (pre ++ p1) (k + 1) (o + (c.getD []).length) p2 (by rw [hp, hps, List.append_assoc])
      (by simp [hl, hp1]) h2.symm
    simp only [rowLens, List.map_cons, offsetsOf, validity, List.zipIdx_cons] at hrec ⊢
    rw [show rest.map (fun c : Option (List α) => (c.getD []).length) = rowLens rest from rfl] at hrec ⊢
    rw [ht] at hrec ⊢
    simp only [reduceRows, List.map_cons, ← hrec]
    congr 1
    cases c with
    | none => rfl
    | some xs =>
      simp only [Option.getD_some] at hp1 ho' h1
      simp only [Option.isSome_some, Bool.not_true, Bool.false_eq_true, if_false, reduceRow, Spec.stopCell]
      rw [hp, hps, ho', first_segment pre p1 p2 o xs.length hl hp1, ← stopFrom_false, ← walk_spec]
      exact reduceLoop_walk (f k) stop false xs p1 h1.symm

theorem existsInvoke_spec (stop : Bool) (vec : Option PredOut) (f : Nat → α → Option (Option Bool))
    (cells : List (Option (List α))) (h : ∀ out, vec = some out → Spec.Faithful f cells out) :
    existsInvoke stop vec f cells =
      Spec.allRows (cells.zipIdx.map (fun e : Option (List α) × Nat => Spec.stopCell stop (f e.2) e.1)) := by
  cases vec with
  | none =>
    exact shortCircuit_spec f stop _ _ 0 0 cells [] (by rw [elements_zip]; rfl) rfl
  | some out =>
    rw [existsInvoke, allRows_some]
    cases out with
    | scalar b => exact reduceRows_scalar f stop b 0 0 cells (h _ rfl)
    | array p => exact reduceRows_array f stop p [] 0 0 cells p rfl rfl (h _ rfl)

/-- **C131**: exists gives in every row what walking through the row and stopping at the first true
gives, and fails exactly if the lambda fails on an element that is reached in some row — whatever
the vectorised evaluation does, as long as it is right when it succeeds. -/
theorem C131_exists (vec : Option PredOut) (f : Nat → α → Option (Option Bool))
    (cells : List (Option (List α))) (h : ∀ out, vec = some out → Spec.Faithful f cells out) :
    existsInvoke true vec f cells =
      Spec.allRows (cells.zipIdx.map (fun e : Option (List α) × Nat => Spec.stopCell true (f e.2) e.1)) :=
  existsInvoke_spec true vec f cells h

/-- **C131**: the same for forall and the first false. -/
theorem C131_forall (vec : Option PredOut) (f : Nat → α → Option (Option Bool))
    (cells : List (Option (List α))) (h : ∀ out, vec = some out → Spec.Faithful f cells out) :
    existsInvoke false vec f cells =
      Spec.allRows (cells.zipIdx.map (fun e : Option (List α) × Nat => Spec.stopCell false (f e.2) e.1)) :=
  existsInvoke_spec false vec f cells h

/-- **C131**: the outcome of a row in words: the stopping value if and only if the lambda gives it on
some element and fails on none before. -/
theorem C131_stops (stop : Bool) (f : α → Option (Option Bool)) (xs : List α) :
    Spec.stopRow stop f xs = some (some stop) ↔
      ∃ ys x zs, xs = ys ++ x :: zs ∧ f x = some (some stop) ∧ ∀ y ∈ ys, f y ≠ none := by
  rw [← stopFrom_false, ← walk_spec]
  generalize false = n
  induction xs generalizing n with
  | nil =>
    constructor
    · intro h
      cases n <;> cases stop <;> simp [walk] at h
    · rintro ⟨ys, x, zs, h, _⟩
      cases ys <;> cases h
  | cons x xs ih =>
    have key : ∀ m : Bool, f x ≠ none → f x ≠ some (some stop) →
        (walk f stop m xs = some (some stop) ↔
          ∃ ys y zs, x :: xs = ys ++ y :: zs ∧ f y = some (some stop) ∧ ∀ y ∈ ys, f y ≠ none) := by
      intro m hx1 hx2
      rw [ih m]
      constructor
      · rintro ⟨ys, y, zs, h1, h2, h3⟩
        refine ⟨x :: ys, y, zs, by rw [h1]; rfl, h2, ?_⟩
        intro z hz
        rcases List.mem_cons.mp hz with h | h
        · rw [h]; exact hx1
        · exact h3 z h
      · rintro ⟨ys, y, zs, h1, h2, h3⟩
        cases ys with
        | nil => cases h1; exact absurd h2 hx2
        | cons y' ys =>
          cases h1
          exact ⟨ys, y, zs, rfl, h2, fun z hz => h3 z (by simp [hz])⟩
    cases hx : f x with
    | none =>
      simp only [walk, hx]
      constructor
      · intro h; cases h
      · rintro ⟨ys, y, zs, h1, h2, h3⟩
        cases ys with
        | nil => cases h1; rw [hx] at h2; cases h2
        | cons y' ys => cases h1; exact absurd hx (h3 x (by simp))
    | some r =>
      cases r with
      | none =>
        simp only [walk, hx]
        exact key true (by rw [hx]; simp) (by rw [hx]; simp)
      | some b =>
        simp only [walk, hx]
        by_cases hb : b = stop
        · rw [if_pos hb]
          exact ⟨fun _ => ⟨[], x, xs, rfl, by rw [hx, hb], by simp⟩, fun _ => rfl⟩
        · rw [if_neg hb]
          exact key n (by rw [hx]; simp) (by rw [hx]; intro h; cases h; exact hb rfl)

/-- A lambda that fails on 0, is NULL on 1 and otherwise compares with 5. -/
def demoLambda (_r : Nat) (x : Nat) : Option (Option Bool) :=
  if x = 0 then none else if x = 1 then some none else some (some (decide (5 < x)))

example : existsInvoke true none demoLambda [some [1, 7, 0], none, some [1, 2], some []] =
    some [some true, none, none, some false] := by decide +kernel

example : existsInvoke true none demoLambda [some [0, 7]] = none := by decide +kernel

example : Spec.Faithful demoLambda [some [1, 7], none, some [2]]
    (.array [none, some true, some false]) := by
  unfold Spec.Faithful; decide +kernel

example : existsInvoke false (some (.array [none, some true, some false])) demoLambda
    [some [1, 7], none, some [2]] = some [none, none, some false] := by decide +kernel

end Verif.Arrays
