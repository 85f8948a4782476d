import Verif.Func.ListArray
/-!
# Aggregate functions

An aggregate function is run by accumulators: one per group in every partition takes the rows batch
by batch, its state is sent on, and another accumulator merges the states, again batch by batch.
Merging can be repeated over several levels.  `Reaches` is the set of accumulators that can arise
this way, together with the rows they have seen.
-/
namespace Verif.Func

/-- The interface every aggregate function implements (`Accumulator` of DataFusion, e.g.
`crates/sail-function/src/aggregate/mode.rs` 265-373).  `α` is a row, `S` a state as it is sent
between partitions.  `alike` relates accumulators that differ in nothing but the order in which a
hash map is iterated; it is equality where no hash map is used. -/
structure Accumulator (ε σ α S β : Type) where
  init : σ
  update : σ → List α → Except ε σ
  state : σ → S
  merge : σ → List (Option S) → Except ε σ
  eval : σ → β
  alike : σ → σ → Prop := fun a b => a = b

namespace Accumulator

variable {ε σ α S β : Type}

/-- The rows behind a batch of states. -/
def partRows : List (Option (σ × List α)) → List α
  | [] => []
  | none :: b => partRows b
  | some p :: b => p.2 ++ partRows b

/-- `A.Reaches s l`: the accumulator `s` can have seen exactly the rows `l`, in some partitioning,
batching and order of merging. -/
inductive Reaches (A : Accumulator ε σ α S β) : σ → List α → Prop
  | fresh : Reaches A A.init []
  | rows {s s' : σ} {l b : List α} : Reaches A s l → A.update s b = .ok s' → Reaches A s' (l ++ b)
  | alike {s s' : σ} {l : List α} : Reaches A s l → A.alike s s' → Reaches A s' l
  | merged {s s' : σ} {l : List α} {parts : List (Option (σ × List α))} : Reaches A s l →
      (∀ t l', some (t, l') ∈ parts → Reaches A t l') →
      A.merge s (parts.map (Option.map fun p => A.state p.1)) = .ok s' →
      Reaches A s' (l ++ partRows parts)

/-- Folding a batch of states one by one keeps a relation between accumulators and rows. -/
theorem fold_parts {A : Accumulator ε σ α S β} {P : σ → List α → Prop}
    (one : σ → Option S → Except ε σ)
    (hnone : ∀ s l s', P s l → one s none = .ok s' → P s' l)
    (hsome : ∀ s t l l' s', P s l → P t l' → one s (some (A.state t)) = .ok s' → P s' (l ++ l'))
    (parts : List (Option (σ × List α))) (hp : ∀ t l', some (t, l') ∈ parts → P t l') :
    ∀ s l s', P s l → (parts.map (Option.map fun p => A.state p.1)).foldlM one s = .ok s' →
      P s' (l ++ partRows parts) := by
  induction parts with
  | nil =>
    intro s l s' h he
    simp only [List.map_nil, List.foldlM_nil] at he
    cases he
    simpa [partRows] using h
  | cons o parts ih =>
    intro s l s' h he
    have hp' : ∀ t l', some (t, l') ∈ parts → P t l' := fun t l' ht => hp t l' (.tail _ ht)
    simp only [List.map_cons, List.foldlM_cons] at he
    cases hs : one s (o.map fun p => A.state p.1) with
    | error e => simp [hs, bind, Except.bind] at he
    | ok s1 =>
      simp only [hs, bind, Except.bind] at he
      cases o with
      | none => exact ih hp' s1 l s' (hnone s l s1 h hs) he
      | some p =>
        have h1 := hsome s p.1 l p.2 s1 h (hp p.1 p.2 (.head _)) hs
        have h2 := ih hp' s1 _ s' h1 he
        rwa [List.append_assoc] at h2

/-- An invariant of all reachable accumulators, when a batch of states is merged one by one. -/
theorem Reaches.induct {A : Accumulator ε σ α S β} {P : σ → List α → Prop}
    (one : σ → Option S → Except ε σ) (hone : ∀ s b, A.merge s b = b.foldlM one s)
    (hfresh : P A.init [])
    (hrows : ∀ s s' l b, P s l → A.update s b = .ok s' → P s' (l ++ b))
    (halike : ∀ s s' l, P s l → A.alike s s' → P s' l)
    (hnone : ∀ s l s', P s l → one s none = .ok s' → P s' l)
    (hsome : ∀ s t l l' s', P s l → P t l' → one s (some (A.state t)) = .ok s' → P s' (l ++ l'))
    {s : σ} {l : List α} (h : A.Reaches s l) : P s l := by
  induction h with
  | fresh => exact hfresh
  | rows _ hu ih => exact hrows _ _ _ _ ih hu
  | alike _ ha ih => exact halike _ _ _ ih ha
  | merged _ _ hm ih ihp =>
    rw [hone] at hm
    exact fold_parts one hnone hsome _ ihp _ _ _ ih hm

/-- Merging a batch of reachable states succeeds, when merging each of them does. -/
theorem fold_total {A : Accumulator ε σ α S β} {P : σ → List α → Prop}
    (one : σ → Option S → Except ε σ)
    (hnone : ∀ s l, P s l → ∃ s', one s none = .ok s' ∧ P s' l)
    (hsome : ∀ s t l l', P s l → P t l' → ∃ s', one s (some (A.state t)) = .ok s' ∧ P s' (l ++ l'))
    (parts : List (Option (σ × List α))) (hp : ∀ t l', some (t, l') ∈ parts → P t l') :
    ∀ s l, P s l → ∃ s', (parts.map (Option.map fun p => A.state p.1)).foldlM one s = .ok s' := by
  induction parts with
  | nil => intro s l _; exact ⟨s, rfl⟩
  | cons o parts ih =>
    intro s l h
    have hp' : ∀ t l', some (t, l') ∈ parts → P t l' := fun t l' ht => hp t l' (.tail _ ht)
    simp only [List.map_cons, List.foldlM_cons]
    cases o with
    | none =>
      obtain ⟨s1, h1, h2⟩ := hnone s l h
      simp only [Option.map_none, h1, bind, Except.bind]
      exact ih hp' s1 l h2
    | some p =>
      obtain ⟨s1, h1, h2⟩ := hsome s p.1 l p.2 h (hp p.1 p.2 (.head _))
      simp only [Option.map_some, h1, bind, Except.bind]
      exact ih hp' s1 _ h2

theorem foldlM_ok (f : σ → α → σ) (l : List α) (s : σ) :
    l.foldlM (fun s a => (.ok (f s a) : Except ε σ)) s = .ok (l.foldl f s) := by
  induction l generalizing s with
  | nil => rfl
  | cons a l ih => simp only [List.foldlM_cons, bind, Except.bind, List.foldl_cons, ih]

/-- One accumulator over the batches of a partition. -/
def runPart (A : Accumulator ε σ α S β) (batches : List (List α)) : Except ε σ :=
  batches.foldlM A.update A.init

/-- The usual two levels: one accumulator per partition, the states merged in a single batch. -/
def run (A : Accumulator ε σ α S β) (parts : List (List (List α))) : Except ε σ :=
  match parts.mapM A.runPart with
  | .error e => .error e
  | .ok ss => A.merge A.init (ss.map fun s => some (A.state s))

theorem runPart_reaches {A : Accumulator ε σ α S β} {batches : List (List α)} {s : σ}
    (h : A.runPart batches = .ok s) : A.Reaches s batches.flatten := by
  suffices ∀ (batches : List (List α)) (s0 : σ) (l : List α), A.Reaches s0 l →
      batches.foldlM A.update s0 = .ok s → A.Reaches s (l ++ batches.flatten) by
    simpa using this batches A.init [] .fresh h
  intro batches
  induction batches with
  | nil => intro s0 l h he; cases he; simpa using h
  | cons b batches ih =>
    intro s0 l h he
    simp only [List.foldlM_cons] at he
    cases hu : A.update s0 b with
    | error e => simp [hu, bind, Except.bind] at he
    | ok s1 =>
      simp only [hu, bind, Except.bind] at he
      simpa using ih s1 _ (.rows h hu) he

theorem run_reaches {A : Accumulator ε σ α S β} {parts : List (List (List α))} {s : σ}
    (h : A.run parts = .ok s) : A.Reaches s parts.flatten.flatten := by
  unfold run at h
  split at h
  · cases h
  · rename_i ss hss
    have key : ∀ (parts : List (List (List α))) (ss : List σ), parts.mapM A.runPart = .ok ss →
        ∃ ps : List (Option (σ × List α)), (∀ t l', some (t, l') ∈ ps → A.Reaches t l') ∧
          ps.map (Option.map fun p => A.state p.1) = ss.map (fun s => some (A.state s)) ∧
          partRows ps = parts.flatten.flatten := by
      intro parts
      induction parts with
      | nil =>
        intro ss h
        simp only [List.mapM_nil, pure, Except.pure, Except.ok.injEq] at h
        subst h
        exact ⟨[], by simp, rfl, rfl⟩
      | cons p parts ih =>
        intro ss h
        simp only [List.mapM_cons, bind, Except.bind] at h
        cases hp : A.runPart p with
        | error e => simp [hp] at h
        | ok t =>
          simp only [hp] at h
          cases hq : parts.mapM A.runPart with
          | error e => simp [hq] at h
          | ok ts =>
            simp only [hq, pure, Except.pure, Except.ok.injEq] at h
            subst h
            obtain ⟨ps, h1, h2, h3⟩ := ih ts hq
            refine ⟨some (t, p.flatten) :: ps, ?_, ?_, ?_⟩
            · intro t' l' ht
              simp only [List.mem_cons, Option.some.injEq, Prod.mk.injEq] at ht
              rcases ht with ⟨rfl, rfl⟩ | ht
              · exact runPart_reaches hp
              · exact h1 t' l' ht
            · simp [h2]
            · simp [partRows, h3]
    obtain ⟨ps, h1, h2, h3⟩ := key parts ss hss
    have := Reaches.merged (parts := ps) .fresh h1 (by rw [h2]; exact h)
    simpa [h3] using this

end Accumulator
end Verif.Func
