import Verif.Connect.Streaming

/-!
# C65: streaming query status and termination
-/

namespace Verif.Connect.Stream

namespace Spec

/-- In the events after its start, the task of the query has come to an end: it was polled, without
having panicked before, after a stop request or with the end of its stream among the items. -/
def Ended (id : Id) (es : List Event) : Prop :=
  ∃ (before after : List Event) (b : Bool) (items : List Item),
    es = before ++ .poll id b items :: after ∧ .panic id ∉ before ∧
      (.stop id ∈ before ∨ .finish ∈ items)

/-- The last error among items. -/
def lastError (items : List Item) : Option String :=
  (items.filterMap fun i => match i with | .error m => some m | _ => none).getLast?

end Spec

open Spec

/-! ## The course of one query -/

/-- What an event does to a query. -/
def evolve (id : Id) : Event → Query → Query
  | .stop j, q => if id = j then stopTask q else q
  | .poll j b items, q => if id = j then pollTask b items q else q
  | .panic j, q => if id = j then panicTask q else q
  | .reset, q => resetOne q
  | _, q => q

def evolves (id : Id) (es : List Event) (q : Query) : Query := es.foldl (fun q e => evolve id e q) q

theorem find_modify (id j : Id) (f : Query → Query) (l : List (Id × Query)) :
    find id (modify j f l) = (find id l).map fun q => if id = j then f q else q := by
  unfold find modify
  induction l with
  | nil => rfl
  | cons e l ih =>
    rw [List.map_cons, List.find?_cons, List.find?_cons]
    by_cases he : e.1 = id
    · by_cases hj : e.1 = j
      · have hij : id = j := he.symm.trans hj
        simp [he, hij]
      · have hij : ¬ id = j := fun h => hj (he.trans h)
        simp [he, hij]
    · have h1 : (if e.1 = j then (e.1, f e.2) else e).1 = e.1 := by split <;> rfl
      simp only [h1, he, decide_false]
      exact ih

theorem find_map (id : Id) (f : Query → Query) (l : List (Id × Query)) :
    find id (l.map fun e => (e.1, f e.2)) = (find id l).map f := by
  unfold find
  induction l with
  | nil => rfl
  | cons e l ih =>
    rw [List.map_cons, List.find?_cons, List.find?_cons]
    by_cases he : e.1 = id
    · simp [he]
    · simp only [he, decide_false]
      exact ih

theorem find_append (id : Id) (l r : List (Id × Query)) :
    find id (l ++ r) = (find id l).or (find id r) := by
  unfold find
  rw [List.find?_append]
  cases List.find? (fun e => decide (e.1 = id)) l <;> rfl

theorem find_step (s : State) (e : Event) (id : Id) (q : Query) (h : find id s.queries = some q) :
    find id (step s e).1.queries = some (evolve id e q) := by
  cases e with
  | start j name =>
    simp only [step]
    split
    · simp [find_append, h, evolve]
    · exact h
  | stop j =>
    simp only [step, evolve]
    split
    · rename_i hj
      have : ¬ id = j := by
        intro hij
        rw [← hij, h] at hj
        exact absurd hj (by simp)
      rw [if_neg this]
      exact h
    · rw [find_modify, h]
      rfl
  | poll j b items => simp only [step, evolve, find_modify, h, Option.map_some]
  | panic j => simp only [step, evolve, find_modify, h, Option.map_some]
  | reset => simp only [step, evolve, find_map, h, Option.map_some]
  | tick d => exact h
  | awaitOne j t =>
    simp only [step]
    split
    · exact h
    · split
      · exact h
      · split <;> exact h
  | awaitAny t =>
    simp only [step]
    split <;> exact h
  | waiter w j => exact h
  | pollWait w => exact h

theorem find_run (es : List Event) : ∀ (s : State) (id : Id) (q : Query),
    find id s.queries = some q → find id (run s es).queries = some (evolves id es q) := by
  induction es with
  | nil => exact fun s id q h => h
  | cons e es ih => exact fun s id q h => ih _ _ _ (find_step s e id q h)

theorem consume_finish (items : List Item) : ∀ err, (consume err items).2 = true ↔ .finish ∈ items := by
  induction items with
  | nil => simp [consume]
  | cons i items ih =>
    intro err
    cases i <;> simp [consume, ih]

theorem stopped_stays (id : Id) (e : Event) (q : Query) (h : q.stopped = true) (hg : q.gone = true) :
    (evolve id e q).stopped = true ∧ (evolve id e q).gone = true := by
  cases e <;> simp only [evolve, stopTask, panicTask, pollTask, resetOne] <;>
    (try split) <;> simp [h, hg]

theorem stopped_stays_all (id : Id) (es : List Event) : ∀ q : Query, q.stopped = true →
    q.gone = true → (evolves id es q).stopped = true := by
  induction es with
  | nil => exact fun q h _ => h
  | cons e es ih =>
    intro q h hg
    have := stopped_stays id e q h hg
    exact ih _ this.1 this.2

/-- Whether a running query stops, by the events. -/
theorem stopped_iff (id : Id) (es : List Event) : ∀ q : Query, q.stopped = false →
    ((evolves id es q).stopped = true ↔ q.gone = false ∧
      ∃ (before after : List Event) (b : Bool) (items : List Item),
        es = before ++ .poll id b items :: after ∧ .panic id ∉ before ∧
          (q.signalled = true ∨ .stop id ∈ before ∨ .finish ∈ items)) := by
  induction es with
  | nil =>
    intro q h
    simp [evolves, h]
  | cons e es ih =>
    intro q h
    -- an event that leaves the query as far as stopping goes
    have hkeep : ∀ q' : Query, evolve id e q = q' → q'.stopped = false → q'.gone = q.gone →
        (q'.signalled = true ↔ q.signalled = true ∨ e = .stop id) → e ≠ .panic id →
        (∀ b items, e = .poll id b items → q.gone = true ∨ (q.signalled = false ∧ .finish ∉ items)) →
        ((evolves id (e :: es) q).stopped = true ↔ q.gone = false ∧
          ∃ (before after : List Event) (b : Bool) (items : List Item),
            e :: es = before ++ .poll id b items :: after ∧ .panic id ∉ before ∧
              (q.signalled = true ∨ .stop id ∈ before ∨ .finish ∈ items)) := by
      intro q' hq' h1 h2 h3 h4 h5
      show (evolves id es (evolve id e q)).stopped = true ↔ _
      rw [hq', ih q' h1, h2]
      constructor
      · rintro ⟨hg, before, after, b, items, he, hp, ho⟩
        refine ⟨hg, e :: before, after, b, items, by rw [he]; rfl, ?_, ?_⟩
        · intro hm
          rcases List.mem_cons.1 hm with hm | hm
          · exact h4 hm.symm
          · exact hp hm
        · rcases ho with ho | ho | ho
          · rcases h3.1 ho with h | h
            · exact .inl h
            · exact .inr (.inl (by rw [h]; exact List.mem_cons_self))
          · exact .inr (.inl (List.mem_cons_of_mem _ ho))
          · exact .inr (.inr ho)
      · rintro ⟨hg, before, after, b, items, he, hp, ho⟩
        cases before with
        | nil =>
          simp only [List.nil_append, List.cons.injEq] at he
          rcases h5 b items he.1 with h | ⟨h, hf⟩
          · rw [hg] at h; exact absurd h (by simp)
          · rcases ho with ho | ho | ho
            · rw [h] at ho; exact absurd ho (by simp)
            · exact absurd ho (by simp)
            · exact absurd ho hf
        | cons x before =>
          simp only [List.cons_append, List.cons.injEq] at he
          refine ⟨hg, before, after, b, items, he.2, fun hm => hp (List.mem_cons_of_mem _ hm), ?_⟩
          rcases ho with ho | ho | ho
          · exact .inl (h3.2 (.inl ho))
          · rcases List.mem_cons.1 ho with h | h
            · exact .inl (h3.2 (.inr (he.1.trans h.symm)))
            · exact .inr (.inl h)
          · exact .inr (.inr ho)
    cases e with
    | start j name => exact hkeep q rfl h rfl (by simp) (by simp) (by simp)
    | tick d => exact hkeep q rfl h rfl (by simp) (by simp) (by simp)
    | awaitOne j t => exact hkeep q rfl h rfl (by simp) (by simp) (by simp)
    | awaitAny t => exact hkeep q rfl h rfl (by simp) (by simp) (by simp)
    | waiter w j => exact hkeep q rfl h rfl (by simp) (by simp) (by simp)
    | pollWait w => exact hkeep q rfl h rfl (by simp) (by simp) (by simp)
    | reset => exact hkeep q (by simp [evolve, resetOne, h]) h rfl (by simp) (by simp) (by simp)
    | stop j =>
      by_cases hj : id = j
      · subst hj
        exact hkeep (stopTask q) (by simp [evolve]) h rfl (by simp [stopTask]) (by simp) (by simp)
      · exact hkeep q (by simp [evolve, hj]) h rfl (by simp [Ne.symm hj]) (by simp) (by simp)
    | panic j =>
      by_cases hj : id = j
      · subst hj
        show (evolves id es (evolve id (.panic id) q)).stopped = true ↔ _
        rw [show evolve id (.panic id) q = panicTask q by simp [evolve], ih (panicTask q) h]
        constructor
        · rintro ⟨hg, -⟩; exact absurd hg (by simp [panicTask])
        · rintro ⟨-, before, after, b, items, he, hp, -⟩
          cases before with
          | nil => simp at he
          | cons x before =>
            simp only [List.cons_append, List.cons.injEq] at he
            exact absurd (by rw [← he.1]; exact List.mem_cons_self) hp
      · exact hkeep q (by simp [evolve, hj]) h rfl (by simp) (by simp [Ne.symm hj]) (by simp)
    | poll j b items =>
      by_cases hj : id = j
      · subst hj
        have hev : evolve id (.poll id b items) q = pollTask b items q := by simp [evolve]
        cases hg : q.gone with
        | true =>
          exact hg ▸ hkeep q (by rw [hev]; simp [pollTask, hg]) h rfl (by simp) (by simp)
            (fun _ _ _ => .inl hg)
        | false =>
          by_cases hs : q.signalled = true ∨ .finish ∈ items
          · have hst : (pollTask b items q).stopped = true ∧ (pollTask b items q).gone = true := by
              have hor : ((consume q.error items).2 || q.signalled) = true := by
                rw [Bool.or_eq_true, consume_finish]
                exact hs.symm
              unfold pollTask
              rw [if_neg (by simp [hg])]
              split
              · exact ⟨rfl, rfl⟩
              · simp [hor]
            refine ⟨fun _ => ⟨rfl, [], es, b, items, rfl, by simp, ?_⟩, fun _ => ?_⟩
            · rcases hs with hs | hs
              · exact .inl hs
              · exact .inr (.inr hs)
            · show (evolves id es (evolve id (.poll id b items) q)).stopped = true
              rw [hev]
              exact stopped_stays_all id es _ hst.1 hst.2
          · have hs1 : q.signalled = false := by
              cases hb : q.signalled
              · rfl
              · exact absurd (.inl hb) hs
            have hs2 : .finish ∉ items := fun hf => hs (.inr hf)
            have hr2 : (consume q.error items).2 = false := by
              cases hb : (consume q.error items).2
              · rfl
              · exact absurd ((consume_finish items _).1 hb) hs2
            have := hkeep { q with error := (consume q.error items).1 }
              (by rw [hev]; simp [pollTask, hg, hs1, hr2]) h rfl (by simp) (by simp)
              (fun b' items' he => by
                simp only [Event.poll.injEq, true_and] at he
                obtain ⟨-, rfl⟩ := he
                exact .inr ⟨hs1, hs2⟩)
            rw [hg] at this
            exact this
      · exact hkeep q (by simp [evolve, hj]) h rfl (by simp) (by simp) (fun b' items' he => by
          simp only [Event.poll.injEq] at he
          exact absurd he.1.symm hj)

theorem name_stays (id : Id) (es : List Event) : ∀ q : Query, (evolves id es q).name = q.name := by
  induction es with
  | nil => exact fun q => rfl
  | cons e es ih =>
    intro q
    show (evolves id es (evolve id e q)).name = _
    rw [ih]
    cases e <;> simp only [evolve, stopTask, panicTask, pollTask, resetOne] <;>
      (try split) <;> (try split) <;> (try split) <;> (try split) <;> rfl

/-! ## The table -/

/-- No two queries of the table share a half of their ids. -/
def Apart (l : List (Id × Query)) : Prop :=
  l.Pairwise fun a b => a.1.query ≠ b.1.query ∧ a.1.run ≠ b.1.run

theorem apart_of_keys {l r : List (Id × Query)} (h : Apart l) (hk : r.map (·.1) = l.map (·.1)) :
    Apart r := by
  unfold Apart at *
  have : (l.map (·.1)).Pairwise fun a b => a.query ≠ b.query ∧ a.run ≠ b.run :=
    List.pairwise_map.2 h
  rw [← hk] at this
  exact List.pairwise_map.1 this

theorem keys_modify (id : Id) (f : Query → Query) (l : List (Id × Query)) :
    (modify id f l).map (·.1) = l.map (·.1) := by
  unfold modify
  rw [List.map_map]
  apply List.map_congr_left
  intro e _
  simp only [Function.comp]
  split <;> rfl

theorem apart_step (s : State) (e : Event) (h : Apart s.queries) : Apart (step s e).1.queries := by
  cases e with
  | start j name =>
    simp only [step]
    split
    · rename_i hf
      unfold Apart
      rw [List.pairwise_append]
      refine ⟨h, by simp, ?_⟩
      intro a ha b hb
      simp only [List.mem_singleton] at hb
      subst hb
      unfold fresh at hf
      rw [List.all_eq_true] at hf
      have := hf a ha
      simpa using this
    · exact h
  | stop j =>
    simp only [step]
    split
    · exact h
    · exact apart_of_keys h (keys_modify _ _ _)
  | poll j b items => exact apart_of_keys h (keys_modify _ _ _)
  | panic j => exact apart_of_keys h (keys_modify _ _ _)
  | reset => exact apart_of_keys h (by simp [step, Function.comp_def])
  | tick d => exact h
  | awaitOne j t =>
    simp only [step]
    split
    · exact h
    · split
      · exact h
      · split <;> exact h
  | awaitAny t =>
    simp only [step]
    split <;> exact h
  | waiter w j => exact h
  | pollWait w => exact h

theorem apart_run (es : List Event) : ∀ s : State, Apart s.queries → Apart (run s es).queries := by
  induction es with
  | nil => exact fun s h => h
  | cons e es ih => exact fun s h => ih _ (apart_step s e h)

theorem mem_iff_find {l : List (Id × Query)} (h : Apart l) (id : Id) (q : Query) :
    (id, q) ∈ l ↔ find id l = some q := by
  induction l with
  | nil => simp [find]
  | cons e l ih =>
    unfold Apart at h
    rw [List.pairwise_cons] at h
    unfold find
    rw [List.find?_cons]
    by_cases he : e.1 = id
    · simp only [he, decide_true, Option.map_some, Option.some.injEq, List.mem_cons]
      constructor
      · rintro (h1 | h1)
        · rw [← h1]
        · exact absurd (by rw [he]) (h.1 _ h1).1
      · intro h1
        left
        rw [← he, ← h1]
    · simp only [he, decide_false, List.mem_cons]
      rw [show (Option.map (·.2) (List.find? (fun e => decide (e.1 = id)) l)) = find id l from rfl,
        ← ih h.2]
      constructor
      · rintro (h1 | h1)
        · exact absurd (by rw [← h1]) he
        · exact h1
      · exact fun h1 => .inr h1

theorem find_started (s : State) (id : Id) (name : String) (hf : fresh id s.queries = true) :
    find id (step s (.start id name)).1.queries = some (Query.new name) := by
  simp only [step, hf, if_true, find_append]
  have : find id s.queries = none := by
    unfold find
    rw [Option.map_eq_none_iff, List.find?_eq_none]
    intro e he
    unfold fresh at hf
    rw [List.all_eq_true] at hf
    have h1 := hf e he
    simp only [Bool.and_eq_true, decide_eq_true_eq] at h1
    simp only [decide_eq_true_eq]
    intro h2
    exact h1.1 (by rw [h2])
  rw [this]
  simp [find]

/-- C65: a query is in the listing of active queries, and its status says active, exactly until its
task has come to an end. -/
theorem C65_active_exactly_until_the_end (before es : List Event) (id : Id) (name : String)
    (hf : fresh id (run init before).queries = true) :
    let s := run (run init before) (.start id name :: es)
    ((id, name) ∈ active s ↔ ¬ Ended id es) ∧
    ∃ (message : String) (a : Bool), status s id = some (name, message, a) ∧
      (a = true ↔ ¬ Ended id es) := by
  intro s
  have hfind : find id s.queries = some (evolves id es (Query.new name)) :=
    find_run es _ id _ (find_started _ id name hf)
  have hap : Apart s.queries := apart_run _ _ (apart_run before init .nil)
  have hst : (evolves id es (Query.new name)).stopped = true ↔ Ended id es := by
    rw [stopped_iff id es _ rfl]
    simp only [Query.new, true_and]
    unfold Ended
    simp
  have hname : (evolves id es (Query.new name)).name = name := name_stays id es _
  constructor
  · rw [← hst]
    unfold active
    rw [List.mem_map]
    constructor
    · rintro ⟨⟨j, q⟩, hm, he⟩
      simp only [Prod.mk.injEq] at he
      rw [List.mem_filter] at hm
      rw [he.1, mem_iff_find hap, hfind] at hm
      rw [Option.some.inj hm.1]
      simpa using hm.2
    · intro hn
      refine ⟨(id, _), List.mem_filter.2 ⟨(mem_iff_find hap id _).2 hfind, ?_⟩, ?_⟩
      · simpa using hn
      · simp [hname]
  · refine ⟨_, _, by rw [status, hfind, Option.map_some, hname], ?_⟩
    rw [← hst]
    unfold Query.isActive
    simp

/-- C65: a query that has stopped stays so, whatever happens. -/
theorem C65_stopped_for_good (before es more : List Event) (id : Id) (name : String)
    (hf : fresh id (run init before).queries = true)
    (h : (id, name) ∉ active (run (run init before) (.start id name :: es))) :
    (id, name) ∉ active (run (run init before) (.start id name :: (es ++ more))) := by
  rw [(C65_active_exactly_until_the_end before es id name hf).1, Classical.not_not] at h
  rw [(C65_active_exactly_until_the_end before (es ++ more) id name hf).1, Classical.not_not]
  obtain ⟨a, c, b, items, he, hp, ho⟩ := h
  exact ⟨a, c ++ more, b, items, by rw [he]; simp, hp, ho⟩

/-- C65: the first poll of the task after a stop request stops the query (unless it has panicked). -/
theorem C65_stop_stops (before a c d : List Event) (id : Id) (name : String) (b : Bool)
    (items : List Item) (hf : fresh id (run init before).queries = true)
    (hp : .panic id ∉ a ++ .stop id :: c) :
    (id, name) ∉ active (run (run init before)
      (.start id name :: (a ++ .stop id :: c ++ .poll id b items :: d))) := by
  rw [(C65_active_exactly_until_the_end before _ id name hf).1, Classical.not_not]
  exact ⟨a ++ .stop id :: c, d, b, items, rfl, hp, .inl (by simp)⟩

/-- C65: no query stops but by a stop request for it or the end of its stream; in particular errors and
requests for other queries do not stop it. -/
theorem C65_nothing_else_stops (before es : List Event) (id : Id) (name : String)
    (hf : fresh id (run init before).queries = true) (h1 : .stop id ∉ es)
    (h2 : ∀ b items, .poll id b items ∈ es → .finish ∉ items) :
    (id, name) ∈ active (run (run init before) (.start id name :: es)) := by
  rw [(C65_active_exactly_until_the_end before es id name hf).1]
  rintro ⟨a, c, b, items, he, -, ho⟩
  rcases ho with ho | ho
  · exact h1 (by rw [he]; simp [ho])
  · exact h2 b items (by rw [he]; simp) ho

/-- C65: stopping a query that is not in the table is an error and changes nothing. -/
theorem C65_stop_of_unknown (s : State) (id : Id) (h : find id s.queries = none) :
    step s (.stop id) = (s, .notFound) := by
  simp [step, h]

/-- C65: a started query can be found by its query id, with its name. -/
theorem C65_found_by_query_id (before es : List Event) (id : Id) (name : String)
    (hf : fresh id (run init before).queries = true) :
    getQuery (run (run init before) (.start id name :: es)) id.query = some (id, name) := by
  have hfind : find id (run (run init before) (.start id name :: es)).queries = _ :=
    find_run es _ id _ (find_started _ id name hf)
  have hap : Apart (run (run init before) (.start id name :: es)).queries :=
    apart_run _ _ (apart_run before init .nil)
  have hname : (evolves id es (Query.new name)).name = name := name_stays id es _
  generalize (run (run init before) (.start id name :: es)) = s at hfind hap
  have hm := (mem_iff_find hap id _).2 hfind
  unfold getQuery
  have hx : ∀ l : List (Id × Query), Apart l → ∀ q, (id, q) ∈ l →
      l.find? (fun e => decide (e.1.query = id.query)) = some (id, q) := by
    intro l
    induction l with
    | nil => intro _ q h; exact absurd h (by simp)
    | cons e l ih =>
      intro hl q hq
      unfold Apart at hl
      rw [List.pairwise_cons] at hl
      rcases List.mem_cons.1 hq with h | h
      · rw [List.find?_cons, ← h]
        simp
      · rw [List.find?_cons]
        have := (hl.1 _ h).1
        simp only [this, decide_false]
        exact ih hl.2 q h
  rw [hx _ hap _ hm, Option.map_some, hname]

/-! ## Errors -/

theorem consume_error (items : List Item) : ∀ err, .finish ∉ items →
    (consume err items).1 = (lastError items).or err := by
  induction items with
  | nil => intro err _; rfl
  | cons i items ih =>
    intro err h
    have h' : .finish ∉ items := fun hm => h (List.mem_cons_of_mem _ hm)
    cases i with
    | batch => simp only [consume, ih err h', lastError, List.filterMap_cons]
    | finish => exact absurd List.mem_cons_self h
    | error m =>
      simp only [consume, ih _ h', lastError, List.filterMap_cons]
      rw [List.getLast?_cons]
      cases (List.filterMap (fun i => match i with | .error m => some m | _ => none) items).getLast? <;>
        rfl

/-- C65: the exception of a query that has not been asked to stop is the last error its stream has
returned; the query goes on after an error. -/
theorem C65_exception_is_the_last_error (s : State) (id : Id) (q : Query) (b : Bool)
    (items : List Item) (h : find id s.queries = some q) (hg : q.gone = false)
    (hs : q.signalled = false) (hi : .finish ∉ items) :
    exception (step s (.poll id b items)).1 id = some ((lastError items).or q.error) ∧
      status (step s (.poll id b items)).1 id = some (q.name,
        ((lastError items).or q.error).getD
          (if q.stopped then "The query is not active" else "The query is active"), !q.stopped) := by
  have hr2 : (consume q.error items).2 = false := by
    cases hb : (consume q.error items).2
    · rfl
    · exact absurd ((consume_finish items _).1 hb) hi
  have hf := find_step s (.poll id b items) id q h
  have he : evolve id (.poll id b items) q = { q with error := (lastError items).or q.error } := by
    simp only [evolve, if_true, pollTask, hg, hs, hr2, consume_error items q.error hi]
    simp
  rw [he] at hf
  constructor
  · rw [exception, hf]
    rfl
  · rw [status, hf, Option.map_some]
    simp only [Query.message, Query.isActive]
    cases (lastError items).or q.error <;> rfl

/-! ## Waiting -/

theorem ready_of_evolve (id : Id) (e : Event) (q : Query) (h : handleReady q = true) :
    handleReady (evolve id e q) = true := by
  unfold handleReady at *
  rw [Bool.or_eq_true] at *
  cases e <;> simp only [evolve, stopTask, panicTask, pollTask, resetOne] <;>
    (try split) <;> (try split) <;> (try split) <;> (try split) <;> simp_all

/-- A query whose handle is ready has stopped, or its task has panicked. -/
theorem gone_iff (id : Id) (es : List Event) : ∀ q : Query, (q.gone = true → q.stopped = true) →
    .panic id ∉ es → (evolves id es q).gone = true → (evolves id es q).stopped = true := by
  induction es with
  | nil => exact fun q h _ => h
  | cons e es ih =>
    intro q h hp
    refine ih (evolve id e q) ?_ fun hm => hp (List.mem_cons_of_mem _ hm)
    have hne : e ≠ .panic id := fun he => hp (by rw [he]; exact List.mem_cons_self)
    cases e <;> simp only [evolve, stopTask, panicTask, pollTask, resetOne] <;>
      (try split) <;> (try split) <;> (try split) <;> (try split) <;> simp_all

theorem ready_stopped (before es : List Event) (id : Id) (name : String)
    (hf : fresh id (run init before).queries = true) (hp : .panic id ∉ es)
    (h : readyIn (run (run init before) (.start id name :: es)).queries id = true) :
    Ended id es := by
  have hfind : find id (run (run init before) (.start id name :: es)).queries = _ :=
    find_run es _ id _ (find_started _ id name hf)
  unfold readyIn at h
  rw [hfind] at h
  simp only [handleReady, Bool.or_eq_true] at h
  have hst : (evolves id es (Query.new name)).stopped = true := by
    rcases h with h | h
    · exact h
    · exact gone_iff id es (Query.new name) (by simp [Query.new]) hp h
  rw [stopped_iff id es _ rfl] at hst
  obtain ⟨-, a, c, b, items, he, hp', ho⟩ := hst
  refine ⟨a, c, b, items, he, hp', ?_⟩
  simpa [Query.new] using ho

/-- What is kept of a waiting request: its deadline, the queries it waits for, and that its answer is
right. -/
def WaitOK (ids : List Id) (single : Bool) (deadline : Option Nat) (w : Nat) (s : State) : Prop :=
  ∃ x, s.waits[w]? = some x ∧ x.deadline = deadline ∧
    (match x.target with
      | .one id => single = true ∧ ids = [id]
      | .any l => single = false ∧ l.map (·.1) = ids ∧
          ∀ e ∈ l, e.2 = true → readyIn s.queries e.1 = true) ∧
    (∀ id ∈ ids, (find id s.queries).isSome = true) ∧
    (x.answer = some true → ∃ id ∈ ids, readyIn s.queries id = true) ∧
    (x.answer = some false → (single = false ∧ ids = []) ∨ ∃ d, deadline = some d ∧ d ≤ s.now)

theorem ready_step (s : State) (e : Event) (id : Id) (h : readyIn s.queries id = true)
    (hs : (find id s.queries).isSome = true) : readyIn (step s e).1.queries id = true := by
  obtain ⟨q, hq⟩ := Option.isSome_iff_exists.1 hs
  unfold readyIn at *
  rw [hq] at h
  rw [find_step s e id q hq]
  exact ready_of_evolve id e q h

theorem now_step (s : State) (e : Event) : s.now ≤ (step s e).1.now := by
  cases e with
  | tick d => exact Nat.le_add_right _ _
  | start j name => simp only [step]; split <;> exact Nat.le_refl _
  | stop j => simp only [step]; split <;> exact Nat.le_refl _
  | awaitOne j t =>
    simp only [step]
    split
    · exact Nat.le_refl _
    · split
      · exact Nat.le_refl _
      · split <;> exact Nat.le_refl _
  | awaitAny t => simp only [step]; split <;> exact Nat.le_refl _
  | _ => exact Nat.le_refl _

theorem get_modifyWait (w v : Nat) (f : Wait → Wait) (l : List Wait) :
    (modifyWait w f l)[v]? = if w = v then (l[v]?).map f else l[v]? := by
  unfold modifyWait
  split
  · rename_i x hx
    rw [List.getElem?_set]
    by_cases h : w = v
    · subst h
      obtain ⟨hlt, he⟩ := List.getElem?_eq_some_iff.1 hx
      simp [hlt, he]
    · simp [h]
  · rename_i hx
    by_cases h : w = v
    · subst h; simp [hx]
    · simp [h]

/-- The waiting requests a step leaves as they are. -/
theorem waits_step (s : State) (e : Event) (w : Nat) (x : Wait) (h : s.waits[w]? = some x)
    (h1 : ∀ id, e ≠ .waiter w id) (h2 : e ≠ .pollWait w) : (step s e).1.waits[w]? = some x := by
  have happ : ∀ y, (s.waits ++ [y])[w]? = some x := by
    intro y
    have hlt := (List.getElem?_eq_some_iff.1 h).1
    rw [List.getElem?_append_left hlt, h]
  cases e with
  | start j name => simp only [step]; split <;> exact h
  | stop j => simp only [step]; split <;> exact h
  | awaitOne j t =>
    simp only [step]
    split
    · exact h
    · split
      · exact h
      · split
        · exact happ _
        · exact h
  | awaitAny t =>
    simp only [step]
    split
    · exact h
    · exact happ _
  | waiter v id =>
    have : ¬ v = w := fun hv => h1 id (by rw [hv])
    simp only [step, get_modifyWait, this, if_false, h]
  | pollWait v =>
    have : ¬ v = w := fun hv => h2 (by rw [hv])
    simp only [step, get_modifyWait, this, if_false, h]
  | poll j b items => exact h
  | panic j => exact h
  | reset => exact h
  | tick d => exact h

theorem waitOK_step (ids : List Id) (single : Bool) (deadline : Option Nat) (w : Nat) (s : State)
    (e : Event) (h : WaitOK ids single deadline w s) :
    WaitOK ids single deadline w (step s e).1 := by
  obtain ⟨x, hx, hd, ht, hsome, htrue, hfalse⟩ := h
  have hsome' : ∀ id ∈ ids, (find id (step s e).1.queries).isSome = true := by
    intro id hid
    obtain ⟨q, hq⟩ := Option.isSome_iff_exists.1 (hsome id hid)
    rw [find_step s e id q hq]
    rfl
  have hready : ∀ id ∈ ids, readyIn s.queries id = true → readyIn (step s e).1.queries id = true :=
    fun id hid hr => ready_step s e id hr (hsome id hid)
  have hfalse' : ((single = false ∧ ids = []) ∨ ∃ d, deadline = some d ∧ d ≤ s.now) →
      ((single = false ∧ ids = []) ∨ ∃ d, deadline = some d ∧ d ≤ (step s e).1.now) := by
    rintro (h | ⟨d, h, h'⟩)
    · exact .inl h
    · exact .inr ⟨d, h, Nat.le_trans h' (now_step s e)⟩
  have htrue' : (∃ id ∈ ids, readyIn s.queries id = true) →
      ∃ id ∈ ids, readyIn (step s e).1.queries id = true := by
    rintro ⟨id, hid, hr⟩
    exact ⟨id, hid, hready id hid hr⟩
  by_cases h1 : ∃ id, e = .waiter w id
  · obtain ⟨id, rfl⟩ := h1
    have hw : (step s (.waiter w id)).1.waits[w]? = some (runWaiter s.queries id x) := by
      simp only [step, get_modifyWait, if_true, hx, Option.map_some]
    cases hxt : x.target with
    | one j =>
      rw [hxt] at ht
      have : runWaiter s.queries id x = x := by simp [runWaiter, hxt]
      rw [this] at hw
      exact ⟨x, hw, hd, by rw [hxt]; exact ht, hsome', fun h => htrue' (htrue h),
        fun h => hfalse' (hfalse h)⟩
    | any l =>
      rw [hxt] at ht
      obtain ⟨hs1, hl, hdone⟩ := ht
      have hrw : runWaiter s.queries id x = { x with target := .any (l.map fun e =>
          if e.1 = id ∧ readyIn s.queries id = true then (e.1, true) else e) } := by
        simp [runWaiter, hxt]
      rw [hrw] at hw
      refine ⟨_, hw, hd, ⟨hs1, ?_, ?_⟩, hsome', fun h => htrue' (htrue h),
        fun h => hfalse' (hfalse h)⟩
      · rw [← hl, List.map_map]
        apply List.map_congr_left
        intro e _
        simp only [Function.comp]
        split <;> rfl
      · intro e' he' hd'
        obtain ⟨e, he, hee⟩ := List.mem_map.1 he'
        have hmem : e.1 ∈ ids := by rw [← hl]; exact List.mem_map.2 ⟨e, he, rfl⟩
        by_cases hc : e.1 = id ∧ readyIn s.queries id = true
        · rw [if_pos hc] at hee
          rw [← hee]
          exact hready _ hmem (by rw [hc.1]; exact hc.2)
        · rw [if_neg hc] at hee
          rw [← hee] at hd' ⊢
          exact hready _ hmem (hdone e he hd')
  · by_cases h2 : e = .pollWait w
    · subst h2
      have hw : (step s (.pollWait w)).1.waits[w]? = some (pollWaitOf s.now s.queries x) := by
        simp only [step, get_modifyWait, if_true, hx, Option.map_some]
      cases hxa : x.answer with
      | some a =>
        have : pollWaitOf s.now s.queries x = x := by simp [pollWaitOf, hxa]
        rw [this] at hw
        exact ⟨x, hw, hd, ht, hsome', htrue, hfalse⟩
      | none =>
        have hone : ∀ r, answerOne s.now x.deadline r = some false →
            ∃ d, deadline = some d ∧ d ≤ s.now := by
          intro r hr
          unfold answerOne at hr
          split at hr
          · simp at hr
          · rw [hd] at hr
            split at hr
            · rename_i d
              split at hr
              · rename_i hle
                exact ⟨d, rfl, hle⟩
              · simp at hr
            · simp at hr
        have htr : ∀ r, answerOne s.now x.deadline r = some true → r = true := by
          intro r hr
          unfold answerOne at hr
          split at hr
          · assumption
          · split at hr
            · split at hr <;> simp at hr
            · simp at hr
        cases hxt : x.target with
        | one j =>
          rw [hxt] at ht
          have hrw : pollWaitOf s.now s.queries x =
              { x with answer := answerOne s.now x.deadline (readyIn s.queries j) } := by
            simp [pollWaitOf, hxa, hxt]
          rw [hrw] at hw
          refine ⟨_, hw, hd, by rw [hxt]; exact ht, hsome', ?_, ?_⟩
          · intro h
            exact ⟨j, by rw [ht.2]; simp, htr _ h⟩
          · intro h
            exact .inr (hone _ h)
        | any l =>
          rw [hxt] at ht
          obtain ⟨hs1, hl, hdone⟩ := ht
          have hrw : pollWaitOf s.now s.queries x =
              { x with answer := answerAny s.now x.deadline l } := by
            simp [pollWaitOf, hxa, hxt]
          rw [hrw] at hw
          refine ⟨_, hw, hd, by rw [hxt]; exact ⟨hs1, hl, hdone⟩, hsome', ?_, ?_⟩
          · intro h
            simp only [answerAny] at h
            split at h
            · simp at h
            · obtain ⟨e, he, hee⟩ := List.any_eq_true.1 (htr _ h)
              exact ⟨e.1, by rw [← hl]; exact List.mem_map.2 ⟨e, he, rfl⟩, hdone e he hee⟩
          · intro h
            simp only [answerAny] at h
            split at h
            · rename_i hemp
              rw [List.isEmpty_iff] at hemp
              exact .inl ⟨hs1, by rw [← hl, hemp]; rfl⟩
            · exact .inr (hone _ h)
    · have hw := waits_step s e w x hx (fun id h => h1 ⟨id, h⟩) h2
      refine ⟨x, hw, hd, ?_, hsome', fun h => htrue' (htrue h), fun h => hfalse' (hfalse h)⟩
      split
      · rename_i j hj
        rw [hj] at ht
        exact ht
      · rename_i l hl
        rw [hl] at ht
        obtain ⟨hs1, hl, hdone⟩ := ht
        exact ⟨hs1, hl, fun e he hee =>
          hready _ (by rw [← hl]; exact List.mem_map.2 ⟨e, he, rfl⟩) (hdone e he hee)⟩

theorem waitOK_run (ids : List Id) (single : Bool) (deadline : Option Nat) (w : Nat)
    (es : List Event) : ∀ s : State, WaitOK ids single deadline w s →
      WaitOK ids single deadline w (run s es) := by
  induction es with
  | nil => exact fun s h => h
  | cons e es ih => exact fun s h => ih _ (waitOK_step ids single deadline w s e h)

/-- The queries that have been reset have stopped. -/
def ResetOK (l : List (Id × Query)) : Prop :=
  ∀ id q, find id l = some q → q.awaitable = false → q.stopped = true

theorem reset_evolve (id : Id) (e : Event) (q : Query)
    (h : q.awaitable = false → q.stopped = true) :
    (evolve id e q).awaitable = false → (evolve id e q).stopped = true := by
  cases e <;> simp only [evolve, stopTask, panicTask, pollTask, resetOne] <;>
    (try split) <;> (try split) <;> (try split) <;> (try split) <;> simp_all

theorem reset_evolves (id : Id) (es : List Event) : ∀ q : Query,
    (q.awaitable = false → q.stopped = true) →
    (evolves id es q).awaitable = false → (evolves id es q).stopped = true := by
  induction es with
  | nil => exact fun q h => h
  | cons e es ih => exact fun q h => ih _ (reset_evolve id e q h)

theorem stopped_ended (es : List Event) (id : Id) (name : String)
    (h : (evolves id es (Query.new name)).stopped = true) : Ended id es := by
  rw [stopped_iff id es _ rfl] at h
  obtain ⟨-, a, c, b, items, he, hp', ho⟩ := h
  refine ⟨a, c, b, items, he, hp', ?_⟩
  simpa [Query.new] using ho

theorem run_append (es es' : List Event) : ∀ s : State,
    run s (es ++ es') = run (run s es) es' := by
  induction es with
  | nil => exact fun s => rfl
  | cons e es ih => exact fun s => ih _

/-- C65: a request that waits for a query and is answered at once is told that the query has terminated,
and it has. A request that waits is told so only if the query has stopped (or its task has panicked), and
told otherwise only if it has a timeout that has passed. -/
theorem C65_await_one (before es later : List Event) (id : Id) (name : String) (timeout : Option Int)
    (hf : fresh id (run init before).queries = true) :
    let s := run (run init before) (.start id name :: es)
    match step s (.awaitOne id timeout) with
    | (_, .answer b) => b = true ∧ Ended id es
    | (s', .waiting w) =>
      ∃ x, (run s' later).waits[w]? = some x ∧
        (x.answer = some true → .panic id ∉ es ++ later → Ended id (es ++ later)) ∧
        (x.answer = some false → ∃ v : Nat, timeout = some (v : Int) ∧ s.now + v ≤ (run s' later).now)
    | (_, .invalid) => ∃ v : Int, timeout = some v ∧ v < 0
    | _ => False := by
  intro s
  have hfind : find id s.queries = some (evolves id es (Query.new name)) :=
    find_run es _ id _ (find_started _ id name hf)
  have hs'run : run (run init before) (.start id name :: (es ++ (.awaitOne id timeout :: later))) =
      run (step s (.awaitOne id timeout)).1 later := by
    rw [show (Event.start id name :: (es ++ (.awaitOne id timeout :: later))) =
      (.start id name :: es) ++ (.awaitOne id timeout :: later) from rfl, run_append]
    rfl
  have hev : ∀ t : Option Nat, timeoutMillis timeout = .ok t →
      ∀ d, t.map (s.now + ·) = some d → ∃ v : Nat, timeout = some (v : Int) ∧ d = s.now + v := by
    intro t ht d hd
    unfold timeoutMillis at ht
    split at ht
    · injection ht with ht
      subst ht
      simp at hd
    · rename_i v
      split at ht
      · simp at ht
      · rename_i hv
        injection ht with ht
        subst ht
        simp only [Option.map_some, Option.some.injEq] at hd
        refine ⟨v.toNat, ?_, hd.symm⟩
        rw [Int.toNat_of_nonneg (by omega)]
  cases ht : timeoutMillis timeout with
  | error u =>
    have : step s (.awaitOne id timeout) = (s, .invalid) := by simp [step, ht]
    rw [this]
    unfold timeoutMillis at ht
    split at ht
    · simp at ht
    · rename_i v
      split at ht
      · rename_i hv
        exact ⟨v, rfl, hv⟩
      · simp at ht
  | ok t =>
    cases ha : (evolves id es (Query.new name)).awaitable with
    | false =>
      have : step s (.awaitOne id timeout) = (s, .answer true) := by simp [step, ht, hfind, ha]
      rw [this]
      exact ⟨rfl, stopped_ended es id name (reset_evolves id es _ (by simp [Query.new]) ha)⟩
    | true =>
      have hst : step s (.awaitOne id timeout) =
          ({ s with waits := s.waits ++ [⟨.one id, t.map (s.now + ·), none⟩] },
            .waiting s.waits.length) := by
        simp [step, ht, hfind, ha]
      rw [hst] at hs'run ⊢
      have hok : WaitOK [id] true (t.map (s.now + ·)) s.waits.length
          { s with waits := s.waits ++ [⟨.one id, t.map (s.now + ·), none⟩] } := by
        refine ⟨⟨.one id, t.map (s.now + ·), none⟩, by simp, rfl, ⟨rfl, rfl⟩, ?_, by simp, by simp⟩
        intro j hj
        rw [List.mem_singleton] at hj
        subst hj
        simp [hfind]
      obtain ⟨x, hx, -, -, -, h1, h2⟩ := waitOK_run _ _ _ _ later _ hok
      refine ⟨x, hx, ?_, ?_⟩
      · intro hxa hp
        obtain ⟨j, hj, hr⟩ := h1 hxa
        rw [List.mem_singleton] at hj
        subst hj
        simp only at hs'run
        rw [← hs'run] at hr
        have hend := ready_stopped before (es ++ (.awaitOne j timeout :: later)) j name hf
          (by
            intro hm
            apply hp
            rw [List.mem_append, List.mem_cons] at hm
            rw [List.mem_append]
            rcases hm with hm | hm | hm
            · exact .inl hm
            · exact absurd hm (by simp)
            · exact .inr hm) hr
        obtain ⟨a, c, b, items, he, hp', ho⟩ := hend
        -- drop the request from the history
        rcases List.append_eq_append_iff.1 he with ⟨a', h1, h2⟩ | ⟨c', h1, h2⟩
        · cases a' with
          | nil => simp at h2
          | cons y a' =>
            simp only [List.cons_append, List.cons.injEq] at h2
            refine ⟨es ++ a', c, b, items, by rw [h2.2]; simp, ?_, ?_⟩
            · intro hm
              apply hp'
              rw [h1]
              rcases List.mem_append.1 hm with hm | hm
              · exact List.mem_append_left _ hm
              · exact List.mem_append_right _ (List.mem_cons_of_mem _ hm)
            · rcases ho with ho | ho
              · left
                rw [h1] at ho
                rcases List.mem_append.1 ho with hm | hm
                · exact List.mem_append_left _ hm
                · rcases List.mem_cons.1 hm with hm | hm
                  · rw [← h2.1] at hm
                    exact absurd hm (by simp)
                  · exact List.mem_append_right _ hm
              · exact .inr ho
        · cases c' with
          | nil => simp at h2
          | cons y c' =>
            simp only [List.cons_append, List.cons.injEq] at h2
            exact ⟨a, c' ++ later, b, items, by rw [h1, ← h2.1]; simp, hp', ho⟩
      · intro hxa
        rcases h2 hxa with h | ⟨d, hd, hle⟩
        · exact absurd h.1 (by simp)
        · obtain ⟨v, hv, hdv⟩ := hev t ht d hd
          exact ⟨v, hv, by rw [← hdv]; exact hle⟩

/-- C65: a request that waits for any query is told that one has terminated only if some query that was in
the table and had not been reset has stopped (or its task has panicked), and told otherwise only if its
timeout has passed or there was no such query. -/
theorem C65_await_any (es later : List Event) (timeout : Option Int) :
    let s := run init es
    match step s (.awaitAny timeout) with
    | (s', .waiting w) =>
      ∃ x, (run s' later).waits[w]? = some x ∧
        (x.answer = some true → ∃ id q q', find id s.queries = some q ∧ q.awaitable = true ∧
          find id (run s' later).queries = some q' ∧ (q'.stopped = true ∨ q'.gone = true)) ∧
        (x.answer = some false → (∀ e ∈ s.queries, e.2.awaitable = false) ∨
          ∃ v : Nat, timeout = some (v : Int) ∧ s.now + v ≤ (run s' later).now)
    | (_, .invalid) => ∃ v : Int, timeout = some v ∧ v < 0
    | _ => False := by
  intro s
  have hap : ∀ id q, (id, q) ∈ s.queries → find id s.queries = some q :=
    fun id q => (mem_iff_find (apart_run es init .nil) id q).1
  cases ht : timeoutMillis timeout with
  | error u =>
    have : step s (.awaitAny timeout) = (s, .invalid) := by simp [step, ht]
    rw [this]
    unfold timeoutMillis at ht
    split at ht
    · simp at ht
    · rename_i v
      split at ht
      · rename_i hv
        exact ⟨v, rfl, hv⟩
      · simp at ht
  | ok t =>
    let l := (s.queries.filter fun e => e.2.awaitable).map fun e => (e.1, false)
    let s' : State := { s with waits := s.waits ++ [⟨.any l, t.map (s.now + ·), none⟩] }
    have hst : step s (.awaitAny timeout) = (s', .waiting s.waits.length) := by
      simp only [step, ht]
      rfl
    rw [hst]
    have hmem : ∀ id, id ∈ l.map (·.1) → (find id s.queries).isSome = true ∧
        ∃ q, (id, q) ∈ s.queries ∧ q.awaitable = true := by
      intro id hid
      simp only [l, List.map_map, List.mem_map, List.mem_filter, Function.comp] at hid
      obtain ⟨e, ⟨he, ha⟩, rfl⟩ := hid
      refine ⟨?_, e.2, he, ha⟩
      unfold find
      rw [Option.isSome_map, List.find?_isSome]
      exact ⟨e, he, by simp⟩
    have hok : WaitOK (l.map (·.1)) false (t.map (s.now + ·)) s.waits.length s' := by
      refine ⟨⟨.any l, t.map (s.now + ·), none⟩, by simp [s'], rfl, ⟨rfl, rfl, ?_⟩, ?_, by simp,
        by simp⟩
      · intro e he hee
        simp only [l, List.mem_map] at he
        obtain ⟨e', -, rfl⟩ := he
        simp at hee
      · exact fun id hid => (hmem id hid).1
    obtain ⟨x, hx, -, -, hsome, h1, h2⟩ := waitOK_run _ _ _ _ later _ hok
    refine ⟨x, hx, ?_, ?_⟩
    · intro hxa
      obtain ⟨id, hid, hr⟩ := h1 hxa
      obtain ⟨-, q, hq, ha⟩ := hmem id hid
      obtain ⟨q', hq'⟩ := Option.isSome_iff_exists.1 (hsome id hid)
      refine ⟨id, q, q', hap id q hq, ha, hq', ?_⟩
      unfold readyIn at hr
      rw [hq'] at hr
      simpa [handleReady] using hr
    · intro hxa
      rcases h2 hxa with ⟨-, h⟩ | ⟨d, hd, hle⟩
      · left
        intro e he
        cases hb : e.2.awaitable with
        | false => rfl
        | true =>
          have : e.1 ∈ l.map (·.1) := by
            simp only [l, List.map_map, List.mem_map, List.mem_filter, Function.comp]
            exact ⟨e, ⟨he, hb⟩, rfl⟩
          rw [h] at this
          exact absurd this (by simp)
      · right
        unfold timeoutMillis at ht
        split at ht
        · injection ht with ht
          subst ht
          simp at hd
        · rename_i v
          split at ht
          · simp at ht
          · rename_i hv
            injection ht with ht
            subst ht
            simp only [Option.map_some, Option.some.injEq] at hd
            refine ⟨v.toNat, by rw [Int.toNat_of_nonneg (by omega)], by rw [hd]; exact hle⟩

/-- C65: a request that waits for one query is answered with true when it is polled after the query has
stopped, even if its timeout has passed; one that waits for any query when the waiter of a stopped query
has run. -/
theorem C65_await_is_answered (s : State) (w : Nat) (x : Wait) (id : Id) (q : Query)
    (hx : s.waits[w]? = some x) (hxa : x.answer = none) (hq : find id s.queries = some q)
    (hst : q.stopped = true) :
    (x.target = .one id → ∃ y, (step s (.pollWait w)).1.waits[w]? = some y ∧ y.answer = some true) ∧
    (∀ l b, x.target = .any l → (id, b) ∈ l →
      ∃ y, (run s [.waiter w id, .pollWait w]).waits[w]? = some y ∧ y.answer = some true) := by
  have hr : readyIn s.queries id = true := by simp [readyIn, hq, handleReady, hst]
  constructor
  · intro ht
    refine ⟨{ x with answer := some true }, ?_, rfl⟩
    simp only [step, get_modifyWait, if_true, hx, Option.map_some, pollWaitOf, hxa, ht, answerOne, hr]
  · intro l b ht hl
    refine ⟨_, by
      simp only [run, step, get_modifyWait, if_true, hx, Option.map_some]
      exact rfl, ?_⟩
    simp only [pollWaitOf, runWaiter, ht, hxa, answerAny]
    rw [if_neg]
    · unfold answerOne
      rw [if_pos]
      rw [List.any_eq_true]
      exact ⟨(id, true), List.mem_map.2 ⟨(id, b), hl, by simp [hr]⟩, rfl⟩
    · rw [List.isEmpty_iff]
      intro h
      rw [List.map_eq_nil_iff] at h
      rw [h] at hl
      exact absurd hl (by simp)

/-! ## Examples -/

/-- Two queries; the first is stopped, the second fails and goes on. -/
def exEvents : List Event :=
  [.start ⟨1, 10⟩ "a", .start ⟨2, 20⟩ "b", .poll ⟨1, 10⟩ false [.batch],
   .awaitOne ⟨1, 10⟩ (some 5), .awaitAny none, .stop ⟨1, 10⟩,
   .poll ⟨2, 20⟩ true [.error "x", .batch, .error "y"], .poll ⟨1, 10⟩ true [.batch],
   .tick 9, .pollWait 0, .pollWait 1, .waiter 1 ⟨1, 10⟩, .pollWait 1]

example : active (run init exEvents) = [(⟨2, 20⟩, "b")] ∧
    exception (run init exEvents) ⟨2, 20⟩ = some (some "y") ∧
    (run init exEvents).waits.map (·.answer) = [some true, some true] := by decide +kernel

/-- The hypotheses of the theorems about one query. -/
example : fresh ⟨2, 20⟩ (run init [.start ⟨1, 10⟩ "a"]).queries = true := by decide

/-- A wait that times out. -/
example : (run init [.start ⟨1, 10⟩ "a", .awaitOne ⟨1, 10⟩ (some 5), .tick 4, .pollWait 0, .tick 1,
    .pollWait 0]).waits.map (·.answer) = [some false] := by decide +kernel

/-- A stopped query that has been reset: waiting for it is answered at once. -/
example : (step (run init (exEvents ++ [.reset])) (.awaitOne ⟨1, 10⟩ none)).2 = .answer true := by
  decide +kernel

/-! ## What does not hold -/

/-- C65: waiting for any query without a timeout, when all queries have been reset or none was started,
is answered with false at once (Spark waits for a query that is still to be started). -/
theorem C65_await_any_gives_up (s : State) (h : ∀ e ∈ s.queries, e.2.awaitable = false) :
    ∃ w y, (step s (.awaitAny none)).2 = .waiting w ∧
      (run s [.awaitAny none, .pollWait w]).waits[w]? = some y ∧ y.answer = some false := by
  have hl : (s.queries.filter fun e => e.2.awaitable) = [] := by
    rw [List.filter_eq_nil_iff]
    intro e he
    simp [h e he]
  refine ⟨s.waits.length, ⟨.any [], none, some false⟩, by simp [step, timeoutMillis], ?_, rfl⟩
  simp only [run, step, timeoutMillis, hl, get_modifyWait, if_true]
  simp [pollWaitOf, answerAny]

/-- C65: the negation of "active exactly until it has stopped" for a panic: a query whose task panics is
listed as active for ever, while waiting for it reports that it has terminated. -/
theorem C65_panicked_query_stays_active (es : List Event) (id : Id) (name : String) :
    (id, name) ∈ active (run init (.start id name :: .panic id :: es)) ∧
    ∃ y, (run init [.start id name, .panic id, .awaitOne id none, .pollWait 0]).waits[0]? = some y ∧
      y.answer = some true := by
  constructor
  · refine (C65_active_exactly_until_the_end [] (.panic id :: es) id name (by rfl)).1.2 ?_
    rintro ⟨a, c, b, items, he, hp, -⟩
    cases a with
    | nil => simp at he
    | cons x a =>
      simp only [List.cons_append, List.cons.injEq] at he
      exact hp (by rw [← he.1]; exact List.mem_cons_self)
  · refine ⟨⟨.one id, none, some true⟩, ?_, rfl⟩
    simp [run, step, init, fresh, find, modify, panicTask, Query.new, timeoutMillis, modifyWait,
      pollWaitOf, readyIn, handleReady, answerOne]

end Verif.Connect.Stream
