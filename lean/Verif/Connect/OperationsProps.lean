import Verif.Connect.Operations

/-!
# C62: interrupting operations affects exactly the operations asked for
-/

namespace Verif.Connect.Ops

/-- An execution that has a task on the server: it runs, or waits for its client to come back. -/
def Live (x : Execution) : Prop := x.status = .running ∨ x.status = .away

instance (x : Execution) : Decidable (Live x) := inferInstanceAs (Decidable (_ ∨ _))

/-- The table and the executions agree: keys are unique, an entry is an execution with that id that is
past planning and was not stopped, and every live execution has its entry. -/
structure Inv (s : State) : Prop where
  keys : (s.table.map (·.1)).Nodup
  entry : ∀ e ∈ s.table, ∃ x, s.runs[e.2]? = some x ∧ x.op = e.1 ∧ x.status ≠ .planning ∧
    x.status ≠ .stopped
  live : ∀ (n : Nat) (x : Execution), s.runs[n]? = some x → Live x → (x.op, n) ∈ s.table

theorem lookup_mem {op : String} {n : Nat} {t : List (String × Nat)} (h : lookup op t = some n) :
    (op, n) ∈ t := by
  unfold lookup at h
  cases hf : t.find? fun e => e.1 == op with
  | none => rw [hf] at h; exact absurd h (by simp)
  | some e =>
    rw [hf] at h
    have h1 := List.find?_some hf
    have h2 := List.mem_of_find?_eq_some hf
    simp only [beq_iff_eq] at h1
    simp only [Option.map_some, Option.some.injEq] at h
    rw [← h1, ← h]
    exact h2

theorem keys_inj {t : List (String × Nat)} (hk : (t.map (·.1)).Nodup) {a b : String × Nat}
    (ha : a ∈ t) (hb : b ∈ t) (h : a.1 = b.1) : a = b := by
  induction t with
  | nil => exact absurd ha (by simp)
  | cons e t ih =>
    simp only [List.map_cons, List.nodup_cons, List.mem_map, not_exists, not_and] at hk
    rcases List.mem_cons.1 ha with ha' | ha'
    · rcases List.mem_cons.1 hb with hb' | hb'
      · rw [ha', hb']
      · exact absurd (by rw [← h, ha']) (hk.1 b hb')
    · rcases List.mem_cons.1 hb with hb' | hb'
      · exact absurd (by rw [h, hb']) (hk.1 a ha')
      · exact ih hk.2 ha' hb'

theorem mem_lookup {op : String} {n : Nat} {t : List (String × Nat)} (hk : (t.map (·.1)).Nodup)
    (h : (op, n) ∈ t) : lookup op t = some n := by
  unfold lookup
  cases hf : t.find? fun e => e.1 == op with
  | none =>
    rw [List.find?_eq_none] at hf
    exact absurd (hf _ h) (by simp)
  | some e =>
    have h1 := List.find?_some hf
    have h2 := List.mem_of_find?_eq_some hf
    simp only [beq_iff_eq] at h1
    have : e = (op, n) := keys_inj hk h2 h h1
    rw [this]
    rfl

theorem keys_filter {t : List (String × Nat)} (p : String × Nat → Bool)
    (hk : (t.map (·.1)).Nodup) : ((t.filter p).map (·.1)).Nodup :=
  hk.sublist (List.filter_sublist.map _)

theorem mem_erase {op : String} {t : List (String × Nat)} {e : String × Nat} :
    e ∈ erase op t ↔ e ∈ t ∧ e.1 ≠ op := by
  simp [erase]

theorem getElem?_stopRuns (ns : List Nat) (runs : List Execution) (n : Nat) :
    (stopRuns ns runs)[n]? =
      (runs[n]?).map fun x => if n ∈ ns then { x with status := x.status.stop } else x := by
  simp [stopRuns, List.getElem?_mapIdx]

theorem getElem?_setStatus (m : Nat) (f : Status → Status) (runs : List Execution) (n : Nat) :
    (setStatus m f runs)[n]? =
      (runs[n]?).map fun x => if m = n then { x with status := f x.status } else x := by
  simp only [setStatus, List.getElem?_modify]
  by_cases h : m = n
  · subst h
    simp
  · simp [h]

theorem stop_live (x : Execution) : ¬ Live { x with status := x.status.stop } := by
  unfold Live
  cases hs : x.status <;> simp [Status.stop]

theorem not_live_stop {x : Execution} (h : ¬ Live x) : x.status.stop = x.status := by
  unfold Live at h
  cases hs : x.status <;> simp_all [Status.stop]

theorem inv_init : Inv init := ⟨by simp [init], by simp [init], by simp [init]⟩

/-- Removing the entries that satisfy a condition and stopping their executions keeps the
invariant. -/
theorem inv_remove {s : State} (h : Inv s) (p : String × Nat → Bool) :
    Inv { runs := stopRuns ((s.table.filter p).map (·.2)) s.runs
          table := s.table.filter fun e => !p e } := by
  refine ⟨keys_filter _ h.keys, ?_, ?_⟩
  · intro e he
    simp only [List.mem_filter, Bool.not_eq_true'] at he
    obtain ⟨x, hx, ho, hp, hst⟩ := h.entry e he.1
    refine ⟨x, ?_, ho, hp, hst⟩
    rw [getElem?_stopRuns, hx, Option.map_some, if_neg]
    intro hm
    obtain ⟨e', he', h2⟩ := List.mem_map.1 hm
    simp only [List.mem_filter] at he'
    obtain ⟨x', hx', ho', -⟩ := h.entry e' he'.1
    rw [h2, hx] at hx'
    simp only [Option.some.injEq] at hx'
    have : e' = e := keys_inj h.keys he'.1 he.1 (by rw [← ho, ← ho', hx'])
    rw [this, he.2] at he'
    exact absurd he'.2 (by simp)
  · intro n x hx hl
    rw [getElem?_stopRuns] at hx
    cases hr : s.runs[n]? with
    | none => rw [hr] at hx; exact absurd hx (by simp)
    | some y =>
      rw [hr, Option.map_some, Option.some.injEq] at hx
      split at hx
      · subst hx
        exact absurd hl (stop_live y)
      · rename_i hn
        subst hx
        have := h.live n y hr hl
        simp only [List.mem_filter, Bool.not_eq_true']
        refine ⟨this, ?_⟩
        cases hp : p (y.op, n) with
        | false => rfl
        | true => exact absurd (List.mem_map.2 ⟨_, List.mem_filter.2 ⟨this, hp⟩, rfl⟩) hn

theorem erase_eq {op : String} {n : Nat} {t : List (String × Nat)} (hk : (t.map (·.1)).Nodup)
    (h : lookup op t = some n) :
    (t.filter fun e => e.1 == op).map (·.2) = [n] ∧
      erase op t = t.filter fun e => !(e.1 == op) := by
  have hm := lookup_mem h
  refine ⟨?_, rfl⟩
  have key : ∀ t : List (String × Nat), (t.map (·.1)).Nodup → (op, n) ∈ t →
      t.filter (fun e => e.1 == op) = [(op, n)] := by
    intro t
    induction t with
    | nil => intro _ h; exact absurd h (by simp)
    | cons e t ih =>
      intro hk hm
      have hk' := hk
      simp only [List.map_cons, List.nodup_cons, List.mem_map, not_exists, not_and] at hk
      rcases List.mem_cons.1 hm with he | hm
      · subst he
        rw [List.filter_cons_of_pos (by simp)]
        congr 1
        rw [List.filter_eq_nil_iff]
        intro e he
        simp only [beq_iff_eq]
        exact hk.1 e he
      · rw [List.filter_cons_of_neg, ih hk.2 hm]
        simp only [beq_iff_eq]
        intro he
        exact hk.1 _ hm he.symm
  rw [key t hk hm]
  rfl

/-- Changing the status of one execution by a function that makes nothing live that was not. -/
theorem inv_status {s : State} (h : Inv s) (m : Nat) (f : Status → Status)
    (hf : ∀ x : Execution, s.runs[m]? = some x → Live { x with status := f x.status } → Live x)
    (hp : ∀ x : Execution, s.runs[m]? = some x → x.status ≠ .planning → x.status ≠ .stopped →
      f x.status ≠ .planning ∧ f x.status ≠ .stopped) :
    Inv { s with runs := setStatus m f s.runs } := by
  refine ⟨h.keys, ?_, ?_⟩
  · intro e he
    obtain ⟨x, hx, ho, h1, h2⟩ := h.entry e he
    by_cases hm : m = e.2
    · refine ⟨{ x with status := f x.status }, ?_, ho, ?_⟩
      · simp only [getElem?_setStatus, hx, Option.map_some, if_pos hm]
      · exact hp x (by rw [hm]; exact hx) h1 h2
    · exact ⟨x, by simp only [getElem?_setStatus, hx, Option.map_some, if_neg hm], ho, h1, h2⟩
  · intro n x hx hl
    simp only [getElem?_setStatus] at hx
    cases hr : s.runs[n]? with
    | none => rw [hr] at hx; exact absurd hx (by simp)
    | some y =>
      rw [hr, Option.map_some, Option.some.injEq] at hx
      by_cases hm : m = n
      · rw [if_pos hm] at hx
        subst hx
        have := h.live n y hr (hf y (by rw [hm]; exact hr) hl)
        exact this
      · rw [if_neg hm] at hx
        subst hx
        exact h.live n y hr hl

theorem inv_register {s : State} (h : Inv s) (n : Nat) : Inv (register s n) := by
  unfold register
  cases hr : s.runs[n]? with
  | none => exact h
  | some x =>
    simp only
    split
    case isFalse => exact h
    case isTrue hpl =>
      have hnt : ∀ op, (op, n) ∉ s.table := by
        intro op hm
        obtain ⟨y, hy, -, h1, -⟩ := h.entry _ hm
        rw [hr] at hy
        simp only [Option.some.injEq] at hy
        exact h1 (hy ▸ hpl)
      have hnl : n ∉ (lookup x.op s.table).toList := by
        intro hm
        cases hl : lookup x.op s.table with
        | none => rw [hl] at hm; simp at hm
        | some m =>
          rw [hl] at hm
          simp only [Option.toList_some, List.mem_singleton] at hm
          subst hm
          exact hnt _ (lookup_mem hl)
      refine ⟨?_, ?_, ?_⟩
      · simp only [insert, List.map_cons, List.nodup_cons, List.mem_map, not_exists, not_and]
        exact ⟨fun e he => (mem_erase.1 he).2, keys_filter _ h.keys⟩
      · intro e he
        simp only [insert, List.mem_cons] at he
        rcases he with rfl | he
        · refine ⟨{ x with status := .running }, ?_, rfl, by simp, by simp⟩
          simp only [getElem?_setStatus, getElem?_stopRuns, hr, Option.map_some, if_neg hnl, if_true]
        · obtain ⟨h1, h2⟩ := mem_erase.1 he
          obtain ⟨y, hy, ho, hp, hst⟩ := h.entry e h1
          have hne : n ≠ e.2 := by
            intro hn
            exact hnt e.1 (by rw [hn]; exact h1)
          refine ⟨y, ?_, ho, hp, hst⟩
          simp only [getElem?_setStatus, getElem?_stopRuns, hy, Option.map_some, if_neg hne]
          rw [if_neg]
          intro hm
          cases hl : lookup x.op s.table with
          | none => rw [hl] at hm; simp at hm
          | some m =>
            rw [hl] at hm
            simp only [Option.toList_some, List.mem_singleton] at hm
            obtain ⟨z, hz, ho', -⟩ := h.entry _ (lookup_mem hl)
            simp only at hz ho'
            rw [← hm, hy] at hz
            simp only [Option.some.injEq] at hz
            subst hz
            exact h2 (ho.symm.trans ho')
      · intro k y hy hl
        simp only [getElem?_setStatus, getElem?_stopRuns, Option.map_map] at hy
        cases hk : s.runs[k]? with
        | none => rw [hk] at hy; exact absurd hy (by simp)
        | some z =>
          rw [hk, Option.map_some, Option.some.injEq, Function.comp] at hy
          by_cases hnk : n = k
          · subst hnk
            rw [if_pos rfl, if_neg hnl] at hy
            subst hy
            rw [hr] at hk
            simp only [Option.some.injEq] at hk
            subst hk
            exact List.mem_cons_self
          · rw [if_neg hnk] at hy
            split at hy
            · subst hy
              exact absurd hl (stop_live z)
            · rename_i hnm
              subst hy
              have hm := h.live k z hk hl
              refine List.mem_cons_of_mem _ (mem_erase.2 ⟨hm, ?_⟩)
              intro ho
              simp only at ho
              apply hnm
              rw [ho] at hm
              rw [mem_lookup h.keys hm]
              simp

theorem interruptAll_eq (s : State) : interruptAll s =
    ({ runs := stopRuns ((s.table.filter fun _ => true).map (·.2)) s.runs
       table := s.table.filter fun e => !((fun _ => true) e) },
      opsOf s.runs ((s.table.filter fun _ => true).map (·.2))) := by
  have h1 : s.table.filter (fun _ => true) = s.table := List.filter_eq_self.2 (by simp)
  have h2 : (s.table.filter fun e => !((fun _ => true) e)) = [] := by simp
  rw [h1, h2]
  rfl

theorem inv_step {s : State} (h : Inv s) (e : Event) : Inv (step s e).1 := by
  cases e with
  | request op tags re =>
    refine ⟨h.keys, ?_, ?_⟩
    · intro e he
      obtain ⟨x, hx, hr⟩ := h.entry e he
      refine ⟨x, ?_, hr⟩
      have hlt : e.2 < s.runs.length := (List.getElem?_eq_some_iff.1 hx).1
      simp only [step]
      rw [List.getElem?_append_left hlt]
      exact hx
    · intro n x hx hl
      simp only [step] at hx
      rw [List.getElem?_append] at hx
      split at hx
      · exact h.live n x hx hl
      · rw [List.getElem?_singleton] at hx
        split at hx
        · simp only [Option.some.injEq] at hx
          subst hx
          exact absurd hl (by simp [Live])
        · exact absurd hx (by simp)
  | register n => exact inv_register h n
  | planFails n =>
    refine inv_status h n _ ?_ ?_
    · intro x _ hl
      cases hs : x.status <;> simp_all [Live]
    · intro x _ h1 h2
      simp [h1, h2]
  | finish n =>
    refine inv_status h n _ ?_ ?_
    · intro x _ hl
      cases hs : x.status <;> simp_all [Live, ownChange]
    · intro x _ h1 h2
      cases hs : x.status <;> simp_all [ownChange]
  | fail n =>
    refine inv_status h n _ ?_ ?_
    · intro x _ hl
      cases hs : x.status <;> simp_all [Live, ownChange]
    · intro x _ h1 h2
      cases hs : x.status <;> simp_all [ownChange]
  | leave n =>
    refine inv_status h n _ ?_ ?_
    · intro x _ hl
      cases hs : x.status <;> simp_all [Live, ownChange]
    · intro x _ h1 h2
      cases hs : x.status <;> simp_all [ownChange]
  | reattach op =>
    simp only [step, reattach]
    split
    · split
      · refine inv_status h _ _ ?_ ?_
        · intro x _ hl
          cases hs : x.status <;> simp_all [Live, Status.restart]
        · intro x _ h1 h2
          cases hs : x.status <;> simp_all [Status.restart]
      · exact h
    · exact h
  | release op =>
    simp only [step, release]
    split
    · rename_i n hl
      split
      · have := inv_remove h fun e => e.1 == op
        rw [(erase_eq h.keys hl).1, ← (erase_eq h.keys hl).2] at this
        exact this
      · exact h
    · exact h
  | releaseUntil op => exact h
  | interruptAll =>
    simp only [step, interruptAll_eq]
    exact inv_remove h _
  | interruptTag tag => exact inv_remove h fun e => hasTag s.runs tag e.2
  | interruptOp op =>
    simp only [step, interruptOp]
    split
    · rename_i n hl
      have := inv_remove h fun e => e.1 == op
      rw [(erase_eq h.keys hl).1, ← (erase_eq h.keys hl).2] at this
      exact this
    · exact h

theorem inv_run (es : List Event) : ∀ s, Inv s → Inv (run s es) := by
  induction es with
  | nil => exact fun s h => h
  | cons e es ih => exact fun s h => ih _ (inv_step h e)

/-! ## What an interrupt does -/

namespace Spec

/-- The operations an interrupt asks for: an interrupt and an execution. -/
def Asked : Event → Execution → Prop
  | .interruptAll, _ => True
  | .interruptTag t, x => t ∈ x.tags
  | .interruptOp o, x => x.op = o
  | _, _ => False

/-- The event is an interrupt. -/
def IsInterrupt : Event → Prop
  | .interruptAll => True
  | .interruptTag _ => True
  | .interruptOp _ => True
  | _ => False

end Spec

open Spec

/-- An interrupt removes the entries with a condition that says what was asked for. -/
theorem interrupt_shape {s : State} (h : Inv s) (e : Event) (he : IsInterrupt e) :
    ∃ p : String × Nat → Bool,
      (∀ a ∈ s.table, ∀ x, s.runs[a.2]? = some x → (p a = true ↔ Asked e x)) ∧
      step s e = ({ runs := stopRuns ((s.table.filter p).map (·.2)) s.runs
                    table := s.table.filter fun a => !p a },
        opsOf s.runs ((s.table.filter p).map (·.2))) := by
  cases e with
  | interruptAll => exact ⟨fun _ => true, by simp [Asked], interruptAll_eq s⟩
  | interruptTag tag =>
    refine ⟨fun a => hasTag s.runs tag a.2, ?_, rfl⟩
    intro a _ x hx
    simp [hasTag, hx, Asked]
  | interruptOp op =>
    refine ⟨fun a => a.1 == op, ?_, ?_⟩
    · intro a ha x hx
      obtain ⟨y, hy, ho, -⟩ := h.entry a ha
      rw [hx] at hy
      simp only [Option.some.injEq] at hy
      subst hy
      simp [Asked, ho]
    · simp only [step, interruptOp]
      cases hl : lookup op s.table with
      | some n => rw [(erase_eq h.keys hl).1, ← (erase_eq h.keys hl).2]
      | none =>
        have hnone : s.table.filter (fun a => a.1 == op) = [] := by
          rw [List.filter_eq_nil_iff]
          intro a ha
          simp only [beq_iff_eq]
          intro hop
          have : lookup op s.table = some a.2 := mem_lookup h.keys (by rw [← hop]; exact ha)
          rw [hl] at this
          exact absurd this (by simp)
        have hall : s.table.filter (fun a => !(a.1 == op)) = s.table := by
          rw [List.filter_eq_self]
          intro a ha
          have := (List.filter_eq_nil_iff.1 hnone) a ha
          simpa using this
        rw [hnone, hall]
        simp only [List.map_nil]
        have : stopRuns [] s.runs = s.runs := by
          apply List.ext_getElem?
          intro i
          rw [getElem?_stopRuns]
          cases s.runs[i]? <;> simp
        rw [this]
        rfl
  | _ => exact absurd he (by simp [IsInterrupt])

/-- C62: an interrupt stops exactly the live executions of the session it asks for; every other
execution is left as it is, whatever happened in the session before. -/
theorem C62_interrupt_stops_exactly (es : List Event) (e : Event) (he : IsInterrupt e) (n : Nat)
    (x : Execution) (hx : (run init es).runs[n]? = some x) :
    (Asked e x → Live x →
      (step (run init es) e).1.runs[n]? = some { x with status := .stopped }) ∧
    (¬ (Asked e x ∧ Live x) → (step (run init es) e).1.runs[n]? = some x) := by
  have hi : Inv (run init es) := inv_run es _ inv_init
  obtain ⟨p, hp, hs⟩ := interrupt_shape hi e he
  rw [hs]
  simp only [getElem?_stopRuns, hx, Option.map_some]
  refine ⟨?_, ?_⟩
  · intro ha hl
    have hm := hi.live n x hx hl
    rw [if_pos]
    · rcases hl with hl | hl <;> simp [hl, Status.stop]
    · exact List.mem_map.2 ⟨_, List.mem_filter.2 ⟨hm, (hp _ hm x hx).2 ha⟩, rfl⟩
  · intro hn
    split
    · rename_i hm
      obtain ⟨a, ha, h2⟩ := List.mem_map.1 hm
      obtain ⟨h3, h4⟩ := List.mem_filter.1 ha
      have hask := (hp a h3 x (by rw [h2]; exact hx)).1 h4
      rw [not_live_stop fun hl => hn ⟨hask, hl⟩]
    · rfl

theorem opsOf_entries {s : State} (h : Inv s) (l : List (String × Nat)) (hl : ∀ a ∈ l, a ∈ s.table) :
    opsOf s.runs (l.map (·.2)) = l.map (·.1) := by
  induction l with
  | nil => rfl
  | cons a l ih =>
    obtain ⟨x, hx, ho, -⟩ := h.entry a (hl a (by simp))
    have := ih fun b hb => hl b (by simp [hb])
    simp only [opsOf] at this ⊢
    rw [List.map_cons, List.filterMap_cons, hx, this]
    simp [ho]

/-- C62: an interrupt reports every operation it stops, reports no id twice, and every id it reports
is that of an operation it asks for that was started and that nobody has stopped before. -/
theorem C62_interrupt_reports (es : List Event) (e : Event) (he : IsInterrupt e) :
    (∀ (n : Nat) (x : Execution), (run init es).runs[n]? = some x → Asked e x → Live x →
      x.op ∈ (step (run init es) e).2) ∧
    (step (run init es) e).2.Nodup ∧
    ∀ op ∈ (step (run init es) e).2, ∃ (n : Nat) (x : Execution),
      (run init es).runs[n]? = some x ∧ x.op = op ∧ Asked e x ∧ x.status ≠ .planning ∧
        x.status ≠ .stopped := by
  have hi : Inv (run init es) := inv_run es _ inv_init
  obtain ⟨p, hp, hs⟩ := interrupt_shape hi e he
  rw [hs]
  simp only
  rw [opsOf_entries hi _ fun a ha => (List.mem_filter.1 ha).1]
  refine ⟨?_, keys_filter _ hi.keys, ?_⟩
  · intro n x hx ha hl
    have hm := hi.live n x hx hl
    exact List.mem_map.2 ⟨_, List.mem_filter.2 ⟨hm, (hp _ hm x hx).2 ha⟩, rfl⟩
  · intro op ho
    obtain ⟨a, ha, rfl⟩ := List.mem_map.1 ho
    obtain ⟨h3, h4⟩ := List.mem_filter.1 ha
    obtain ⟨x, hx, h5, h6, h7⟩ := hi.entry a h3
    exact ⟨a.2, x, hx, h5, (hp a h3 x hx).1 h4, h6, h7⟩

/-- C62: once interrupted, an operation is not reported again. -/
theorem C62_interrupt_once (es : List Event) (e : Event) (he : IsInterrupt e) :
    (step (step (run init es) e).1 e).2 = [] := by
  have hi : Inv (run init es) := inv_run es _ inv_init
  obtain ⟨p, hp, hs⟩ := interrupt_shape hi e he
  have hi' := inv_step hi e
  obtain ⟨q, hq, hs'⟩ := interrupt_shape hi' e he
  rw [hs']
  have hnil : (step (run init es) e).1.table.filter q = [] := by
    rw [List.filter_eq_nil_iff]
    intro a ha
    obtain ⟨x, hx, -⟩ := hi'.entry a ha
    rw [hq a ha x hx]
    rw [hs] at ha hx
    simp only [List.mem_filter, Bool.not_eq_true'] at ha
    simp only [getElem?_stopRuns] at hx
    obtain ⟨y, hy, -⟩ := hi.entry a ha.1
    rw [hy, Option.map_some, Option.some.injEq] at hx
    have hAy : Asked e x ↔ Asked e y := by
      subst hx
      split
      · cases e <;> exact Iff.rfl
      · exact Iff.rfl
    rw [hAy, ← hp a ha.1 y hy, ha.2]
    simp
  rw [hnil]
  rfl

/-- C62: nothing but an interrupt that asks for it, a release of its id when it is reattachable, or the start of another
execution with the same id stops an execution. -/
theorem C62_nothing_else_stops (es : List Event) (e : Event) (n : Nat) (x y : Execution)
    (hx : (run init es).runs[n]? = some x) (hl : Live x)
    (hy : (step (run init es) e).1.runs[n]? = some y) (hst : y.status = .stopped) :
    (IsInterrupt e ∧ Asked e x) ∨ (e = .release x.op ∧ x.reattachable = true) ∨
      ∃ (m : Nat) (z : Execution), e = .register m ∧ (run init es).runs[m]? = some z ∧
        z.status = .planning ∧ z.op = x.op := by
  have hi : Inv (run init es) := inv_run es _ inv_init
  generalize run init es = s at hi hx hy
  have hns : x.status ≠ .stopped := by rcases hl with h | h <;> rw [h] <;> simp
  have same : y = x → False := fun h => hns (h ▸ hst)
  have viaStatus : ∀ (m : Nat) (f : Status → Status), f .running ≠ .stopped →
      f .away ≠ .stopped → (setStatus m f s.runs)[n]? = some y → False := by
    intro m f h1 h2 h3
    rw [getElem?_setStatus, hx, Option.map_some, Option.some.injEq] at h3
    split at h3
    · subst h3
      rcases hl with hl | hl
      · rw [hl] at hst; exact h1 hst
      · rw [hl] at hst; exact h2 hst
    · exact same h3.symm
  cases e with
  | request op tags re =>
    exfalso
    simp only [step] at hy
    rw [List.getElem?_append_left (List.getElem?_eq_some_iff.1 hx).1, hx] at hy
    exact same (by simpa using hy.symm)
  | register m =>
    right; right
    simp only [step, register] at hy
    cases hr : s.runs[m]? with
    | none =>
      rw [hr] at hy
      rw [hx] at hy
      exact absurd (Option.some.inj hy).symm same
    | some z =>
      rw [hr] at hy
      simp only at hy
      split at hy
      · rename_i hpl
        refine ⟨m, z, rfl, hr, hpl, ?_⟩
        rw [getElem?_setStatus, getElem?_stopRuns, hx, Option.map_some, Option.map_some,
          Option.some.injEq] at hy
        split at hy
        · subst hy; exact absurd hst (by simp)
        · split at hy
          · rename_i hm
            cases hlk : lookup z.op s.table with
            | none => rw [hlk] at hm; simp at hm
            | some k =>
              rw [hlk] at hm
              simp only [Option.toList_some, List.mem_singleton] at hm
              obtain ⟨w, hw, ho, -⟩ := hi.entry _ (lookup_mem hlk)
              simp only at hw ho
              rw [← hm, hx] at hw
              rw [← ho, Option.some.inj hw]
          · exact absurd hy.symm same
      · rw [hx] at hy
        exact absurd (Option.some.inj hy).symm same
  | planFails m =>
    exact (viaStatus m (fun st => if st = .planning then .failed else st) (by simp) (by simp) hy).elim
  | finish m => exact (viaStatus m _ (by simp [ownChange]) (by simp [ownChange]) hy).elim
  | fail m => exact (viaStatus m _ (by simp [ownChange]) (by simp [ownChange]) hy).elim
  | leave m => exact (viaStatus m _ (by simp [ownChange]) (by simp [ownChange]) hy).elim
  | reattach op =>
    exfalso
    simp only [step, reattach] at hy
    split at hy
    · split at hy
      · exact viaStatus _ _ (by simp [Status.restart]) (by simp [Status.restart]) hy
      · rw [hx] at hy; exact same (Option.some.inj hy).symm
    · rw [hx] at hy; exact same (Option.some.inj hy).symm
  | release op =>
    right; left
    simp only [step, release] at hy
    split at hy
    · rename_i k hk
      split at hy
      · rename_i hcan
        rw [getElem?_stopRuns, hx, Option.map_some, Option.some.injEq] at hy
        split at hy
        · rename_i hm
          simp only [List.mem_singleton] at hm
          obtain ⟨w, hw, ho, -⟩ := hi.entry _ (lookup_mem hk)
          simp only at hw ho
          rw [← hm, hx] at hw
          refine ⟨by rw [← ho, Option.some.inj hw], ?_⟩
          simpa [canReattach, ← hm, hx] using hcan
        · exact absurd hy.symm same
      · rw [hx] at hy; exact absurd (Option.some.inj hy).symm same
    · rw [hx] at hy; exact absurd (Option.some.inj hy).symm same
  | releaseUntil op => rw [show (step s (.releaseUntil op)).1 = s from rfl, hx] at hy
                       exact absurd (Option.some.inj hy).symm same
  | interruptAll => exact .inl ⟨trivial, trivial⟩
  | interruptTag t =>
    left
    refine ⟨trivial, ?_⟩
    obtain ⟨p, hp, hs⟩ := interrupt_shape hi (.interruptTag t) trivial
    rw [hs] at hy
    simp only [getElem?_stopRuns, hx, Option.map_some, Option.some.injEq] at hy
    split at hy
    · rename_i hm
      obtain ⟨a, ha, h2⟩ := List.mem_map.1 hm
      obtain ⟨h3, h4⟩ := List.mem_filter.1 ha
      exact (hp a h3 x (by rw [h2]; exact hx)).1 h4
    · exact absurd hy.symm same
  | interruptOp o =>
    left
    refine ⟨trivial, ?_⟩
    obtain ⟨p, hp, hs⟩ := interrupt_shape hi (.interruptOp o) trivial
    rw [hs] at hy
    simp only [getElem?_stopRuns, hx, Option.map_some, Option.some.injEq] at hy
    split at hy
    · rename_i hm
      obtain ⟨a, ha, h2⟩ := List.mem_map.1 hm
      obtain ⟨h3, h4⟩ := List.mem_filter.1 ha
      exact (hp a h3 x (by rw [h2]; exact hx)).1 h4
    · exact absurd hy.symm same

/-- C62: a request to reattach changes only the operation with its id, and only when that operation
is reattachable. -/
theorem C62_only_reattachable_resume (es : List Event) (op : String) (n : Nat) (x y : Execution)
    (hx : (run init es).runs[n]? = some x)
    (hy : (step (run init es) (.reattach op)).1.runs[n]? = some y) (hxy : y ≠ x) :
    x.op = op ∧ x.reattachable = true := by
  have hi : Inv (run init es) := inv_run es _ inv_init
  generalize run init es = s at hi hx hy
  simp only [step, reattach] at hy
  split at hy
  · rename_i k hk
    split at hy
    · rename_i hcan
      rw [getElem?_setStatus, hx, Option.map_some, Option.some.injEq] at hy
      split at hy
      · rename_i hm
        obtain ⟨w, hw, ho, -⟩ := hi.entry _ (lookup_mem hk)
        simp only at hw ho
        subst hm
        rw [hx] at hw
        refine ⟨by rw [← ho, Option.some.inj hw], ?_⟩
        simpa [canReattach, hx] using hcan
      · exact absurd hy.symm hxy
    · rw [hx] at hy; exact absurd (Option.some.inj hy).symm hxy
  · rw [hx] at hy; exact absurd (Option.some.inj hy).symm hxy

/-- C62: a reattachable operation whose client went away runs again when the client reattaches. -/
example :
    let s := run init [.request "a" [] true, .request "b" [] false, .register 0, .register 1,
      .leave 0, .leave 1]
    s.runs.map (·.status) = [.away, .away] ∧
    (step s (.reattach "a")).1.runs.map (·.status) = [.running, .away] ∧
    (step s (.reattach "b")).1 = s := by decide

/-- Three operations, two with a tag: the interrupt stops the two and reports them. -/
example :
    let s := run init [.request "a" ["x"] true, .request "b" ["y"] true, .request "c" ["x", "y"] false,
      .register 0, .register 2, .register 1, .leave 0]
    (step s (.interruptTag "x")).2 = ["c", "a"] ∧
    (step s (.interruptTag "x")).1.runs.map (·.status) = [.stopped, .running, .stopped] ∧
    (step s .interruptAll).2 = ["b", "c", "a"] ∧ (step s (.interruptOp "b")).2 = ["b"] := by decide

/-! ## What does not hold -/

/-- C62, the negation of the last sentence: an execute request with the id of a running operation is
not refused. It stops the running one, which then is no longer reported by any interrupt. -/
theorem C62_same_id_stops_the_earlier (es : List Event) (n m : Nat) (x y : Execution)
    (hx : (run init es).runs[n]? = some x) (hl : Live x) (hy : (run init es).runs[m]? = some y)
    (hp : y.status = .planning) (hop : y.op = x.op) :
    (step (run init es) (.register m)).1.runs[n]? = some { x with status := .stopped } ∧
    (step (run init es) (.register m)).1.runs[m]? = some { y with status := .running } := by
  have hi : Inv (run init es) := inv_run es _ inv_init
  generalize run init es = s at hi hx hy
  have hm := hi.live n x hx hl
  have hlk := mem_lookup hi.keys hm
  have hne : m ≠ n := by
    rintro rfl
    rw [hx] at hy
    have := Option.some.inj hy
    subst this
    rcases hl with h | h <;> rw [h] at hp <;> exact absurd hp (by simp)
  simp only [step, register, hy]
  rw [if_pos hp]
  simp only [getElem?_setStatus, getElem?_stopRuns, hx, hy, hop, hlk, Option.map_some,
    Option.toList_some, List.mem_singleton]
  refine ⟨?_, ?_⟩
  · rcases hl with h | h <;> simp [hne, h, Status.stop]
  · simp [hne, hop]

/-- Two requests with one id, the first of them running. -/
example :
    let s := run init [.request "a" [] true, .register 0, .request "a" [] true]
    s.runs.map (·.status) = [.running, .planning] ∧
    (step s (.register 1)).1.runs.map (·.status) = [.stopped, .running] := by decide

/-- C62: an operation that is still being planned is not affected by an interrupt of everything, is
not reported, and runs afterwards. -/
theorem C62_planning_escapes_interrupts (es : List Event) (n : Nat) (x : Execution)
    (hx : (run init es).runs[n]? = some x) (hp : x.status = .planning) :
    (run (run init es) [.interruptAll, .register n]).runs[n]? =
      some { x with status := .running } := by
  have h := (C62_interrupt_stops_exactly es .interruptAll trivial n x hx).2
    (by rintro ⟨-, h | h⟩ <;> rw [hp] at h <;> exact absurd h (by simp))
  simp only [run]
  generalize hs : (step (run init es) .interruptAll).1 = s at h ⊢
  have ht : s.table = [] := by rw [← hs]; rfl
  simp only [step, register, h]
  rw [if_pos hp]
  simp [getElem?_setStatus, getElem?_stopRuns, h, ht, lookup]

/-- A request that is being planned when everything is interrupted. -/
example :
    let s := run init [.request "a" [] true]
    (step s .interruptAll).2 = [] ∧
    (run s [.interruptAll, .register 0]).runs.map (·.status) = [.running] := by decide

end Verif.Connect.Ops
