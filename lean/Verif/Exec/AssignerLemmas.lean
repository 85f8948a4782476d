import Verif.Exec.Assigner
import Mathlib.Data.List.Nodup
import Mathlib.Data.List.Perm.Basic

namespace Verif.Exec.Assign

/-! ## Slots handed out -/

/-- All available (worker, slot) pairs. -/
def flat (av : List (Nat × List Nat)) : List (Nat × Nat) :=
  av.flatMap fun w => w.2.map fun s => (w.1, s)

/-- The worker slots used by a list of assignments. -/
def usedSlots (as : List (TaskSet × Assignment)) : List (Nat × Nat) :=
  as.filterMap fun a => match a.2 with
    | .driver => none
    | .worker id slot => some (id, slot)

theorem nextSlot_none {av : List (Nat × List Nat)} (h : nextSlot av = none) : flat av = [] := by
  induction av with
  | nil => rfl
  | cons w rest ih =>
    obtain ⟨id, slots⟩ := w
    unfold nextSlot at h
    cases hl : slots.getLast? with
    | some s => simp [hl] at h
    | none =>
      simp only [hl, Option.map_eq_none_iff] at h
      have : slots = [] := List.getLast?_eq_none_iff.mp hl
      subst this
      simp [flat] at ih ⊢
      exact ih h

theorem nextSlot_some {av av' : List (Nat × List Nat)} {x : Nat × Nat}
    (h : nextSlot av = some (x, av')) : (flat av).Perm (x :: flat av') := by
  induction av generalizing av' with
  | nil => simp [nextSlot] at h
  | cons w rest ih =>
    obtain ⟨id, slots⟩ := w
    unfold nextSlot at h
    cases hl : slots.getLast? with
    | some s =>
      simp only [hl, Option.some.injEq, Prod.mk.injEq] at h
      obtain ⟨rfl, rfl⟩ := h
      have hs : slots = slots.dropLast ++ [s] := by
        obtain ⟨ys, hys⟩ := List.getLast?_eq_some_iff.mp hl
        rw [hys]; simp
      have : flat ((id, slots) :: rest) =
          (slots.dropLast.map fun s => (id, s)) ++ ((id, s) :: flat rest) := by
        unfold flat
        rw [List.flatMap_cons]
        conv_lhs => rw [hs]
        simp
      rw [this]
      refine List.perm_middle.trans ?_
      simp [flat]
    | none =>
      simp only [hl] at h
      obtain ⟨⟨x', r'⟩, hr, he⟩ := Option.map_eq_some_iff.mp h
      simp only [Prod.mk.injEq] at he
      obtain ⟨rfl, rfl⟩ := he
      have : slots = [] := List.getLast?_eq_none_iff.mp hl
      subst this
      have := ih hr
      simpa [flat] using this

theorem tryAssign_spec (r : Region) (av : List (Nat × List Nat)) :
    match tryAssign av r with
    | (some as, av') => as.map (·.1) = r.map (·.2) ∧
        (as.map fun a => decide (a.2 = .driver)) = r.map (fun x => x.1 == .driver) ∧
        (usedSlots as).length = workerSets r ∧ (flat av).Perm (usedSlots as ++ flat av')
    | (none, _) => (flat av).length < workerSets r := by
  induction r generalizing av with
  | nil => simp [tryAssign, usedSlots, workerSets]
  | cons x rest ih =>
    obtain ⟨pl, set⟩ := x
    cases pl with
    | driver =>
      have := ih av
      unfold tryAssign
      cases hres : tryAssign av rest with
      | mk o av' =>
        rw [hres] at this
        cases o with
        | none => simpa [workerSets] using this
        | some as =>
          obtain ⟨h1, h2, h3, h4⟩ := this
          refine ⟨by simp [h1], by simp [h2], ?_, ?_⟩
          · simpa [usedSlots, workerSets] using h3
          · simpa [usedSlots] using h4
    | worker =>
      unfold tryAssign
      cases hn : nextSlot av with
      | none =>
        have := nextSlot_none hn
        simp [this, workerSets]
      | some y =>
        obtain ⟨⟨id, slot⟩, av1⟩ := y
        have hp := nextSlot_some hn
        have := ih av1
        simp only
        cases hres : tryAssign av1 rest with
        | mk o av' =>
          rw [hres] at this
          cases o with
          | none =>
            simp only [Option.map_none]
            have hl := hp.length_eq
            simp [workerSets] at this hl ⊢
            omega
          | some as =>
            obtain ⟨h1, h2, h3, h4⟩ := this
            refine ⟨by simp [h1], by simp [h2], ?_, ?_⟩
            · simp [usedSlots, workerSets] at h3 ⊢
              exact h3
            · refine hp.trans ?_
              simpa [usedSlots] using h4

theorem assignQueue_spec (q : List Region) (av : List (Nat × List Nat)) :
    ∃ k left, (assignQueue av q).2 = q.drop k ∧
      (assignQueue av q).1.map (·.1) = ((q.take k).flatten).map (·.2) ∧
      ((assignQueue av q).1.map fun a => decide (a.2 = .driver)) =
        ((q.take k).flatten).map (fun x => x.1 == .driver) ∧
      (flat av).Perm (usedSlots (assignQueue av q).1 ++ left) ∧
      (usedSlots (assignQueue av q).1).length = ((q.take k).map workerSets).sum ∧
      ∀ r, (q.drop k).head? = some r → left.length < workerSets r := by
  induction q generalizing av with
  | nil => exact ⟨0, flat av, by simp [assignQueue, usedSlots]⟩
  | cons r rest ih =>
    have hts := tryAssign_spec r av
    unfold assignQueue
    cases hres : tryAssign av r with
    | mk o av' =>
      rw [hres] at hts
      cases o with
      | none => exact ⟨0, flat av, by simp [usedSlots]; exact hts⟩
      | some as =>
        obtain ⟨h1, h2, h3, h4⟩ := hts
        obtain ⟨k, left, i1, i2, i3, i4, i5, i6⟩ := ih av'
        refine ⟨k + 1, left, by simpa using i1, ?_, ?_, ?_, ?_, by simpa using i6⟩
        · simp [h1, i2]
        · simp [h2, i3]
        · refine h4.trans ?_
          have : usedSlots (as ++ (assignQueue av' rest).1) =
              usedSlots as ++ usedSlots (assignQueue av' rest).1 := by
            simp [usedSlots, List.filterMap_append]
          rw [this, List.append_assoc]
          exact List.Perm.append_left _ i4
        · have : usedSlots (as ++ (assignQueue av' rest).1) =
              usedSlots as ++ usedSlots (assignQueue av' rest).1 := by
            simp [usedSlots, List.filterMap_append]
          rw [this]
          simp [h3, i5]

/-! ## Looking up workers -/

theorem worker_setWorker (s : State) (id id' : Nat) (f : Worker → Worker) :
    (s.setWorker id f).worker id' =
      if id' = id then (s.worker id).map f else s.worker id' := by
  unfold State.setWorker State.worker
  simp only
  induction s.workers with
  | nil => simp
  | cons w ws ih =>
    obtain ⟨i, v⟩ := w
    rw [List.map_cons]
    by_cases hi : i = id
    · subst hi
      simp only [if_true, List.lookup_cons]
      by_cases h' : id' = i
      · subst h'; simp
      · have : (id' == i) = false := by simpa using h'
        simp only [this, h', if_false] at ih ⊢
        exact ih
    · simp only [hi, if_false, List.lookup_cons]
      by_cases h' : id' = i
      · subst h'
        simp [hi]
      · have : (id' == i) = false := by simpa using h'
        simp only [this]
        rw [ih]
        by_cases h2 : id' = id
        · subst h2
          simp [this]
        · simp [h2]

/-- Worker identifiers are unique. -/
def Unique (s : State) : Prop := (s.workers.map (·.1)).Nodup

theorem setWorker_ids (s : State) (id : Nat) (f : Worker → Worker) :
    (s.setWorker id f).workers.map (·.1) = s.workers.map (·.1) := by
  unfold State.setWorker
  simp only [List.map_map]
  apply List.map_congr_left
  intro w _
  simp only [Function.comp]
  split <;> rfl

theorem apply_ids (s : State) (a : TaskSet × Assignment) :
    (s.apply a).workers.map (·.1) = s.workers.map (·.1) := by
  unfold State.apply
  split
  · rfl
  · rename_i id slot _
    exact setWorker_ids s id (·.addSet slot a.1)

theorem foldl_apply_ids (as : List (TaskSet × Assignment)) (s : State) :
    (as.foldl State.apply s).workers.map (·.1) = s.workers.map (·.1) := by
  induction as generalizing s with
  | nil => rfl
  | cons a as ih => rw [List.foldl_cons, ih, apply_ids]

theorem track_ids (s : State) (a : TaskSet × Assignment) :
    (s.track a).workers.map (·.1) = s.workers.map (·.1) := by
  unfold State.track
  split
  · rfl
  · exact setWorker_ids s _ _

theorem foldl_track_ids (as : List (TaskSet × Assignment)) (s : State) :
    (as.foldl State.track s).workers.map (·.1) = s.workers.map (·.1) := by
  induction as generalizing s with
  | nil => rfl
  | cons a as ih => rw [List.foldl_cons, ih, track_ids]

theorem runTasks_ids (s : State) : s.runTasks.1.workers.map (·.1) = s.workers.map (·.1) := by
  unfold State.runTasks
  simp only
  rw [foldl_track_ids]
  unfold State.assignTasks
  simp only
  rw [foldl_apply_ids]

theorem lookup_isSome_iff {ws : List (Nat × Worker)} {id : Nat} :
    (ws.lookup id).isSome = true ↔ id ∈ ws.map (·.1) := by
  induction ws with
  | nil => simp
  | cons w ws ih =>
    obtain ⟨i, v⟩ := w
    rw [List.lookup_cons]
    by_cases h : id = i
    · subst h; simp
    · have : (id == i) = false := by simpa using h
      simp only [this]
      rw [ih]; simp [h]

theorem unique_step (s : State) (h : Unique s) (o : Op) : Unique (step s o) := by
  unfold Unique at h ⊢
  cases o with
  | enqueue r => exact h
  | exclude k => exact h
  | runTasks => simp only [step]; rw [runTasks_ids]; exact h
  | unassign k =>
    simp only [step, State.unassign]
    split
    · exact h
    · exact h
    · rw [setWorker_ids]; exact h
  | untrack j st =>
    simp only [step, State.untrack, List.map_map]
    exact h
  | requestWorkers => exact h
  | workerFailedToStart => exact h
  | activate id =>
    simp only [step, State.activateWorker]
    split
    · exact h
    · rename_i hn
      simp only [List.map_append, List.map_cons, List.map_nil]
      refine List.nodup_append'.mpr ⟨h, by simp, ?_⟩
      intro x hx hx'
      simp at hx'
      subst hx'
      exact hn (lookup_isSome_iff.mpr hx)
  | deactivate id => simp only [step, State.deactivateWorker]; rw [setWorker_ids]; exact h

theorem unique_run (ops : List Op) (s : State) (h : Unique s) : Unique (run ops s) := by
  induction ops generalizing s with
  | nil => exact h
  | cons o ops ih => exact ih _ (unique_step s h o)

theorem unique_init (m t : Nat) : Unique (State.init m t) := by simp [Unique, State.init]

theorem lookup_of_mem {ws : List (Nat × Worker)} (h : (ws.map (·.1)).Nodup) {id : Nat} {w : Worker}
    (hm : (id, w) ∈ ws) : ws.lookup id = some w := by
  induction ws with
  | nil => simp at hm
  | cons x ws ih =>
    obtain ⟨i, v⟩ := x
    simp only [List.map_cons, List.nodup_cons] at h
    rw [List.lookup_cons]
    rcases List.mem_cons.mp hm with h1 | h1
    · simp only [Prod.mk.injEq] at h1
      obtain ⟨rfl, rfl⟩ := h1
      simp
    · have : id ≠ i := by
        rintro rfl
        exact h.1 (List.mem_map_of_mem (f := (·.1)) h1)
      have : (id == i) = false := by simpa using this
      simp only [this]
      exact ih h.2 h1

/-! ## Available slots -/

theorem mem_freeSlots {w : Worker} {slot : Nat} :
    slot ∈ freeSlots w ↔ ∃ slots streams, w = .active slots streams ∧ slots[slot]? = some [] := by
  cases w with
  | inactive => simp [freeSlots]
  | active slots streams =>
    unfold freeSlots
    simp only [List.mem_map, List.mem_filter]
    constructor
    · rintro ⟨x, ⟨hx, hv⟩, rfl⟩
      refine ⟨slots, streams, rfl, ?_⟩
      have := List.mem_zipIdx_iff_getElem?.mp hx
      rw [this]
      simpa [vacant] using hv
    · rintro ⟨sl, st, he, h⟩
      obtain ⟨rfl, rfl⟩ := Worker.active.inj he
      exact ⟨([], slot), ⟨List.mem_zipIdx_iff_getElem?.mpr h, by simp [vacant]⟩, rfl⟩

theorem freeSlots_nodup (w : Worker) : (freeSlots w).Nodup := by
  cases w with
  | inactive => simp [freeSlots]
  | active slots streams =>
    unfold freeSlots
    have h1 : (slots.zipIdx.filter fun x => vacant x.1).Sublist slots.zipIdx := List.filter_sublist
    have h2 := h1.map (·.2)
    refine h2.nodup ?_
    rw [List.zipIdx_map_snd]
    exact List.nodup_range'

theorem flat_available (s : State) :
    flat s.available = s.workers.flatMap fun w => (freeSlots w.2).map fun x => (w.1, x) := by
  unfold flat State.available
  induction s.workers with
  | nil => rfl
  | cons w ws ih =>
    rw [List.map_cons, List.filter_cons, List.flatMap_cons]
    by_cases h : (freeSlots w.2).isEmpty = true
    · simp only [h, Bool.not_true, Bool.false_eq_true, if_false]
      rw [ih]
      simp [List.isEmpty_iff.mp h]
    · simp only [h, Bool.not_false, if_true, List.flatMap_cons]
      rw [ih]

theorem flat_available_nodup (s : State) (h : Unique s) : (flat s.available).Nodup := by
  rw [flat_available, List.nodup_flatMap]
  constructor
  · intro w _
    exact (freeSlots_nodup w.2).map fun a b hab => (Prod.mk.inj hab).2
  · have := List.pairwise_map.mp h
    apply List.Pairwise.imp _ this
    intro a b hab x hx hx'
    simp only [List.mem_map] at hx hx'
    obtain ⟨_, _, rfl⟩ := hx
    obtain ⟨_, _, h2⟩ := hx'
    exact hab (Prod.mk.inj h2).1.symm

/-- Content of a slot of an active worker. -/
def slotAt (s : State) (id slot : Nat) : Option (List TKey) :=
  match s.worker id with
  | some (.active slots _) => slots[slot]?
  | _ => none

theorem mem_flat_available (s : State) (h : Unique s) {id slot : Nat}
    (hm : (id, slot) ∈ flat s.available) : slotAt s id slot = some [] := by
  rw [flat_available] at hm
  obtain ⟨w, hw, hm⟩ := List.mem_flatMap.mp hm
  obtain ⟨x, hx, he⟩ := List.mem_map.mp hm
  obtain ⟨rfl, rfl⟩ := Prod.mk.inj he
  obtain ⟨slots, streams, hws, hs⟩ := mem_freeSlots.mp hx
  have := lookup_of_mem h (id := w.1) (w := w.2) hw
  unfold slotAt State.worker
  rw [this, hws]
  exact hs

theorem available_length (s : State) :
    (flat s.available).length = (s.workers.map fun w => w.2.vacantSlots).sum := by
  rw [flat_available, List.length_flatMap]
  congr 1
  apply List.map_congr_left
  intro w _
  rw [List.length_map]
  cases w.2 with
  | inactive => rfl
  | active slots streams =>
    unfold freeSlots Worker.vacantSlots
    simp only [List.length_map]
    have : slots.filter vacant = ((slots.zipIdx.filter fun x => vacant x.1).map (·.1)) := by
      have h := List.filter_map (p := vacant) (f := fun x : List TKey × Nat => x.1) (l := slots.zipIdx)
      rw [List.zipIdx_map_fst] at h
      exact h
    rw [this, List.length_map]

/-! ## Effect of assignments on slots -/

theorem slotAt_apply (s : State) (a : TaskSet × Assignment) (id slot : Nat) :
    slotAt (s.apply a) id slot =
      if a.2 = .worker id slot then (slotAt s id slot).map (addTasks · a.1.tasks)
      else slotAt s id slot := by
  unfold State.apply
  cases ha : a.2 with
  | driver => simp [slotAt, State.worker]
  | worker i sl =>
    simp only
    have hw : ∀ as', ({ s.setWorker i (·.addSet sl a.1) with assigned := as' } : State).worker id =
      (s.setWorker i (·.addSet sl a.1)).worker id := fun _ => rfl
    unfold slotAt
    rw [hw, worker_setWorker]
    by_cases hi : id = i
    · subst hi
      simp only [if_true]
      cases s.worker id with
      | none => simp
      | some w =>
        cases w with
        | inactive => simp [Worker.addSet]
        | active slots streams =>
          simp only [Option.map_some, Worker.addSet, List.getElem?_modify]
          by_cases hs : sl = slot
          · simp [hs]
          · have : ¬ (Assignment.worker id sl = Assignment.worker id slot) := by simpa using hs
            simp [hs]
    · simp only [hi, if_false]
      have : ¬ (Assignment.worker i sl = Assignment.worker id slot) := by
        intro h; exact hi (Assignment.worker.inj h).1.symm
      simp [this]

theorem slotAt_foldl_apply_of_notMem (as : List (TaskSet × Assignment)) (s : State) (id slot : Nat)
    (h : (id, slot) ∉ usedSlots as) : slotAt (as.foldl State.apply s) id slot = slotAt s id slot := by
  induction as generalizing s with
  | nil => rfl
  | cons a as ih =>
    rw [List.foldl_cons]
    have hne : a.2 ≠ .worker id slot := by
      intro he
      apply h
      simp [usedSlots, he]
    have hrest : (id, slot) ∉ usedSlots as := by
      intro hm
      apply h
      unfold usedSlots at hm ⊢
      rw [List.filterMap_cons]
      split
      · exact hm
      · exact List.mem_cons_of_mem _ hm
    rw [ih _ hrest, slotAt_apply]
    simp [hne]

theorem slotAt_foldl_apply_of_mem (as : List (TaskSet × Assignment)) (s : State) (id slot : Nat)
    (hnd : (usedSlots as).Nodup) (set : TaskSet) (hm : (set, .worker id slot) ∈ as) :
    slotAt (as.foldl State.apply s) id slot = (slotAt s id slot).map (addTasks · set.tasks) := by
  induction as generalizing s with
  | nil => simp at hm
  | cons a as ih =>
    rw [List.foldl_cons]
    rcases List.mem_cons.mp hm with rfl | hm
    · have hn : (id, slot) ∉ usedSlots as := by
        simp only [usedSlots, List.filterMap_cons] at hnd
        exact (List.nodup_cons.mp hnd).1
      rw [slotAt_foldl_apply_of_notMem _ _ _ _ hn, slotAt_apply]
      simp
    · have hmem : (id, slot) ∈ usedSlots as :=
        List.mem_filterMap.mpr ⟨_, hm, rfl⟩
      have hnd' : (usedSlots as).Nodup := by
        unfold usedSlots at hnd ⊢
        rw [List.filterMap_cons] at hnd
        split at hnd
        · exact hnd
        · exact (List.nodup_cons.mp hnd).2
      have hne : a.2 ≠ .worker id slot := by
        intro he
        unfold usedSlots at hnd hmem
        rw [List.filterMap_cons, he] at hnd
        exact (List.nodup_cons.mp hnd).1 hmem
      rw [ih _ hnd' hm, slotAt_apply]
      simp [hne]

theorem used_of_run (s : State) (h : Unique s) :
    (usedSlots s.assignTasks.2).Nodup ∧
      ∀ id slot, (id, slot) ∈ usedSlots s.assignTasks.2 → slotAt s id slot = some [] := by
  obtain ⟨k, left, _, _, _, hperm, _, _⟩ := assignQueue_spec s.queue s.available
  have hnd := flat_available_nodup s h
  have hnd' : (usedSlots s.assignTasks.2 ++ left).Nodup := hperm.nodup_iff.mp hnd
  refine ⟨(List.nodup_append'.mp hnd').1, fun id slot hm => ?_⟩
  apply mem_flat_available s h
  exact hperm.mem_iff.mpr (List.mem_append_left _ hm)

theorem mem_addTasks {slot tasks : List TKey} {k : TKey} :
    k ∈ addTasks slot tasks ↔ k ∈ slot ∨ k ∈ tasks := by
  unfold addTasks
  induction tasks generalizing slot with
  | nil => simp
  | cons t tasks ih =>
    rw [List.foldl_cons, ih]
    split
    · rename_i h
      constructor
      · rintro (h' | h')
        · exact Or.inl h'
        · exact Or.inr (by simp [h'])
      · rintro (h' | h')
        · exact Or.inl h'
        · rcases List.mem_cons.mp h' with rfl | h'
          · exact Or.inl h
          · exact Or.inr h'
    · simp only [List.mem_append, List.mem_cons]
      tauto

/-! ## Held tasks and streams -/

/-- The worker is active and has the stream / holds the task. -/
def HoldsStream (s : State) (id : Nat) (k : TKey) : Prop :=
  ∃ slots streams, s.worker id = some (.active slots streams) ∧ k ∈ streams

def HoldsTask (s : State) (id : Nat) (k : TKey) : Prop :=
  ∃ slots streams, s.worker id = some (.active slots streams) ∧ ∃ slot ∈ slots, k ∈ slot

theorem holds_apply (s : State) (a : TaskSet × Assignment) (id : Nat) (k : TKey) :
    (HoldsStream s id k → HoldsStream (s.apply a) id k) ∧
    (HoldsTask s id k → HoldsTask (s.apply a) id k) := by
  unfold State.apply
  cases ha : a.2 with
  | driver => exact ⟨fun h => h, fun h => h⟩
  | worker i sl =>
    simp only
    have hw : ∀ as', ({ s.setWorker i (·.addSet sl a.1) with assigned := as' } : State).worker id =
      (s.setWorker i (·.addSet sl a.1)).worker id := fun _ => rfl
    unfold HoldsStream HoldsTask
    rw [hw, worker_setWorker]
    by_cases hi : id = i
    · subst hi
      simp only [if_true]
      constructor
      · rintro ⟨slots, streams, hs, hk⟩
        exact ⟨_, streams, by rw [hs]; rfl, hk⟩
      · rintro ⟨slots, streams, hs, slot, hsl, hk⟩
        refine ⟨_, streams, by rw [hs]; rfl, ?_⟩
        obtain ⟨n, hn⟩ := List.mem_iff_getElem?.mp hsl
        by_cases hns : sl = n
        · refine ⟨addTasks slot a.1.tasks, ?_, mem_addTasks.mpr (Or.inl hk)⟩
          exact List.mem_iff_getElem?.mpr ⟨n, by simp [hns, hn]⟩
        · exact ⟨slot, List.mem_iff_getElem?.mpr ⟨n, by simp [hns, hn]⟩, hk⟩
    · simp only [hi, if_false]
      exact ⟨fun h => h, fun h => h⟩

theorem holds_foldl_apply (as : List (TaskSet × Assignment)) (s : State) (id : Nat) (k : TKey) :
    (HoldsStream s id k → HoldsStream (as.foldl State.apply s) id k) ∧
    (HoldsTask s id k → HoldsTask (as.foldl State.apply s) id k) := by
  induction as generalizing s with
  | nil => exact ⟨fun h => h, fun h => h⟩
  | cons a as ih =>
    rw [List.foldl_cons]
    exact ⟨fun h => (ih _).1 ((holds_apply s a id k).1 h), fun h => (ih _).2 ((holds_apply s a id k).2 h)⟩

theorem holds_track (s : State) (a : TaskSet × Assignment) (id : Nat) (k : TKey) :
    (HoldsStream s id k → HoldsStream (s.track a) id k) ∧
    (HoldsTask s id k → HoldsTask (s.track a) id k) := by
  unfold State.track
  cases ha : a.2 with
  | driver => exact ⟨fun h => h, fun h => h⟩
  | worker i sl =>
    simp only
    unfold HoldsStream HoldsTask
    rw [worker_setWorker]
    by_cases hi : id = i
    · subst hi
      simp only [if_true]
      constructor
      · rintro ⟨slots, streams, hs, hk⟩
        exact ⟨slots, _, by rw [hs]; rfl, mem_addTasks.mpr (Or.inl hk)⟩
      · rintro ⟨slots, streams, hs, hk⟩
        exact ⟨slots, _, by rw [hs]; rfl, hk⟩
    · simp only [hi, if_false]
      exact ⟨fun h => h, fun h => h⟩

theorem holds_foldl_track (as : List (TaskSet × Assignment)) (s : State) (id : Nat) (k : TKey) :
    (HoldsStream s id k → HoldsStream (as.foldl State.track s) id k) ∧
    (HoldsTask s id k → HoldsTask (as.foldl State.track s) id k) := by
  induction as generalizing s with
  | nil => exact ⟨fun h => h, fun h => h⟩
  | cons a as ih =>
    rw [List.foldl_cons]
    exact ⟨fun h => (ih _).1 ((holds_track s a id k).1 h), fun h => (ih _).2 ((holds_track s a id k).2 h)⟩

theorem holds_runTasks (s : State) (id : Nat) (k : TKey) :
    (HoldsStream s id k → HoldsStream s.runTasks.1 id k) ∧
    (HoldsTask s id k → HoldsTask s.runTasks.1 id k) := by
  have h0 : ∀ q, (HoldsStream s id k → HoldsStream { s with queue := q } id k) ∧
    (HoldsTask s id k → HoldsTask { s with queue := q } id k) := fun _ => ⟨fun h => h, fun h => h⟩
  unfold State.runTasks State.assignTasks
  simp only
  exact ⟨fun h => (holds_foldl_track _ _ id k).1 ((holds_foldl_apply _ _ id k).1 ((h0 _).1 h)),
    fun h => (holds_foldl_track _ _ id k).2 ((holds_foldl_apply _ _ id k).2 ((h0 _).2 h))⟩

theorem worker_activate (s : State) (id id' : Nat) (w : Worker) (h : s.worker id = some w) :
    (s.activateWorker id').worker id = some w := by
  unfold State.activateWorker
  split
  · exact h
  · unfold State.worker at h ⊢
    simp only
    rw [List.lookup_append, h]; rfl

theorem worker_untrack (s : State) (id job : Nat) (stage : Option Nat) :
    (s.untrack job stage).worker id = (s.worker id).map (·.untrack job stage) := by
  unfold State.untrack State.worker
  simp only
  induction s.workers with
  | nil => rfl
  | cons w ws ih =>
    obtain ⟨i, v⟩ := w
    rw [List.map_cons, List.lookup_cons, List.lookup_cons]
    by_cases h : (id == i) = true
    · simp [h]
    · have : (id == i) = false := by simpa using h
      simp only [this]
      exact ih

theorem holdsStream_step (s : State) (o : Op) (id : Nat) (k : TKey)
    (hu : ∀ j st, o = .untrack j st → keepStream j st k = true) (hd : o ≠ .deactivate id)
    (h : HoldsStream s id k) : HoldsStream (step s o) id k := by
  cases o with
  | enqueue r => exact h
  | exclude k => exact h
  | runTasks => exact (holds_runTasks s id k).1 h
  | unassign k' =>
    simp only [step, State.unassign]
    split
    · exact h
    · exact h
    · rename_i i sl _
      obtain ⟨slots, streams, hs, hk⟩ := h
      unfold HoldsStream
      rw [worker_setWorker]
      by_cases hi : id = i
      · subst hi
        exact ⟨_, streams, by rw [if_pos rfl, hs]; rfl, hk⟩
      · exact ⟨slots, streams, by rw [if_neg hi]; exact hs, hk⟩
  | untrack j st =>
    obtain ⟨slots, streams, hs, hk⟩ := h
    refine ⟨slots, streams.filter (keepStream j st), ?_, List.mem_filter.mpr ⟨hk, hu j st rfl⟩⟩
    simp only [step]
    rw [worker_untrack, hs]; rfl
  | requestWorkers => exact h
  | workerFailedToStart => exact h
  | activate id' =>
    obtain ⟨slots, streams, hs, hk⟩ := h
    exact ⟨slots, streams, worker_activate s id id' _ hs, hk⟩
  | deactivate id' =>
    have hne : id ≠ id' := by rintro rfl; exact hd rfl
    obtain ⟨slots, streams, hs, hk⟩ := h
    refine ⟨slots, streams, ?_, hk⟩
    simp only [step, State.deactivateWorker]
    rw [worker_setWorker, if_neg hne]; exact hs

theorem holdsTask_step (s : State) (o : Op) (id : Nat) (k : TKey)
    (hu : o ≠ .unassign k) (hd : o ≠ .deactivate id)
    (h : HoldsTask s id k) : HoldsTask (step s o) id k := by
  cases o with
  | enqueue r => exact h
  | exclude k => exact h
  | runTasks => exact (holds_runTasks s id k).2 h
  | unassign k' =>
    have hkk : k ≠ k' := by rintro rfl; exact hu rfl
    simp only [step, State.unassign]
    split
    · exact h
    · exact h
    · rename_i i sl _
      obtain ⟨slots, streams, hs, slot, hsl, hk⟩ := h
      unfold HoldsTask
      rw [worker_setWorker]
      by_cases hi : id = i
      · subst hi
        refine ⟨_, streams, by rw [if_pos rfl, hs]; rfl, ?_⟩
        obtain ⟨n, hn⟩ := List.mem_iff_getElem?.mp hsl
        by_cases hns : sl = n
        · refine ⟨removeTask slot k', ?_, by simp [removeTask, hk, hkk]⟩
          exact List.mem_iff_getElem?.mpr ⟨n, by simp [hns, hn]⟩
        · exact ⟨slot, List.mem_iff_getElem?.mpr ⟨n, by simp [hns, hn]⟩, hk⟩
      · exact ⟨slots, streams, by rw [if_neg hi]; exact hs, slot, hsl, hk⟩
  | untrack j st =>
    obtain ⟨slots, streams, hs, hk⟩ := h
    refine ⟨slots, streams.filter (keepStream j st), ?_, hk⟩
    simp only [step]
    rw [worker_untrack, hs]; rfl
  | requestWorkers => exact h
  | workerFailedToStart => exact h
  | activate id' =>
    obtain ⟨slots, streams, hs, hk⟩ := h
    exact ⟨slots, streams, worker_activate s id id' _ hs, hk⟩
  | deactivate id' =>
    have hne : id ≠ id' := by rintro rfl; exact hd rfl
    obtain ⟨slots, streams, hs, hk⟩ := h
    refine ⟨slots, streams, ?_, hk⟩
    simp only [step, State.deactivateWorker]
    rw [worker_setWorker, if_neg hne]; exact hs

theorem active_apply (s : State) (a : TaskSet × Assignment) (id : Nat)
    (h : ∃ slots streams, s.worker id = some (.active slots streams)) :
    ∃ slots streams, (s.apply a).worker id = some (.active slots streams) := by
  unfold State.apply
  cases ha : a.2 with
  | driver => exact h
  | worker i sl =>
    simp only
    have hw : ∀ as', ({ s.setWorker i (·.addSet sl a.1) with assigned := as' } : State).worker id =
      (s.setWorker i (·.addSet sl a.1)).worker id := fun _ => rfl
    rw [hw, worker_setWorker]
    obtain ⟨slots, streams, hs⟩ := h
    by_cases hi : id = i
    · subst hi
      exact ⟨_, streams, by rw [if_pos rfl, hs]; rfl⟩
    · exact ⟨slots, streams, by rw [if_neg hi]; exact hs⟩

theorem active_foldl_apply (as : List (TaskSet × Assignment)) (s : State) (id : Nat)
    (h : ∃ slots streams, s.worker id = some (.active slots streams)) :
    ∃ slots streams, (as.foldl State.apply s).worker id = some (.active slots streams) := by
  induction as generalizing s with
  | nil => exact h
  | cons a as ih => exact ih _ (active_apply s a id h)

theorem active_track (s : State) (a : TaskSet × Assignment) (id : Nat)
    (h : ∃ slots streams, s.worker id = some (.active slots streams)) :
    ∃ slots streams, (s.track a).worker id = some (.active slots streams) := by
  unfold State.track
  cases ha : a.2 with
  | driver => exact h
  | worker i sl =>
    simp only
    rw [worker_setWorker]
    obtain ⟨slots, streams, hs⟩ := h
    by_cases hi : id = i
    · subst hi
      exact ⟨slots, _, by rw [if_pos rfl, hs]; rfl⟩
    · exact ⟨slots, streams, by rw [if_neg hi]; exact hs⟩

theorem holdsStream_after_track (as : List (TaskSet × Assignment)) (s : State) (id slot : Nat)
    (set : TaskSet) (k : TKey) (hm : (set, .worker id slot) ∈ as) (hk : k ∈ set.localStreams)
    (h : ∃ slots streams, s.worker id = some (.active slots streams)) :
    HoldsStream (as.foldl State.track s) id k := by
  induction as generalizing s with
  | nil => simp at hm
  | cons a as ih =>
    rw [List.foldl_cons]
    rcases List.mem_cons.mp hm with rfl | hm
    · apply (holds_foldl_track as _ id k).1
      obtain ⟨slots, streams, hs⟩ := h
      refine ⟨slots, addTasks streams set.localStreams, ?_, mem_addTasks.mpr (Or.inr hk)⟩
      simp only [State.track]
      rw [worker_setWorker, if_pos rfl, hs]; rfl
    · exact ih _ hm (active_track s a id h)

end Verif.Exec.Assign
