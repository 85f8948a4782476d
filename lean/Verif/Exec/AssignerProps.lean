import Verif.Exec.AssignerLemmas



/-!
# Properties of the task assigner: C08, C09, C10, C13
-/

namespace Verif.Exec.Assign

/-! ## A concrete history used in the examples -/

/-- A region with one worker task set holding two tasks of different stages, and one task set for
the driver. -/
def exampleRegion (job : Nat) : Region :=
  [(.worker, [(⟨job, 0, 0, 0⟩, .localStream), (⟨job, 1, 0, 0⟩, .storage)]),
   (.driver, [(⟨job, 2, 0, 0⟩, .localStream)])]

/-- Two regions wait and a worker with one slot registers. -/
def exampleOps : List Op :=
  [.enqueue (exampleRegion 1), .enqueue (exampleRegion 2), .requestWorkers, .activate 7]

/-! ## C08 -/

/-- C08: in every reachable state, one assignment round gives tasks only to slots that exist on
active workers and are empty, and gives no slot to two task sets. -/
theorem C08_only_vacant_slots_are_used (ops : List Op) (maxCount taskSlots : Nat) :
    let s := run ops (State.init maxCount taskSlots)
    (∀ (set : TaskSet) (id slot : Nat), (set, Assignment.worker id slot) ∈ s.assignTasks.2 →
      ∃ slots streams, s.worker id = some (.active slots streams) ∧ slots[slot]? = some []) ∧
    (s.assignTasks.2.filterMap fun a => match a.2 with
      | .driver => none
      | .worker id slot => some (id, slot)).Nodup := by
  intro s
  have hu := unique_run ops _ (unique_init maxCount taskSlots)
  obtain ⟨h1, h2⟩ := used_of_run s hu
  refine ⟨fun set id slot hm => ?_, h1⟩
  have := h2 id slot (List.mem_filterMap.mpr ⟨_, hm, rfl⟩)
  unfold slotAt at this
  split at this
  · rename_i slots streams hw
    exact ⟨slots, streams, hw, this⟩
  · simp at this

example : (run exampleOps (State.init 3 1)).assignTasks.2 =
    [([(⟨1, 0, 0, 0⟩, .localStream), (⟨1, 1, 0, 0⟩, .storage)], .worker 7 0),
     ([(⟨1, 2, 0, 0⟩, .localStream)], .driver)] := by decide

/-- C08: after the round, the slot given to a task set holds exactly the tasks of that set, and
slots that were not given to a task set hold what they held before. -/
theorem C08_slot_holds_exactly_its_task_set (ops : List Op) (maxCount taskSlots : Nat) :
    let s := run ops (State.init maxCount taskSlots)
    ∀ (id slot : Nat),
    (∀ set : TaskSet, (set, Assignment.worker id slot) ∈ s.assignTasks.2 →
      ∃ slots streams content, s.assignTasks.1.worker id = some (.active slots streams) ∧
        slots[slot]? = some content ∧ ∀ k, k ∈ content ↔ ∃ kind, (k, kind) ∈ set) ∧
    ((∀ set : TaskSet, (set, Assignment.worker id slot) ∉ s.assignTasks.2) →
      ∀ slots streams, s.worker id = some (.active slots streams) →
        ∃ slots' streams', s.assignTasks.1.worker id = some (.active slots' streams') ∧
          slots'[slot]? = slots[slot]?) := by
  intro s id slot
  have hu := unique_run ops _ (unique_init maxCount taskSlots)
  obtain ⟨h1, h2⟩ := used_of_run s hu
  constructor
  · intro set hm
    have hslot := h2 id slot (List.mem_filterMap.mpr ⟨_, hm, rfl⟩)
    have := slotAt_foldl_apply_of_mem s.assignTasks.2
      { s with queue := (assignQueue s.available s.queue).2 } id slot h1 set hm
    have hq : slotAt { s with queue := (assignQueue s.available s.queue).2 } id slot =
      slotAt s id slot := rfl
    rw [hq, hslot] at this
    have he : slotAt s.assignTasks.1 id slot = some (addTasks [] set.tasks) := this
    unfold slotAt at he
    split at he
    · rename_i slots streams hw
      refine ⟨slots, streams, _, hw, he, fun k => ?_⟩
      rw [mem_addTasks]
      simp [TaskSet.tasks]
    · simp at he
  · intro hn slots streams hw
    have hnm : (id, slot) ∉ usedSlots s.assignTasks.2 := by
      intro hm
      obtain ⟨a, ha, he⟩ := List.mem_filterMap.mp hm
      obtain ⟨set, asg⟩ := a
      cases asg with
      | driver => simp at he
      | worker i sl =>
        simp at he
        obtain ⟨rfl, rfl⟩ := he
        exact hn set ha
    have := slotAt_foldl_apply_of_notMem s.assignTasks.2
      { s with queue := (assignQueue s.available s.queue).2 } id slot hnm
    have hq : slotAt { s with queue := (assignQueue s.available s.queue).2 } id slot =
      slotAt s id slot := rfl
    rw [hq] at this
    have he : slotAt s.assignTasks.1 id slot = slotAt s id slot := this
    obtain ⟨slots', streams', hw'⟩ := active_foldl_apply s.assignTasks.2
      { s with queue := (assignQueue s.available s.queue).2 } id ⟨slots, streams, hw⟩
    refine ⟨slots', streams', hw', ?_⟩
    have hw'' : s.assignTasks.1.worker id = some (.active slots' streams') := hw'
    unfold slotAt at he
    rw [hw'', hw] at he
    exact he

example : (run exampleOps (State.init 3 1)).assignTasks.1.worker 7 =
    some (.active [[⟨1, 0, 0, 0⟩, ⟨1, 1, 0, 0⟩]] []) := by decide

/-! ## C09 -/

/-- C09: one assignment round places exactly the task sets of a prefix of the queue, in queue
order, each on the kind of node it asked for; the other regions stay in the queue in the same
order. A region is placed completely or not at all. -/
theorem C09_regions_are_placed_whole_and_in_order (s : State) :
    ∃ placed waiting, s.queue = placed ++ waiting ∧ s.assignTasks.1.queue = waiting ∧
      s.assignTasks.2.map (fun a => (decide (a.2 = .driver), a.1)) =
        placed.flatten.map (fun x => (decide (x.1 = .driver), x.2)) := by
  obtain ⟨k, left, h1, h2, h3, h4, h5, h6⟩ := assignQueue_spec s.queue s.available
  refine ⟨s.queue.take k, s.queue.drop k, (List.take_append_drop k s.queue).symm, ?_, ?_⟩
  · rw [← h1]
    unfold State.assignTasks
    simp only
    have : ∀ (as : List (TaskSet × Assignment)) (t : State),
        (as.foldl State.apply t).queue = t.queue := by
      intro as
      induction as with
      | nil => intro t; rfl
      | cons a as ih =>
        intro t
        rw [List.foldl_cons, ih]
        unfold State.apply
        split <;> rfl
    rw [this]
  · have hz : ∀ (l : List (TaskSet × Assignment)),
        l.map (fun a => (decide (a.2 = .driver), a.1)) =
          (l.map fun a => decide (a.2 = .driver)).zip (l.map (·.1)) := by
      intro l; rw [List.zip_map']
    have hz' : ∀ (l : Region),
        l.map (fun x => (decide (x.1 = .driver), x.2)) =
          (l.map fun x => x.1 == .driver).zip (l.map (·.2)) := by
      intro l; rw [List.zip_map']
      apply List.map_congr_left
      intro x _
      cases x.1 <;> simp
    have e : s.assignTasks.2 = (assignQueue s.available s.queue).1 := rfl
    rw [e, hz, hz', h2, h3]

/-- C09: a region is only left waiting when the vacant slots that remain after placing the regions
before it are too few for it. -/
theorem C09_waits_only_for_lack_of_slots (s : State) (r : Region)
    (h : s.assignTasks.1.queue.head? = some r) :
    ∃ placed waiting, s.queue = placed ++ r :: waiting ∧ s.assignTasks.1.queue = r :: waiting ∧
      (s.workers.map fun w => w.2.vacantSlots).sum <
        ((placed ++ [r]).map workerSets).sum := by
  obtain ⟨k, left, h1, h2, h3, h4, h5, h6⟩ := assignQueue_spec s.queue s.available
  have hq : s.assignTasks.1.queue = (assignQueue s.available s.queue).2 := by
    unfold State.assignTasks
    simp only
    have : ∀ (as : List (TaskSet × Assignment)) (t : State),
        (as.foldl State.apply t).queue = t.queue := by
      intro as
      induction as with
      | nil => intro t; rfl
      | cons a as ih =>
        intro t
        rw [List.foldl_cons, ih]
        unfold State.apply
        split <;> rfl
    rw [this]
  rw [hq, h1] at h
  obtain ⟨waiting, hw⟩ : ∃ w, s.queue.drop k = r :: w := by
    cases hd : s.queue.drop k with
    | nil => rw [hd] at h; simp at h
    | cons a l => rw [hd] at h; simp at h; exact ⟨l, by rw [h]⟩
  refine ⟨s.queue.take k, waiting, ?_, ?_, ?_⟩
  · rw [← hw]; exact (List.take_append_drop k s.queue).symm
  · rw [hq, h1, hw]
  · have hl := h6 r h
    have hp := h4.length_eq
    rw [List.length_append, available_length, h5] at hp
    simp only [List.map_append, List.map_cons, List.map_nil, List.sum_append, List.sum_cons,
      List.sum_nil]
    omega

example : (run exampleOps (State.init 3 1)).assignTasks.1.queue = [exampleRegion 2] := by decide

/-! ## C10 -/

/-- Workers as seen by the driver: the assigner and the number of workers that were launched and
have neither registered nor timed out (state `Pending` of the worker pool,
driver/worker_pool/core.rs:41-148 and 272-296). -/
structure Cluster where
  s : State
  pending : Nat

/-- Events of the driver: `scale_up` (handler.rs: `request_workers` then `start_worker` for each),
a registration (accepted by the pool only for a pending worker, core.rs:103-148), a start timeout
(core.rs:272-296), and any other operation of the assigner. -/
inductive Event
  | scaleUp
  | register (id : Nat)
  | startTimeout
  | other (o : Op)

/-- Operations that are not about starting workers. -/
def Op.plain : Op → Bool
  | .requestWorkers | .workerFailedToStart | .activate _ => false
  | _ => true

def Cluster.step (c : Cluster) : Event → Cluster
  | .scaleUp => ⟨c.s.requestWorkers.1, c.pending + c.s.requestWorkers.2⟩
  | .register id =>
    if 0 < c.pending ∧ (c.s.worker id).isNone then ⟨c.s.activateWorker id, c.pending - 1⟩ else c
  | .startTimeout =>
    if 0 < c.pending then ⟨c.s.workerFailedToStart, c.pending - 1⟩ else c
  | .other o => if o.plain then ⟨Assign.step c.s o, c.pending⟩ else c

/-- `handle_activate` (driver/actor/handler.rs) starts the configured initial workers without
telling the assigner. -/
def Cluster.init (initial maxCount taskSlots : Nat) : Cluster :=
  ⟨State.init maxCount taskSlots, initial⟩

def Cluster.run (es : List Event) (c : Cluster) : Cluster := es.foldl Cluster.step c

theorem activeWorkers_setWorker_le (s : State) (id : Nat) (f : Worker → Worker)
    (hf : ∀ w, (f w).isActive = true → w.isActive = true) :
    (s.setWorker id f).activeWorkers ≤ s.activeWorkers := by
  unfold State.activeWorkers State.setWorker
  simp only
  induction s.workers with
  | nil => simp
  | cons w ws ih =>
    rw [List.map_cons, List.filter_cons, List.filter_cons]
    by_cases hi : w.1 = id
    · simp only [hi, if_true]
      by_cases ha : (f w.2).isActive = true
      · simp [ha, hf _ ha]; simpa using ih
      · simp only [ha, Bool.false_eq_true, if_false]
        split
        · rw [List.length_cons]; omega
        · exact ih
    · simp only [hi, if_false]
      split
      · simp; simpa using ih
      · exact ih

theorem addSet_isActive (w : Worker) (slot : Nat) (set : TaskSet) :
    (w.addSet slot set).isActive = w.isActive := by cases w <;> rfl

theorem track_isActive (w : Worker) (set : TaskSet) : (w.track set).isActive = w.isActive := by
  cases w <;> rfl

theorem apply_counts (s : State) (a : TaskSet × Assignment) :
    (s.apply a).activeWorkers ≤ s.activeWorkers ∧ (s.apply a).requested = s.requested ∧
      (s.apply a).maxCount = s.maxCount := by
  unfold State.apply
  split
  · exact ⟨Nat.le_refl _, rfl, rfl⟩
  · rename_i id slot _
    exact ⟨activeWorkers_setWorker_le s id (·.addSet slot a.1)
      (fun w h => by rwa [addSet_isActive] at h), rfl, rfl⟩

theorem track_counts (s : State) (a : TaskSet × Assignment) :
    (s.track a).activeWorkers ≤ s.activeWorkers ∧ (s.track a).requested = s.requested ∧
      (s.track a).maxCount = s.maxCount := by
  unfold State.track
  split
  · exact ⟨Nat.le_refl _, rfl, rfl⟩
  · rename_i id slot _
    exact ⟨activeWorkers_setWorker_le s id (·.track a.1)
      (fun w h => by rwa [track_isActive] at h), rfl, rfl⟩

theorem foldl_counts (f : State → TaskSet × Assignment → State)
    (hf : ∀ s a, (f s a).activeWorkers ≤ s.activeWorkers ∧ (f s a).requested = s.requested ∧
      (f s a).maxCount = s.maxCount) (as : List (TaskSet × Assignment)) (s : State) :
    (as.foldl f s).activeWorkers ≤ s.activeWorkers ∧ (as.foldl f s).requested = s.requested ∧
      (as.foldl f s).maxCount = s.maxCount := by
  induction as generalizing s with
  | nil => exact ⟨Nat.le_refl _, rfl, rfl⟩
  | cons a as ih =>
    rw [List.foldl_cons]
    obtain ⟨h1, h2, h3⟩ := ih (f s a)
    obtain ⟨g1, g2, g3⟩ := hf s a
    exact ⟨Nat.le_trans h1 g1, h2.trans g2, h3.trans g3⟩

theorem plain_counts (s : State) (o : Op) (h : o.plain = true) :
    (Assign.step s o).activeWorkers ≤ s.activeWorkers ∧ (Assign.step s o).requested = s.requested ∧
      (Assign.step s o).maxCount = s.maxCount := by
  cases o with
  | enqueue r => exact ⟨Nat.le_refl _, rfl, rfl⟩
  | exclude k => exact ⟨Nat.le_refl _, rfl, rfl⟩
  | runTasks =>
    simp only [Assign.step, State.runTasks]
    obtain ⟨h1, h2, h3⟩ := foldl_counts State.track track_counts s.assignTasks.2 s.assignTasks.1
    obtain ⟨g1, g2, g3⟩ := foldl_counts State.apply apply_counts s.assignTasks.2
      { s with queue := (assignQueue s.available s.queue).2 }
    exact ⟨Nat.le_trans h1 g1, h2.trans g2, h3.trans g3⟩
  | unassign k =>
    simp only [Assign.step, State.unassign]
    split
    · exact ⟨Nat.le_refl _, rfl, rfl⟩
    · exact ⟨Nat.le_refl _, rfl, rfl⟩
    · rename_i id slot _
      refine ⟨activeWorkers_setWorker_le s id (·.remove slot k) (fun w h => ?_), rfl, rfl⟩
      cases w <;> simp_all [Worker.remove, Worker.isActive]
  | untrack j st =>
    refine ⟨?_, rfl, rfl⟩
    simp only [Assign.step, State.untrack, State.activeWorkers]
    rw [List.filter_map, List.length_map]
    apply Nat.le_of_eq
    congr 2
    funext w
    simp only [Function.comp]
    cases w.2 <;> rfl
  | requestWorkers => simp [Op.plain] at h
  | workerFailedToStart => simp [Op.plain] at h
  | activate id => simp [Op.plain] at h
  | deactivate id =>
    refine ⟨activeWorkers_setWorker_le s id (fun _ => .inactive) (fun w h => ?_), rfl, rfl⟩
    simp [Worker.isActive] at h

/-- Worker accounting kept by every event when no initial workers are configured. -/
theorem counts_inv (es : List Event) (c : Cluster) (m : Nat) (hm : 0 < m)
    (h : c.pending = c.s.requested ∧ c.s.requested + c.s.activeWorkers ≤ m ∧ c.s.maxCount = m) :
    (c.run es).pending = (c.run es).s.requested ∧
      (c.run es).s.requested + (c.run es).s.activeWorkers ≤ m ∧ (c.run es).s.maxCount = m := by
  induction es generalizing c with
  | nil => exact h
  | cons e es ih =>
    apply ih
    obtain ⟨h1, h2, h3⟩ := h
    cases e with
    | scaleUp =>
      have ha : c.s.requestWorkers.1.activeWorkers = c.s.activeWorkers := rfl
      have hr : c.s.requestWorkers.1.requested = c.s.requested + c.s.requiredWorkers := rfl
      have hle : c.s.requiredWorkers ≤ m - c.s.requested - c.s.activeWorkers := by
        unfold State.requiredWorkers
        simp only
        rw [if_neg (by omega), h3]
        exact Nat.min_le_right _ _
      refine ⟨?_, ?_, h3⟩
      · simp only [Cluster.step]; rw [hr, h1]; rfl
      · simp only [Cluster.step]; rw [hr, ha]; omega
    | register id =>
      simp only [Cluster.step]
      split
      · rename_i hc
        have hn : (c.s.worker id).isSome = false := by
          have := hc.2; cases hh : c.s.worker id <;> simp_all
        have hact : (c.s.activateWorker id).activeWorkers = c.s.activeWorkers + 1 := by
          unfold State.activateWorker
          simp only [hn, Bool.false_eq_true, if_false]
          unfold State.activeWorkers
          simp [List.filter_append, Worker.isActive]
        have hreq : (c.s.activateWorker id).requested = c.s.requested - 1 := by
          unfold State.activateWorker; split <;> rfl
        have hmax : (c.s.activateWorker id).maxCount = c.s.maxCount := by
          unfold State.activateWorker; split <;> rfl
        refine ⟨?_, ?_, ?_⟩
        · simp only; rw [hreq]; omega
        · simp only; rw [hreq, hact]; omega
        · simp only; rw [hmax]; exact h3
      · exact ⟨h1, h2, h3⟩
    | startTimeout =>
      simp only [Cluster.step]
      split
      · have hreq : c.s.workerFailedToStart.requested = c.s.requested - 1 := rfl
        have hact : c.s.workerFailedToStart.activeWorkers = c.s.activeWorkers := rfl
        refine ⟨?_, ?_, h3⟩
        · simp only; rw [hreq]; omega
        · simp only; rw [hreq, hact]; omega
      · exact ⟨h1, h2, h3⟩
    | other o =>
      simp only [Cluster.step]
      split
      · rename_i hp
        obtain ⟨g1, g2, g3⟩ := plain_counts c.s o hp
        refine ⟨?_, ?_, ?_⟩
        · simp only; rw [g2]; exact h1
        · simp only; rw [g2]; omega
        · simp only; rw [g3]; exact h3
      · exact ⟨h1, h2, h3⟩

/-- C10 (partial: only when no initial workers are configured): at every point of every history,
launched-but-unregistered workers plus active workers stay within the configured maximum. -/
theorem C10_worker_limit_partial (es : List Event) (maxCount taskSlots : Nat) (h : 0 < maxCount) :
    let c := (Cluster.init 0 maxCount taskSlots).run es
    c.pending + (c.s.workers.filter fun w => w.2.isActive).length ≤ maxCount := by
  intro c
  obtain ⟨h1, h2, h3⟩ := counts_inv es (Cluster.init 0 maxCount taskSlots) maxCount h
    ⟨rfl, by simp [Cluster.init, State.init, State.activeWorkers], rfl⟩
  have h2' : c.s.requested + (c.s.workers.filter fun w => w.2.isActive).length ≤ maxCount := h2
  have h1' : c.pending = c.s.requested := h1
  omega

/-- C10 is violated with initial workers: with `worker_initial_count = worker_max_count = n`, a
job that arrives before the initial workers have registered and asks for `n` workers launches `n`
more. -/
theorem C10_initial_workers_are_not_counted (n : Nat) :
    let c := (Cluster.init n n 1).run
      [.other (.enqueue (List.replicate n (.worker, [])))  , .scaleUp]
    c.pending = 2 * n := by
  intro c
  have hc : c.pending = n + (State.enqueue (State.init n 1)
      (List.replicate n (Placement.worker, []))).requiredWorkers := rfl
  rw [hc]
  unfold State.requiredWorkers
  simp [State.enqueue, State.init, workerSets, State.activeWorkers]
  omega

example : ((Cluster.init 0 2 1).run
    [.other (.enqueue (exampleRegion 1)), .other (.enqueue (exampleRegion 2)),
     .other (.enqueue (exampleRegion 3)), .scaleUp, .register 7]).pending = 1 := by decide

/-! ## C13 -/

theorem holdsStream_run (ops : List Op) (s : State) (id : Nat) (k : TKey)
    (h : HoldsStream s id k) (hd : Op.deactivate id ∉ ops)
    (hu : ∀ j st, Op.untrack j st ∈ ops → keepStream j st k = true) : HoldsStream (run ops s) id k := by
  induction ops generalizing s with
  | nil => exact h
  | cons o ops ih =>
    have hs := holdsStream_step s o id k (fun j st he => hu j st (by simp [he]))
      (fun he => hd (by simp [he])) h
    exact ih _ hs (fun hm => hd (List.mem_cons_of_mem _ hm))
      (fun j st hm => hu j st (List.mem_cons_of_mem _ hm))

theorem holdsTask_run (ops : List Op) (s : State) (id : Nat) (k : TKey)
    (h : HoldsTask s id k) (hd : Op.deactivate id ∉ ops) (hu : Op.unassign k ∉ ops) :
    HoldsTask (run ops s) id k := by
  induction ops generalizing s with
  | nil => exact h
  | cons o ops ih =>
    have hs := holdsTask_step s o id k (fun he => hu (by simp [he]))
      (fun he => hd (by simp [he])) h
    exact ih _ hs (fun hm => hd (List.mem_cons_of_mem _ hm))
      (fun hm => hu (List.mem_cons_of_mem _ hm))

/-- C13: once a task with an in-memory output has been placed on a worker, the worker is not
considered idle, whatever happens afterwards, until the output is released by a clean-up of its
job or of its stage (or the worker is stopped for another reason). -/
theorem C13_worker_with_output_is_not_idle (before after : List Op) (maxCount taskSlots : Nat)
    (set : TaskSet) (k : TKey) (id slot : Nat)
    (hset : (set, Assignment.worker id slot) ∈ (run before (State.init maxCount taskSlots)).runTasks.2)
    (hk : (k, OutKind.localStream) ∈ set)
    (hstop : Op.deactivate id ∉ after)
    (hjob : Op.untrack k.job none ∉ after) (hstage : Op.untrack k.job (some k.stage) ∉ after) :
    (run (before ++ .runTasks :: after) (State.init maxCount taskSlots)).isIdle id = false := by
  have hrun : run (before ++ .runTasks :: after) (State.init maxCount taskSlots) =
      run after (run before (State.init maxCount taskSlots)).runTasks.1 := by
    simp [run, List.foldl_append, step]
  rw [hrun]
  obtain ⟨h1, _⟩ := C08_only_vacant_slots_are_used before maxCount taskSlots
  obtain ⟨slots, streams, hw, _⟩ := h1 set id slot hset
  have hact := active_foldl_apply
    (run before (State.init maxCount taskSlots)).assignTasks.2
    { (run before (State.init maxCount taskSlots)) with
      queue := (assignQueue (run before (State.init maxCount taskSlots)).available
        (run before (State.init maxCount taskSlots)).queue).2 } id ⟨slots, streams, hw⟩
  have hmem : k ∈ set.localStreams := by
    unfold TaskSet.localStreams
    exact List.mem_map.mpr ⟨_, List.mem_filter.mpr ⟨hk, by simp⟩, rfl⟩
  have hold : HoldsStream (run before (State.init maxCount taskSlots)).runTasks.1 id k :=
    holdsStream_after_track _ _ id slot set k hset hmem hact
  obtain ⟨sl, st, hws, hks⟩ := holdsStream_run after _ id k hold hstop (by
    intro j stg hm
    cases stg with
    | none =>
      simp only [keepStream, bne_iff_ne, ne_eq]
      intro he
      subst he
      exact hjob hm
    | some st =>
      simp only [keepStream, Bool.or_eq_true, bne_iff_ne, ne_eq]
      by_cases hj : k.job = j
      · right
        intro hs
        subst hj; subst hs
        exact hstage hm
      · exact Or.inl hj)
  unfold State.isIdle
  rw [hws]
  simp only [Bool.and_eq_false_iff]
  right
  cases st with
  | nil => simp at hks
  | cons a l => rfl

/-- C13: once a task has been placed on a worker, the worker is not considered idle, whatever
happens afterwards, until the task is unassigned (or the worker is stopped). -/
theorem C13_worker_with_task_is_not_idle (before after : List Op) (maxCount taskSlots : Nat)
    (set : TaskSet) (k : TKey) (kind : OutKind) (id slot : Nat)
    (hset : (set, Assignment.worker id slot) ∈ (run before (State.init maxCount taskSlots)).runTasks.2)
    (hk : (k, kind) ∈ set)
    (hstop : Op.deactivate id ∉ after) (hun : Op.unassign k ∉ after) :
    (run (before ++ .runTasks :: after) (State.init maxCount taskSlots)).isIdle id = false := by
  have hrun : run (before ++ .runTasks :: after) (State.init maxCount taskSlots) =
      run after (run before (State.init maxCount taskSlots)).runTasks.1 := by
    simp [run, List.foldl_append, step]
  rw [hrun]
  obtain ⟨h1, _⟩ := C08_slot_holds_exactly_its_task_set before maxCount taskSlots id slot
  obtain ⟨slots, streams, content, hw, hs, hc⟩ := h1 set hset
  have hold0 : HoldsTask (run before (State.init maxCount taskSlots)).assignTasks.1 id k :=
    ⟨slots, streams, hw, content, List.mem_iff_getElem?.mpr ⟨slot, hs⟩, (hc k).mpr ⟨kind, hk⟩⟩
  have hold := (holds_foldl_track (run before (State.init maxCount taskSlots)).assignTasks.2
    _ id k).2 hold0
  obtain ⟨sl, st, hws, s', hs', hks⟩ := holdsTask_run after _ id k hold hstop hun
  unfold State.isIdle
  have hws' : (run after (run before (State.init maxCount taskSlots)).runTasks.1).worker id =
    some (.active sl st) := hws
  rw [hws']
  simp only [Bool.and_eq_false_iff]
  left
  rw [List.all_eq_false]
  refine ⟨s', hs', ?_⟩
  cases s' with
  | nil => simp at hks
  | cons a l => simp [vacant]

example : (run (exampleOps ++ [.runTasks]) (State.init 3 1)).isIdle 7 = false ∧
    (run (exampleOps ++ [.runTasks, .exclude ⟨2, 0, 0, 0⟩, .unassign ⟨1, 0, 0, 0⟩,
      .unassign ⟨1, 1, 0, 0⟩, .untrack 1 (some 1)]) (State.init 3 1)).isIdle 7 = false ∧
    (run (exampleOps ++ [.runTasks, .exclude ⟨2, 0, 0, 0⟩, .unassign ⟨1, 0, 0, 0⟩,
      .unassign ⟨1, 1, 0, 0⟩, .untrack 1 (some 0)]) (State.init 3 1)).isIdle 7 = true := by decide

/-- C13: a worker on which nothing was ever placed is idle as soon as it registers (the probe can
stop it). -/
theorem C13_fresh_worker_is_idle (s : State) (id : Nat) (h : s.worker id = none) :
    (s.activateWorker id).isIdle id = true := by
  have : (s.activateWorker id).worker id = some (.active (List.replicate s.taskSlots []) []) := by
    unfold State.activateWorker
    rw [h]
    unfold State.worker at h ⊢
    simp [List.lookup_append, h]
  unfold State.isIdle
  rw [this]
  simp [vacant]

end Verif.Exec.Assign
