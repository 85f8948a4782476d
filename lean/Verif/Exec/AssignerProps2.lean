import Verif.Exec.AssignerProps

/-! # Further properties of the task assigner: C45, C46, C08 (driver) -/

namespace Verif.Exec.Assign

/-! ## C45: enough workers are requested -/

/-- The worker slots that the waiting regions need. -/
def Spec.demand (s : State) : Nat := (s.queue.map fun r => (r.filter fun x => x.1 == .worker).length).sum

/-- The empty slots of active workers. -/
def Spec.free (s : State) : Nat :=
  (s.workers.map fun w => match w.2 with
    | .active slots _ => (slots.filter fun x => x.isEmpty).length
    | .inactive => 0).sum

theorem free_eq (s : State) : Spec.free s = (s.workers.map fun w => w.2.vacantSlots).sum := by
  unfold Spec.free Worker.vacantSlots
  congr 1

theorem demand_eq (s : State) : Spec.demand s = (s.queue.map workerSets).sum := rfl

theorem ceil_spec (a b : Nat) (hb : 0 < b) :
    a ≤ (a + b - 1) / b * b ∧ ∀ n, a ≤ n * b → (a + b - 1) / b ≤ n := by
  constructor
  · have := Nat.div_add_mod (a + b - 1) b
    have h2 := Nat.mod_lt (a + b - 1) hb
    rw [Nat.mul_comm] at this
    omega
  · intro n hn
    rw [← Nat.lt_add_one_iff, Nat.div_lt_iff_lt_mul hb, Nat.add_mul]
    omega

/-- **C45.** The workers requested for the waiting regions bring enough slots together with the free ones, unless
the configured maximum of workers is reached. -/
theorem C45_enough_workers_are_requested (s : State) (hs : 0 < s.taskSlots) :
    Spec.demand s ≤ Spec.free s + s.requestWorkers.2 * s.taskSlots ∨
      (0 < s.maxCount ∧ s.maxCount ≤ s.requestWorkers.1.requested + s.activeWorkers) := by
  rw [free_eq, demand_eq]
  simp only [State.requestWorkers, State.requiredWorkers]
  obtain ⟨h1, -⟩ := ceil_spec ((s.queue.map workerSets).sum - (s.workers.map fun w => w.2.vacantSlots).sum)
    s.taskSlots hs
  split
  · left; omega
  · rename_i hm
    rcases Nat.le_total (((s.queue.map workerSets).sum - (s.workers.map fun w => w.2.vacantSlots).sum +
      s.taskSlots - 1) / s.taskSlots) (s.maxCount - s.requested - s.activeWorkers) with hle | hle
    · left
      rw [Nat.min_eq_left hle]
      omega
    · right
      rw [Nat.min_eq_right hle]
      omega

/-- **C45.** No worker is requested that the waiting regions do not need. -/
theorem C45_no_needless_workers (s : State) (hs : 0 < s.taskSlots) (n : Nat)
    (hn : Spec.demand s ≤ Spec.free s + n * s.taskSlots) : s.requestWorkers.2 ≤ n := by
  rw [free_eq, demand_eq] at hn
  simp only [State.requestWorkers, State.requiredWorkers]
  obtain ⟨-, h2⟩ := ceil_spec ((s.queue.map workerSets).sum - (s.workers.map fun w => w.2.vacantSlots).sum)
    s.taskSlots hs
  have := h2 n (by omega)
  split
  · exact this
  · exact Nat.le_trans (Nat.min_le_left _ _) this

example : (run [.enqueue (exampleRegion 1), .enqueue (exampleRegion 2), .enqueue (exampleRegion 3)]
    (State.init 0 2)).requestWorkers.2 = 2 := by decide

/-- Activating new workers. -/
def activateAll (s : State) (ids : List Nat) : State := ids.foldl State.activateWorker s

theorem activateAll_spec (ids : List Nat) (s : State) (hn : ids.Nodup) (hf : ∀ id ∈ ids, s.worker id = none) :
    (activateAll s ids).queue = s.queue ∧
    ((activateAll s ids).workers.map fun w => w.2.vacantSlots).sum =
      (s.workers.map fun w => w.2.vacantSlots).sum + ids.length * s.taskSlots := by
  induction ids generalizing s with
  | nil => simp [activateAll]
  | cons id ids ih =>
    rw [List.nodup_cons] at hn
    have h0 := hf id (by simp)
    have e1 : (s.activateWorker id).queue = s.queue ∧ (s.activateWorker id).taskSlots = s.taskSlots ∧
        (s.activateWorker id).workers = s.workers ++ [(id, .active (List.replicate s.taskSlots []) [])] := by
      unfold State.activateWorker
      rw [h0]
      exact ⟨rfl, rfl, rfl⟩
    have hf' : ∀ x ∈ ids, (s.activateWorker id).worker x = none := by
      intro x hx
      have hne : x ≠ id := by rintro rfl; exact hn.1 hx
      have := hf x (by simp [hx])
      unfold State.worker at this ⊢
      rw [e1.2.2, List.lookup_append, this]
      have : (x == id) = false := by simpa using hne
      simp [List.lookup, this]
    obtain ⟨i1, i2⟩ := ih (s.activateWorker id) hn.2 hf'
    have hstep : activateAll s (id :: ids) = activateAll (s.activateWorker id) ids := rfl
    rw [hstep]
    refine ⟨i1.trans e1.1, ?_⟩
    rw [i2, e1.2.1, e1.2.2]
    have hr : ((List.replicate s.taskSlots ([] : List TKey)).filter vacant).length = s.taskSlots := by
      rw [List.filter_eq_self.mpr]
      · simp
      · intro x hx; rw [List.eq_of_mem_replicate hx]; rfl
    simp only [List.map_append, List.sum_append, List.map_cons, List.map_nil, List.sum_cons, List.sum_nil,
      Worker.vacantSlots, List.length_cons, hr]
    rw [Nat.add_mul]
    omega

/-- **C45.** Without a maximum, when the requested workers have registered, the next assignment round places every
waiting region. -/
theorem C45_all_waiting_regions_are_placed (s : State) (hs : 0 < s.taskSlots) (hm : s.maxCount = 0)
    (ids : List Nat) (hlen : ids.length = s.requestWorkers.2) (hn : ids.Nodup)
    (hf : ∀ id ∈ ids, s.worker id = none) :
    (activateAll s.requestWorkers.1 ids).assignTasks.1.queue = [] := by
  have henough := (C45_enough_workers_are_requested s hs).resolve_right (by omega)
  rw [free_eq, demand_eq] at henough
  have e : s.requestWorkers.1.queue = s.queue ∧ s.requestWorkers.1.workers = s.workers ∧
    s.requestWorkers.1.taskSlots = s.taskSlots := ⟨rfl, rfl, rfl⟩
  obtain ⟨h1, h2⟩ := activateAll_spec ids s.requestWorkers.1 hn hf
  rw [e.1] at h1
  rw [e.2.1, e.2.2, hlen] at h2
  cases hq : (activateAll s.requestWorkers.1 ids).assignTasks.1.queue with
  | nil => rfl
  | cons r rest =>
    exfalso
    obtain ⟨placed, waiting, g1, -, g3⟩ :=
      C09_waits_only_for_lack_of_slots (activateAll s.requestWorkers.1 ids) r (by rw [hq]; rfl)
    rw [h2] at g3
    rw [h1] at g1
    rw [g1] at henough
    simp only [List.map_append, List.map_cons, List.map_nil, List.sum_append, List.sum_cons, List.sum_nil] at henough g3
    omega

example : (activateAll (run [.enqueue (exampleRegion 1), .enqueue (exampleRegion 2)]
    (State.init 0 1)).requestWorkers.1 [7, 8]).assignTasks.1.queue = [] := by decide

/-! ## C46: excluded tasks -/

/-- **C46.** Excluding a task removes from the queue exactly the regions that contain it, and keeps the order of
the others. -/
theorem C46_exclusion_removes_exactly_its_regions (s : State) (k : TKey) :
    (∀ r, r ∈ (step s (.exclude k)).queue ↔ r ∈ s.queue ∧ ∀ p set kind, (p, set) ∈ r → (k, kind) ∉ set) ∧
    (step s (.exclude k)).queue.Sublist s.queue := by
  constructor
  · intro r
    simp only [step, State.exclude, List.mem_filter, Region.contains, Bool.not_eq_true',
      List.any_eq_false, beq_iff_eq, Bool.not_eq_true, List.any_eq_true, not_exists, not_and, Prod.forall]
    constructor
    · rintro ⟨h1, h2⟩
      exact ⟨h1, fun p set kind hm hk => h2 p set hm k kind hk rfl⟩
    · rintro ⟨h1, h2⟩
      refine ⟨h1, fun p set hm a kind hk he => ?_⟩
      subst he
      exact h2 p set kind hm hk
  · exact List.filter_sublist

/-- The task is in no waiting region. -/
def NotQueued (s : State) (k : TKey) : Prop := ∀ r ∈ s.queue, ∀ p set kind, (p, set) ∈ r → (k, kind) ∉ set

theorem assigned_from_queue (s : State) (set : TaskSet) (a : Assignment) (h : (set, a) ∈ s.assignTasks.2) :
    ∃ r ∈ s.queue, ∃ p, (p, set) ∈ r := by
  obtain ⟨placed, waiting, g1, -, g3⟩ := C09_regions_are_placed_whole_and_in_order s
  have hm : (decide (a = .driver), set) ∈ placed.flatten.map (fun x => (decide (x.1 = .driver), x.2)) := by
    rw [← g3]
    exact List.mem_map.mpr ⟨(set, a), h, rfl⟩
  rw [List.mem_map] at hm
  obtain ⟨⟨p, set'⟩, hm, he⟩ := hm
  rw [List.mem_flatten] at hm
  obtain ⟨r, hr, hm⟩ := hm
  simp at he
  rw [he.2] at hm
  exact ⟨r, by rw [g1]; exact List.mem_append_left _ hr, p, hm⟩

theorem queue_step (s : State) (o : Op) (r : Region) (h : r ∈ (step s o).queue) : r ∈ s.queue ∨ o = .enqueue r := by
  cases o with
  | enqueue r' =>
    simp only [step, State.enqueue, List.mem_append, List.mem_singleton] at h
    obtain h | rfl := h
    · exact .inl h
    · exact .inr rfl
  | exclude k => exact .inl (List.mem_of_mem_filter h)
  | runTasks =>
    left
    have hq : (step s .runTasks).queue = s.assignTasks.1.queue := by
      simp only [step, State.runTasks]
      have : ∀ (as : List (TaskSet × Assignment)) (t : State), (as.foldl State.track t).queue = t.queue := by
        intro as
        induction as with
        | nil => intro t; rfl
        | cons a as ih =>
          intro t
          rw [List.foldl_cons, ih]
          unfold State.track
          split <;> rfl
      rw [this]
    obtain ⟨placed, waiting, g1, g2, -⟩ := C09_regions_are_placed_whole_and_in_order s
    rw [hq, g2] at h
    rw [g1]
    exact List.mem_append_right _ h
  | unassign k =>
    left
    simp only [step, State.unassign] at h
    split at h <;> exact h
  | untrack j st => exact .inl h
  | requestWorkers => exact .inl h
  | workerFailedToStart => exact .inl h
  | activate id =>
    left
    simp only [step, State.activateWorker] at h
    split at h <;> exact h
  | deactivate id => exact .inl h

/-- **C46.** After a task is excluded it is not given to anybody in any later round, whatever happens, until a
region containing it is submitted again. -/
theorem C46_excluded_task_is_not_assigned (before after : List Op) (maxCount taskSlots : Nat) (k : TKey)
    (hno : ∀ r, Op.enqueue r ∈ after → ∀ p set kind, (p, set) ∈ r → (k, kind) ∉ set) :
    ∀ set a kind, (set, a) ∈ (run (before ++ .exclude k :: after) (State.init maxCount taskSlots)).assignTasks.2 →
      (k, kind) ∉ set := by
  have hrun : run (before ++ .exclude k :: after) (State.init maxCount taskSlots) =
      run after (step (run before (State.init maxCount taskSlots)) (.exclude k)) := by
    simp [run, List.foldl_append]
  rw [hrun]
  have h0 : NotQueued (step (run before (State.init maxCount taskSlots)) (.exclude k)) k := by
    intro r hr
    exact (((C46_exclusion_removes_exactly_its_regions _ k).1 r).mp hr).2
  generalize step (run before (State.init maxCount taskSlots)) (.exclude k) = s at h0
  have key : ∀ (after : List Op), (∀ r, Op.enqueue r ∈ after → ∀ p set kind, (p, set) ∈ r → (k, kind) ∉ set) →
      ∀ s, NotQueued s k → NotQueued (run after s) k := by
    intro after
    induction after with
    | nil => exact fun _ s h => h
    | cons o after ih =>
      intro hno s h
      refine ih (fun r hr => hno r (by simp [hr])) (step s o) ?_
      intro r hr
      obtain hr | rfl := queue_step s o r hr
      · exact h r hr
      · exact hno r (by simp)
  intro set a kind hm hk
  obtain ⟨r, hr, p, hp⟩ := assigned_from_queue _ set a hm
  exact key after hno s h0 r hr p set kind hp hk

example : (run (exampleOps ++ [.exclude ⟨1, 1, 0, 0⟩]) (State.init 3 1)).assignTasks.2.map (·.1) =
    (exampleRegion 2).map (·.2) := by decide

/-! ## C08: the slots of the driver -/

/-- **C08.** A task set for the driver gets an empty or new slot for itself; the other slots keep their tasks. -/
theorem C08_driver_slot_holds_one_set (slots : List (List TKey)) (set : TaskSet) :
    ∃ i : Nat, (slots[i]? = none ∨ slots[i]? = some []) ∧
      (∃ content, (addDriverSet slots set)[i]? = some content ∧ ∀ k, k ∈ content ↔ ∃ kind, (k, kind) ∈ set) ∧
      ∀ j : Nat, j ≠ i → (addDriverSet slots set)[j]? = slots[j]? := by
  have hc : ∀ k, k ∈ addTasks [] set.tasks ↔ ∃ kind, (k, kind) ∈ set := by
    intro k; rw [mem_addTasks]; simp [TaskSet.tasks]
  induction slots with
  | nil =>
    refine ⟨0, .inl rfl, ⟨_, rfl, hc⟩, ?_⟩
    intro j hj
    cases j with
    | zero => exact absurd rfl hj
    | succ j => simp [addDriverSet]
  | cons slot rest ih =>
    unfold addDriverSet
    split
    · rename_i hv
      have : slot = [] := by simpa [vacant] using hv
      subst this
      refine ⟨0, .inr rfl, ⟨_, rfl, hc⟩, ?_⟩
      intro j hj
      cases j with
      | zero => exact absurd rfl hj
      | succ j => simp
    · obtain ⟨i, h1, h2, h3⟩ := ih
      refine ⟨i + 1, by simpa using h1, by simpa using h2, ?_⟩
      intro j hj
      cases j with
      | zero => simp
      | succ j => simpa using h3 j (by omega)

/-- **C08.** Removing a task from the driver touches no other task. -/
theorem C08_driver_removal_keeps_other_tasks (slots : List (List TKey)) (k t : TKey) (ht : t ≠ k) (i : Nat) :
    (∃ c ∈ (removeDriverTask slots k)[i]?, t ∈ c) ↔ ∃ c ∈ slots[i]?, t ∈ c := by
  induction slots generalizing i with
  | nil => simp [removeDriverTask]
  | cons slot rest ih =>
    unfold removeDriverTask
    split
    · cases i with
      | zero => simp [removeTask, ht]
      | succ i => simp
    · cases i with
      | zero => simp
      | succ i => simpa using ih i

/-- **C08.** A task that is in one slot of the driver is in none after its removal. -/
theorem C08_driver_removal_removes (slots : List (List TKey)) (k : TKey)
    (hu : ∀ (i j : Nat) (c d : List TKey), slots[i]? = some c → slots[j]? = some d → k ∈ c → k ∈ d → i = j) :
    ∀ c ∈ removeDriverTask slots k, k ∉ c := by
  induction slots with
  | nil => simp [removeDriverTask]
  | cons slot rest ih =>
    unfold removeDriverTask
    split
    · rename_i hk
      intro c hc
      rw [List.mem_cons] at hc
      obtain rfl | hc := hc
      · simp [removeTask]
      · intro hkc
        obtain ⟨j, hj⟩ := List.mem_iff_getElem?.mp hc
        have := hu 0 (j + 1) slot c rfl (by simpa using hj) hk hkc
        omega
    · rename_i hk
      intro c hc
      rw [List.mem_cons] at hc
      obtain rfl | hc := hc
      · exact hk
      · refine ih (fun i j c d h1 h2 h3 h4 => ?_) c hc
        have := hu (i + 1) (j + 1) c d (by simpa using h1) (by simpa using h2) h3 h4
        omega

example : addDriverSet [[⟨1, 0, 0, 0⟩], []] [(⟨2, 0, 0, 0⟩, .storage)] = [[⟨1, 0, 0, 0⟩], [⟨2, 0, 0, 0⟩]] ∧
    removeDriverTask [[⟨1, 0, 0, 0⟩, ⟨1, 0, 1, 0⟩], [⟨2, 0, 0, 0⟩]] ⟨1, 0, 0, 0⟩ =
      [[⟨1, 0, 1, 0⟩], [⟨2, 0, 0, 0⟩]] := by decide

end Verif.Exec.Assign
