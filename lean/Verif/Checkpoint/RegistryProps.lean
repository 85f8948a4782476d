import Verif.Checkpoint.Registry

/-!
# C147: published checkpoints have their files, stopped sessions leave nothing behind
-/

namespace Verif.Checkpoint

theorem get_set {ops : List Op} {i : Nat} {op : Op} (h : ops[i]? = some op) (op' : Op) (j : Nat) :
    (ops.set i op')[j]? = if j = i then some op' else ops[j]? := by
  have hi : i < ops.length := (List.getElem?_eq_some_iff.1 h).1
  rw [List.getElem?_set]
  by_cases hj : i = j
  · subst hj; simp [hi]
  · have : ¬ j = i := fun e => hj e.symm
    simp [hj, this]

/-! ### Ids -/

/-- The relation ids of the commands that are begun. -/
def Spec.begun : List Action → List Nat
  | [] => []
  | .begin id _ :: rest => id :: Spec.begun rest
  | _ :: rest => Spec.begun rest

theorem map_id_set {ops : List Op} {i : Nat} {op op' : Op} (h : ops[i]? = some op) (same : op'.id = op.id) :
    (ops.set i op').map Op.id = ops.map Op.id := by
  rw [List.map_set, same]
  apply List.ext_getElem?
  intro j
  rw [List.getElem?_set]
  obtain ⟨hi, h⟩ := List.getElem?_eq_some_iff.1 h
  by_cases hj : i = j
  · subst hj; simp [hi, h]
  · simp [hj]

theorem sublist_of_eq {a b : List Nat} (h : a = b) : a.Sublist b := h ▸ List.Sublist.refl _

theorem on_cases {P : State → Prop} {s : State} (h : P s) (i : Nat) (f : State → Nat → Op → State)
    (some : ∀ op, s.ops[i]? = some op → P (f s i op)) : P (s.on i f) := by
  unfold State.on
  split
  · exact some _ ‹_›
  · exact h

theorem step_ids (s : State) (a : Action) :
    List.Sublist ((s.step a).ops.map Op.id) (s.ops.map Op.id ++ Spec.begun [a]) := by
  cases a <;> simp only [State.step, Spec.begun, List.append_nil, State.on]
  case begin id parts =>
    unfold State.begin
    split <;> simp
  case close => split <;> simp
  case delete => split <;> simp
  case clear => split <;> simp
  all_goals
    split
    · rename_i op h
      simp only [State.write, State.fail, State.check, State.publish, State.cleanup, State.drop, State.setStage]
      repeat' split
      all_goals first
        | exact List.Sublist.refl _
        | exact sublist_of_eq (map_id_set h rfl)
    · exact List.Sublist.refl _

theorem begun_cons (a : Action) (rest : List Action) : Spec.begun (a :: rest) = Spec.begun [a] ++ Spec.begun rest := by
  cases a <;> rfl

/-! ### Objects of published checkpoints -/

structure Live (s : State) : Prop where
  objs : s.stop = .running ∨ s.stop = .closed → ∀ (i : Nat) (op : Op), s.ops[i]? = some op →
    (op.stage = .writing ∨ op.stage = .checked ∨ op.stage = .done) →
    ∀ k, k < op.next → (⟨op.id, i, k⟩ : Obj) ∈ s.objects
  full : ∀ (i : Nat) (op : Op), s.ops[i]? = some op → (op.stage = .checked ∨ op.stage = .done) → op.next = op.parts
  reg : ∀ e ∈ s.registered, ∃ op, s.ops[e.op]? = some op ∧ op.id = e.id ∧ op.parts = e.parts ∧ op.stage = .done

theorem ids_differ {ops : List Op} (distinct : (ops.map Op.id).Nodup) {i j : Nat} {a b : Op} (ha : ops[i]? = some a)
    (hb : ops[j]? = some b) (ne : i ≠ j) : a.id ≠ b.id := by
  intro h
  obtain ⟨hi, ha⟩ := List.getElem?_eq_some_iff.1 ha
  obtain ⟨hj, hb⟩ := List.getElem?_eq_some_iff.1 hb
  apply ne
  apply (List.getElem_inj (h₀ := by simpa using hi) (h₁ := by simpa using hj) distinct).1
  simp [ha, hb, h]

/-- A change of the stage of a command, to one that promises nothing new. -/
theorem live_setStage {s : State} (h : Live s) {i : Nat} {op : Op} (hop : s.ops[i]? = some op) (notDone : op.stage ≠ .done)
    (stage : Stage) (weaker : stage = .failing ∨ stage = .failed ∨ stage = .dropped
      ∨ (op.stage = .writing ∨ op.stage = .checked) ∧ op.next = op.parts) : Live (s.setStage i op stage) := by
  have g : ∀ j, (s.setStage i op stage).ops[j]? = if j = i then some { op with stage := stage } else s.ops[j]? :=
    fun j => get_set hop _ j
  constructor
  · intro st j o ho hs k hk
    rw [g] at ho
    split at ho
    · rename_i e
      cases ho; subst e
      rcases weaker with w | w | w | w
      · simp [w] at hs
      · simp [w] at hs
      · simp [w] at hs
      · exact h.objs st j op hop (by rcases w.1 with w | w <;> simp [w]) k hk
    · exact h.objs st j o ho hs k hk
  · intro j o ho hs
    rw [g] at ho
    split at ho
    · cases ho
      rcases weaker with w | w | w | w
      · simp [w] at hs
      · simp [w] at hs
      · simp [w] at hs
      · exact w.2
    · exact h.full j o ho hs
  · intro e he
    obtain ⟨o, ho, r⟩ := h.reg e he
    refine ⟨o, ?_, r⟩
    rw [g, if_neg, ho]
    rintro rfl
    rw [hop] at ho
    cases ho
    exact notDone r.2.2

theorem live_step {s : State} (h : Live s) (distinct : (s.ops.map Op.id).Nodup) (a : Action) : Live (s.step a) := by
  cases a <;> simp only [State.step]
  case begin id parts =>
    unfold State.begin
    split
    · have g : ∀ (j : Nat) (o : Op), (s.ops ++ [(⟨id, parts, 0, .writing⟩ : Op)])[j]? = some o →
          s.ops[j]? = some o ∨ o = ⟨id, parts, 0, .writing⟩ := by
        intro j o ho
        by_cases hj : j < s.ops.length
        · rw [List.getElem?_append_left hj] at ho; exact .inl ho
        · rw [List.getElem?_append_right (by omega)] at ho
          right
          have := List.mem_of_getElem? ho
          simpa using this
      constructor
      · intro st j o ho hs k hk
        rcases g j o ho with ho | ho
        · exact h.objs st j o ho hs k hk
        · subst ho; simp at hk
      · intro j o ho hs
        rcases g j o ho with ho | ho
        · exact h.full j o ho hs
        · subst ho; simp at hs
      · intro e he
        obtain ⟨o, ho, r⟩ := h.reg e he
        refine ⟨o, ?_, r⟩
        have := (List.getElem?_eq_some_iff.1 ho).1
        simpa [List.getElem?_append_left this] using ho
    · exact h
  case close =>
    split
    · rename_i st
      exact ⟨fun _ => h.objs (.inl st), h.full, h.reg⟩
    · exact h
  case delete =>
    split
    · exact ⟨fun st => by simp at st, h.full, h.reg⟩
    · exact h
  case clear =>
    split
    · exact ⟨fun st => by simp at st, h.full, fun e he => by simp at he⟩
    · exact h
  case write i =>
    refine on_cases h i _ fun op hop => ?_
    unfold State.write
    split
    · rename_i c
      have g := fun j => get_set hop { op with next := op.next + 1 } j
      constructor
      · intro st j o ho hs k hk
        rw [g] at ho
        split at ho
        · rename_i e
          cases ho; subst e
          simp only at hk ⊢
          by_cases hk' : k = op.next
          · subst hk'; simp
          · exact List.mem_cons_of_mem _ (h.objs st j op hop (.inl c.1) k (by omega))
        · exact List.mem_cons_of_mem _ (h.objs st j o ho hs k hk)
      · intro j o ho hs
        rw [g] at ho
        split at ho
        · cases ho
          simp [c.1] at hs
        · exact h.full j o ho hs
      · intro e he
        obtain ⟨o, ho, r⟩ := h.reg e he
        refine ⟨o, ?_, r⟩
        rw [g, if_neg, ho]
        rintro rfl
        rw [hop] at ho
        cases ho
        simp [c.1] at r
    · exact h
  case fail i =>
    refine on_cases h i _ fun op hop => ?_
    unfold State.fail
    split
    · rename_i c
      exact live_setStage h hop (by simp [c]) _ (.inl rfl)
    · exact h
  case check i =>
    refine on_cases h i _ fun op hop => ?_
    unfold State.check
    split
    · rename_i c
      split
      · exact live_setStage h hop (by simp [c.1]) _ (.inr (.inr (.inr ⟨.inl c.1, c.2⟩)))
      · exact live_setStage h hop (by simp [c.1]) _ (.inl rfl)
    · exact h
  case publish i =>
    refine on_cases h i _ fun op hop => ?_
    unfold State.publish
    split
    · rename_i c
      split
      · exact live_setStage h hop (by simp [c]) _ (.inl rfl)
      · have l := live_setStage h hop (by simp [c]) .done
          (.inr (.inr (.inr ⟨.inr c, h.full i op hop (.inl c)⟩)))
        refine ⟨l.objs, l.full, ?_⟩
        intro e he
        rcases List.mem_cons.1 he with he | he
        · subst he
          exact ⟨{ op with stage := .done }, (get_set hop { op with stage := .done } i).trans (if_pos rfl), rfl, rfl, rfl⟩
        · exact l.reg e he
    · exact h
  case cleanup i =>
    refine on_cases h i _ fun op hop => ?_
    unfold State.cleanup
    split
    · rename_i c
      have l := live_setStage h hop (by simp [c]) .failed (.inr (.inl rfl))
      refine ⟨?_, l.full, l.reg⟩
      intro st j o ho hs k hk
      have := l.objs st j o ho hs k hk
      refine List.mem_filter.2 ⟨this, ?_⟩
      simp only [decide_eq_true_eq]
      have g := get_set hop { op with stage := .failed } j
      have ho' : (s.ops.set i { op with stage := .failed })[j]? = some o := ho
      rw [g] at ho'
      split at ho'
      · cases ho'; simp at hs
      · rename_i ne
        exact ids_differ distinct ho' hop ne
    · exact h
  case drop i =>
    refine on_cases h i _ fun op hop => ?_
    unfold State.drop
    split
    · rename_i c
      exact live_setStage h hop (by rcases c with c | c | c <;> simp [c]) _ (.inr (.inr (.inl rfl)))
    · exact h

theorem live_run : ∀ (actions : List Action) (s : State), Live s →
    (s.ops.map Op.id ++ Spec.begun actions).Nodup → Live (s.run actions)
  | [], _, h, _ => h
  | a :: rest, s, h, d => by
    show Live ((s.step a).run rest)
    apply live_run rest
    · exact live_step h (List.Nodup.sublist (List.sublist_append_left _ _) d) a
    · rw [begun_cons, ← List.append_assoc] at d
      exact List.Nodup.sublist (List.Sublist.append (step_ids s a) (List.Sublist.refl _)) d

/-- If no relation id is used for two commands, all objects of every published checkpoint exist until the session
is stopped and its objects are deleted. -/
theorem C147_published_is_readable_partial {actions : List Action} (distinct : (Spec.begun actions).Nodup)
    (alive : (State.run {} actions).stop = .running ∨ (State.run {} actions).stop = .closed)
    {e : Entry} (published : e ∈ (State.run {} actions).registered) {k : Nat} (part : k < e.parts) :
    (⟨e.id, e.op, k⟩ : Obj) ∈ (State.run {} actions).objects := by
  have l : Live (State.run {} actions) := live_run actions {}
    ⟨fun _ i op h => by simp at h, fun i op h => by simp at h, fun e h => by simp at h⟩ (by simpa using distinct)
  obtain ⟨op, hop, hid, hp, hs⟩ := l.reg e published
  rw [← hid]
  exact l.objs alive e.op op hop (.inr (.inr hs)) k (by rw [l.full e.op op hop (.inr hs), hp]; exact part)

/-- One command publishes two objects while another one fails and cleans up. -/
def Spec.twoCommands : List Action :=
  [.begin 7 2, .begin 8 1, .write 0, .write 1, .write 0, .fail 1, .check 0, .publish 0, .cleanup 1]

example : (Spec.begun Spec.twoCommands).Nodup ∧ (State.run {} Spec.twoCommands).stop = .running
    ∧ (State.run {} Spec.twoCommands).registered = [⟨7, 0, 2⟩]
    ∧ (State.run {} Spec.twoCommands).objects = [⟨7, 0, 1⟩, ⟨7, 0, 0⟩] := by decide

/-- A second commit for the same relation id is refused, but its cleanup deletes the objects of the first, which
stays published. -/
theorem C147_second_commit : ∃ actions : List Action,
    (State.run {} actions).stop = .running ∧ (State.run {} actions).registered = [⟨7, 0, 1⟩]
    ∧ (State.run {} actions).objects = [] :=
  ⟨[.begin 7 1, .write 0, .check 0, .publish 0, .begin 7 1, .write 1, .check 1, .publish 1, .cleanup 1], by decide⟩

/-- If a first attempt fails and cleans up while a second attempt for the same relation id is writing, then the
second one publishes a checkpoint without its objects. -/
theorem C147_overlapping_attempts : ∃ actions : List Action,
    (State.run {} actions).stop = .running ∧ (State.run {} actions).registered = [⟨7, 1, 1⟩]
    ∧ (State.run {} actions).objects = [] :=
  ⟨[.begin 7 1, .fail 0, .begin 7 1, .write 1, .cleanup 0, .check 1, .publish 1], by decide⟩

/-! ### The registry -/

theorem registered_step (s : State) (a : Action) :
    (s.step a).registered = s.registered
    ∨ (a = .clear ∧ s.stop = .deleted ∧ (s.step a).registered = [])
    ∨ ∃ i op, a = .publish i ∧ s.ops[i]? = some op ∧ op.stage = .checked
      ∧ (s.registered.any fun e => decide (e.id = op.id)) = false
      ∧ (s.step a).registered = ⟨op.id, i, op.parts⟩ :: s.registered := by
  cases a <;> simp only [State.step, State.on]
  case begin => unfold State.begin; split <;> simp
  case close => split <;> simp
  case delete => split <;> simp
  case clear => split <;> simp_all
  case publish i =>
    split
    · rename_i op hop
      unfold State.publish
      split
      · split
        · exact .inl rfl
        · rename_i c n
          exact .inr (.inr ⟨i, op, rfl, hop, c, by simpa using n, rfl⟩)
      · exact .inl rfl
    · exact .inl rfl
  all_goals
    split
    · simp only [State.write, State.fail, State.check, State.cleanup, State.drop, State.setStage]
      repeat' split
      all_goals exact .inl rfl
    · exact .inl rfl

theorem run_append (s : State) (a b : List Action) : s.run (a ++ b) = (s.run a).run b := by
  simp [State.run, List.foldl_append]

/-- At most one checkpoint is published for a relation id, in every run. -/
theorem C147_one_per_id (actions : List Action) : ((State.run {} actions).registered.map Entry.id).Nodup := by
  suffices ∀ (actions : List Action) (s : State), (s.registered.map Entry.id).Nodup →
      ((s.run actions).registered.map Entry.id).Nodup from this actions {} (by simp)
  intro actions
  induction actions with
  | nil => intro s h; exact h
  | cons a rest ih =>
    intro s h
    apply ih
    rcases registered_step s a with e | ⟨_, _, e⟩ | ⟨i, op, _, _, _, new, e⟩
    · rw [e]; exact h
    · rw [e]; simp
    · rw [e]
      simp only [List.map_cons, List.nodup_cons]
      refine ⟨?_, h⟩
      intro m
      obtain ⟨x, hx, hid⟩ := List.mem_map.1 m
      have := List.any_eq_false.1 new x hx
      simp [hid] at this

/-- A published checkpoint stays published, and is not replaced, until the registry is cleared. -/
theorem C147_stays_published {before after : List Action} (not_cleared : Action.clear ∉ after) {e : Entry}
    (published : e ∈ (State.run {} before).registered) : e ∈ (State.run {} (before ++ after)).registered := by
  rw [run_append]
  revert published
  generalize State.run {} before = s
  revert s
  induction after with
  | nil => intro s h; exact h
  | cons a rest ih =>
    intro s h
    apply ih (fun m => not_cleared (List.mem_cons_of_mem _ m))
    rcases registered_step s a with e | ⟨c, _, e⟩ | ⟨i, op, _, _, _, new, e⟩
    · rw [e]; exact h
    · subst c; simp at not_cleared
    · rw [e]; exact List.mem_cons_of_mem _ h

/-! ### Stopping -/

theorem stop_step (s : State) (a : Action) :
    (s.step a).stop = s.stop ∨ (s.stop = .running ∧ (s.step a).stop = .closed)
    ∨ (s.stop = .closed ∧ a = .delete ∧ (s.step a).stop = .deleted) ∨ (s.stop = .deleted ∧ (s.step a).stop = .cleared) := by
  cases a <;> simp only [State.step, State.on]
  case begin => unfold State.begin; split <;> simp
  case close => split <;> simp_all
  case delete => split <;> simp_all
  case clear => split <;> simp_all
  all_goals
    split
    · simp only [State.write, State.fail, State.check, State.publish, State.cleanup, State.drop, State.setStage]
      repeat' split
      all_goals exact .inl rfl
    · exact .inl rfl

/-- What a step does to a command: nothing, or one of the changes of the stage. -/
theorem stage_step (s : State) (a : Action) {j : Nat} {op : Op} (h : (s.step a).ops[j]? = some op) :
    s.ops[j]? = some op
    ∨ (s.stop = .running ∧ s.ops.length = j ∧ op.stage = .writing)
    ∨ ∃ old, s.ops[j]? = some old ∧ op.id = old.id ∧
      ((old.stage = .writing ∧ op.stage = .writing)
        ∨ (old.stage = .writing ∧ op.stage = .failing)
        ∨ (old.stage = .writing ∧ op.stage = .checked ∧ s.stop = .running)
        ∨ (old.stage = .checked ∧ (op.stage = .failing ∨ op.stage = .done))
        ∨ (old.stage = .failing ∧ op.stage = .failed ∧ a = .cleanup j)
        ∨ (op.stage = .dropped ∧ a = .drop j)) := by
  cases a <;> simp only [State.step, State.on] at h
  case begin id parts =>
    unfold State.begin at h
    split at h
    · rename_i st
      simp only at h
      by_cases hj : j < s.ops.length
      · rw [List.getElem?_append_left hj] at h; exact .inl h
      · have hl := (List.getElem?_eq_some_iff.1 h).1
        simp at hl
        have : j = s.ops.length := by omega
        subst this
        simp at h
        exact .inr (.inl ⟨st, rfl, by rw [← h]⟩)
    · exact .inl h
  case close => split at h <;> exact .inl h
  case delete => split at h <;> exact .inl h
  case clear => split at h <;> exact .inl h
  all_goals
    split at h
    case h_2 => exact .inl h
    rename_i i old hop
    simp only [State.write, State.fail, State.check, State.publish, State.cleanup, State.drop, State.setStage] at h
    repeat' split at h
    all_goals first
      | exact .inl h
      | skip
    all_goals
      simp only [] at h
      rw [get_set hop] at h
      split at h
      case isFalse => exact .inl h
      rename_i e
      subst e
      cases h
      refine .inr (.inr ⟨old, hop, rfl, ?_⟩)
      simp_all

/-- The objects after the deletion belong to commands that are still writing, about to clean up, or dropped. -/
def Spec.Owned (s : State) : Prop :=
  s.stop = .deleted ∨ s.stop = .cleared → ∀ o ∈ s.objects, ∃ op, s.ops[o.op]? = some op ∧ op.id = o.id
    ∧ (op.stage = .writing ∨ op.stage = .failing ∨ op.stage = .dropped)

theorem objects_step (s : State) (a : Action) {o : Obj} (h : o ∈ (s.step a).objects) :
    (o ∈ s.objects ∧ (∀ i op, a = .cleanup i → s.ops[i]? = some op → op.stage = .failing → o.id ≠ op.id)
      ∧ ¬ (a = .delete ∧ s.stop = .closed))
    ∨ ∃ op, a = .write o.op ∧ s.ops[o.op]? = some op ∧ op.id = o.id ∧ op.stage = .writing := by
  cases a <;> simp only [State.step, State.on] at h
  case begin => unfold State.begin at h; split at h <;> exact .inl ⟨h, by simp, by simp⟩
  case close => split at h <;> exact .inl ⟨h, by simp, by simp⟩
  case delete => split at h <;> simp_all
  case clear => split at h <;> exact .inl ⟨h, by simp, by simp⟩
  case write i =>
    split at h
    · rename_i op hop
      unfold State.write at h
      split at h
      · rename_i c
        rcases List.mem_cons.1 h with h | h
        · subst h; exact .inr ⟨op, rfl, hop, rfl, c.1⟩
        · exact .inl ⟨h, by simp, by simp⟩
      · exact .inl ⟨h, by simp, by simp⟩
    · exact .inl ⟨h, by simp, by simp⟩
  case cleanup i =>
    split at h
    · rename_i op hop
      unfold State.cleanup at h
      split at h
      · have := List.mem_filter.1 h
        refine .inl ⟨this.1, ?_, by simp⟩
        intro j op' ea hop' _
        cases ea
        rw [hop] at hop'
        cases hop'
        simpa using this.2
      · rename_i c
        refine .inl ⟨h, ?_, by simp⟩
        intro j op' ea hop' c'
        cases ea
        rw [hop] at hop'
        cases hop'
        exact absurd c' c
    · rename_i hop
      refine .inl ⟨h, ?_, by simp⟩
      intro j op' ea hop'
      cases ea
      rw [hop] at hop'
      cases hop'
  all_goals
    split at h
    · simp only [State.fail, State.check, State.publish, State.drop, State.setStage] at h
      repeat' split at h
      all_goals exact .inl ⟨h, by simp, by simp⟩
    · exact .inl ⟨h, by simp, by simp⟩

theorem ops_persist (s : State) (a : Action) {j : Nat} {op : Op} (h : s.ops[j]? = some op) :
    ∃ op', (s.step a).ops[j]? = some op' := by
  have hl := (List.getElem?_eq_some_iff.1 h).1
  have : s.ops.length ≤ (s.step a).ops.length := by
    cases a <;> simp only [State.step, State.on]
    case begin => unfold State.begin; split <;> simp
    case close => split <;> simp
    case delete => split <;> simp
    case clear => split <;> simp
    all_goals
      split
      · simp only [State.write, State.fail, State.check, State.publish, State.cleanup, State.drop, State.setStage]
        repeat' split
        all_goals simp
      · simp
  exact ⟨_, List.getElem?_eq_getElem (by omega)⟩

theorem owned_step {s : State} (h : Spec.Owned s) (a : Action) : Spec.Owned (s.step a) := by
  intro st o ho
  rcases objects_step s a ho with ⟨mem, clean, notDeleted⟩ | ⟨op, ha, hop, hid, hw⟩
  · have st' : s.stop = .deleted ∨ s.stop = .cleared := by
      rcases stop_step s a with e | ⟨_, e⟩ | ⟨e1, e2, _⟩ | ⟨e, _⟩
      · rw [e] at st; exact st
      · rw [e] at st; simp at st
      · exact absurd ⟨e2, e1⟩ notDeleted
      · exact .inl e
    obtain ⟨op, hop, hid, hs⟩ := h st' o mem
    obtain ⟨op', hop'⟩ := ops_persist s a hop
    refine ⟨op', hop', ?_⟩
    rcases stage_step s a hop' with e | ⟨e, _, _⟩ | ⟨old, hold, hid', cases'⟩
    · rw [hop] at e; cases e; exact ⟨hid, hs⟩
    · rw [e] at st'; simp at st'
    · rw [hop] at hold
      cases hold
      refine ⟨hid'.trans hid, ?_⟩
      rcases cases' with c | c | c | c | c | c
      · exact .inl c.2
      · exact .inr (.inl c.2)
      · have := c.2.2; rw [this] at st'; simp at st'
      · rw [c.1] at hs; simp at hs
      · exact absurd hid.symm (clean o.op op c.2.2 hop c.1)
      · exact .inr (.inr c.1)
  · obtain ⟨op', hop'⟩ := ops_persist s a hop
    refine ⟨op', hop', ?_⟩
    subst ha
    rcases stage_step s _ hop' with e | ⟨_, e, _⟩ | ⟨old, hold, hid', cases'⟩
    · rw [hop] at e; cases e; exact ⟨hid, .inl hw⟩
    · have := (List.getElem?_eq_some_iff.1 hop).1
      omega
    · rw [hop] at hold
      cases hold
      refine ⟨hid'.trans hid, ?_⟩
      rcases cases' with c | c | c | c | c | c
      · exact .inl c.2
      · exact .inr (.inl c.2)
      · have hs : State.step s (.write o.op) = s.write o.op op := by simp [State.step, State.on, hop]
        rw [hs, State.write] at hop'
        split at hop'
        · rw [get_set hop, if_pos rfl] at hop'
          cases hop'
          exact .inl hw
        · rw [hop] at hop'; cases hop'; exact .inl hw
      · rw [c.1] at hw; simp at hw
      · rw [c.1] at hw; simp at hw
      · exact .inr (.inr c.1)

theorem owned_run (actions : List Action) : ∀ s : State, Spec.Owned s → Spec.Owned (s.run actions) := by
  induction actions with
  | nil => intro s h; exact h
  | cons a rest ih => intro s h; exact ih _ (owned_step h a)

/-- When the objects of the session have been deleted and all commands have ended with success or with an error, no
object of the session is left. -/
theorem C147_no_files_left_partial {actions : List Action}
    (stopped : (State.run {} actions).stop = .deleted ∨ (State.run {} actions).stop = .cleared)
    (ended : ∀ op ∈ (State.run {} actions).ops, op.stage = .done ∨ op.stage = .failed) :
    (State.run {} actions).objects = [] := by
  have h := owned_run actions {} (by intro st; simp at st) stopped
  cases e : (State.run {} actions).objects with
  | nil => rfl
  | cons o rest =>
    obtain ⟨op, hop, _, hs⟩ := h o (by rw [e]; exact List.mem_cons_self ..)
    rcases ended op (List.mem_of_getElem? hop) with d | d <;> rw [d] at hs <;> simp at hs

/-- A command that writes after the deletion fails and deletes its own objects. -/
def Spec.lateWriter : List Action :=
  [.begin 7 1, .begin 8 2, .write 0, .check 0, .publish 0, .write 1, .close, .delete, .clear, .write 1, .check 1, .cleanup 1]

example : (State.run {} Spec.lateWriter).stop = .cleared
    ∧ (State.run {} (Spec.lateWriter.take 10)).objects = [⟨8, 1, 1⟩]
    ∧ (State.run {} Spec.lateWriter).ops.map Op.stage = [.done, .failed] := by decide

/-- A command that is dropped after the deletion leaves its objects behind. -/
theorem C147_dropped : ∃ actions : List Action,
    (State.run {} actions).stop = .cleared ∧ (State.run {} actions).ops.map Op.stage = [.dropped]
    ∧ (State.run {} actions).objects ≠ [] :=
  ⟨[.begin 7 1, .close, .delete, .clear, .write 0, .drop 0], by decide⟩

theorem stays_cleared {s : State} (h : s.stop = .cleared) (a : Action) : (s.step a).stop = .cleared := by
  rcases stop_step s a with e | ⟨e, _⟩ | ⟨e, _⟩ | ⟨e, _⟩
  · rw [e, h]
  all_goals rw [h] at e; simp at e

/-- If no command is between looking whether the session is stopping and publishing when the registry is cleared,
nothing is published from then on. -/
theorem C147_nothing_published_partial {before after : List Action}
    (deleted : (State.run {} before).stop = .deleted)
    (none_between : ∀ op ∈ (State.run {} before).ops, op.stage ≠ .checked) :
    (State.run {} (before ++ .clear :: after)).registered = [] := by
  rw [run_append]
  generalize State.run {} before = s at deleted none_between ⊢
  show ((s.step .clear).run after).registered = []
  have st : (s.step .clear).stop = .cleared := by simp [State.step, deleted]
  have rg : (s.step .clear).registered = [] := by simp [State.step, deleted]
  have nb : ∀ op ∈ (s.step .clear).ops, op.stage ≠ .checked := by simpa [State.step, deleted] using none_between
  generalize s.step .clear = t at st rg nb
  revert t
  induction after with
  | nil => intro t _ rg _; exact rg
  | cons a rest ih =>
    intro t st rg nb
    refine ih (t.step a) (stays_cleared st a) ?_ ?_
    · rcases registered_step t a with e | ⟨_, e, _⟩ | ⟨i, op, _, hop, c, _, _⟩
      · rw [e, rg]
      · rw [st] at e; simp at e
      · exact absurd c (nb op (List.mem_of_getElem? hop))
    · intro op hop hc
      obtain ⟨j, hj⟩ := List.getElem?_of_mem hop
      rcases stage_step t a hj with e | ⟨e, _, _⟩ | ⟨old, hold, _, cases'⟩
      · exact nb op (List.mem_of_getElem? e) hc
      · rw [st] at e; simp at e
      · rw [st] at cases'
        simp [hc] at cases'

example : (State.run {} (Spec.lateWriter.take 8)).stop = .deleted
    ∧ (State.run {} (Spec.lateWriter.take 8)).registered = [⟨7, 0, 1⟩]
    ∧ ∀ op ∈ (State.run {} (Spec.lateWriter.take 8)).ops, op.stage ≠ .checked := by decide

/-- A command that has looked before the session was stopped may publish after the registry was cleared: its
checkpoint stays published, without its objects. -/
theorem C147_late_publish : ∃ actions : List Action,
    (State.run {} actions).stop = .cleared ∧ (State.run {} actions).ops.map Op.stage = [.done]
    ∧ (State.run {} actions).registered = [⟨7, 0, 1⟩] ∧ (State.run {} actions).objects = [] :=
  ⟨[.begin 7 1, .write 0, .check 0, .close, .delete, .clear, .publish 0], by decide⟩

/-- Once the session is stopping, a command that has not looked yet does not succeed any more, and none begins. -/
theorem C147_stopping_refuses {before after : List Action} (stopping : (State.run {} before).stop ≠ .running) {j : Nat} {op : Op}
    (later : (State.run {} (before ++ after)).ops[j]? = some op) (success : op.stage = .done) :
    ∃ old, (State.run {} before).ops[j]? = some old ∧ (old.stage = .checked ∨ old.stage = .done) := by
  rw [run_append] at later
  revert later success stopping
  generalize State.run {} before = s
  revert op
  suffices ∀ (after : List Action) (s : State), s.stop ≠ .running → ∀ op, (s.run after).ops[j]? = some op →
      (op.stage = .checked ∨ op.stage = .done) → ∃ old, s.ops[j]? = some old ∧ (old.stage = .checked ∨ old.stage = .done) from
    fun {op} st l c => this after s st op l (.inr c)
  intro after
  induction after with
  | nil => intro s _ op h c; exact ⟨op, h, c⟩
  | cons a rest ih =>
    intro s st op h c
    have st' : (s.step a).stop ≠ .running := by
      rcases stop_step s a with e | ⟨e, _⟩ | ⟨_, _, e⟩ | ⟨_, e⟩
      · rw [e]; exact st
      · exact absurd e st
      · rw [e]; simp
      · rw [e]; simp
    obtain ⟨old, ho, hc⟩ := ih (s.step a) st' op h c
    rcases stage_step s a ho with e | ⟨e, _, _⟩ | ⟨older, hold, _, cases'⟩
    · exact ⟨old, e, hc⟩
    · exact absurd e st
    · refine ⟨older, hold, ?_⟩
      rcases cases' with c' | c' | c' | c' | c' | c'
      · rw [c'.2] at hc; simp at hc
      · rw [c'.2] at hc; simp at hc
      · exact absurd c'.2.2 st
      · exact .inl c'.1
      · rw [c'.2.1] at hc; simp at hc
      · rw [c'.1] at hc; simp at hc

example : (State.run {} [.begin 7 1, .write 0, .check 0, .close]).stop ≠ .running
    ∧ (State.run {} ([.begin 7 1, .write 0, .check 0, .close] ++ [.publish 0])).ops[0]? = some ⟨7, 1, 1, .done⟩ := by decide

end Verif.Checkpoint
