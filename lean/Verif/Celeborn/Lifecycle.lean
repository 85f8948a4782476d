import Verif.Catalog.Assoc

/-!
# The Celeborn lifecycle manager

`crates/sail-celeborn/src/lifecycle/actor`: the actor in the driver that hands out shuffle
ids, reserves and replaces partition locations, records which attempt of every mapper ended
first, commits the files of a shuffle when all mappers ended, and reports metrics to the
Celeborn master.

The actor handles one message at a time. Work that waits for a Celeborn master or worker is
spawned as a task, and the end of the task comes back as another message. A `oneshot` sender
through which a caller is answered is a value of an arbitrary type `ρ`.
-/

namespace Verif.Celeborn

open Verif.Catalog (find erase put)

/-- `PartitionLocation` (`common.rs:228-238`). The host and the four ports, which together
are the `WorkerIdentity` (`common.rs:57-63`), are one number; of the replica (`peer`) only
its worker is kept; `mode` is left out, since it is only passed on. -/
structure Loc where
  id : Int
  epoch : Int
  worker : Nat
  peer : Option Nat
deriving DecidableEq, Repr

/-- `PartitionLocation::unique_id` (`common.rs:241-243`): the text `{id}-{epoch}`, which
determines the two numbers and is determined by them. -/
def Loc.uid (l : Loc) : Int × Int := (l.id, l.epoch)

/-- `PartitionLocation::set_epoch` (`common.rs:255-260`). -/
def Loc.setEpoch (l : Loc) (e : Int) : Loc := { l with epoch := e }

/-- `WorkerSlotLocations` (`common.rs:203-207`). -/
structure Slots where
  primary : List Loc
  replica : List Loc
deriving DecidableEq, Repr

/-- `SlotReservation` (`common.rs:40-49`). -/
structure Reservation where
  workers : List Nat
  primary : List (Int × Loc)
  slots : List (Nat × Slots)
deriving DecidableEq, Repr

/-- `SlotReservation::with_epoch` (`lifecycle/actor/handler.rs:637-650`). -/
def Reservation.withEpoch (r : Reservation) (e : Int) : Reservation :=
  { r with
    primary := r.primary.map fun p => (p.1, p.2.setEpoch e)
    slots := r.slots.map fun p =>
      (p.1, ⟨p.2.primary.map (·.setEpoch e), p.2.replica.map (·.setEpoch e)⟩) }

/-- The reservation that the client reads out of the answer of the master
(`master/client.rs:178-224`): a map from workers to the primary and replica locations on
them, in any order. Sorting the worker ids is left out: the order is not used. -/
def Reservation.addAll (r : Reservation) : List (Nat × Slots) → Reservation
  | [] => r
  | (w, s) :: rest =>
    addAll (if s.primary = [] ∧ s.replica = [] then { r with workers := r.workers ++ [w] }
      else ⟨r.workers ++ [w], s.primary.foldl (fun m l => put m l.id l) r.primary,
        put r.slots w s⟩) rest

def Reservation.ofResponse (resp : List (Nat × Slots)) : Reservation :=
  Reservation.addAll ⟨[], [], []⟩ resp

/-- `append_locations` (`handler.rs:676-685`). -/
def appendLocs (target : List Loc) : List Loc → List Loc
  | [] => target
  | l :: ls =>
    appendLocs (if target.any (fun x => decide (x.uid = l.uid)) then target else target ++ [l]) ls

/-- `merge_worker_locations` (`handler.rs:653-674`). -/
def mergeSlots (target : List (Nat × Slots)) : List (Nat × Slots) → List (Nat × Slots)
  | [] => target
  | (w, s) :: rest =>
    let t := (find target w).getD ⟨[], []⟩
    mergeSlots (put target w ⟨appendLocs t.primary s.primary, appendLocs t.replica s.replica⟩) rest

/-- `ApplicationMetrics` (`common.rs:122-130`), without the two maps of fallback counts,
which nothing in the repository fills. The numbers are `i64`. -/
structure Metrics where
  written : Int
  files : Int
  shuffles : Int
  apps : Int
deriving DecidableEq, Repr

def Metrics.zero : Metrics := ⟨0, 0, 0, 0⟩

/-- `i64::saturating_add`. -/
def satAdd (a b : Int) : Int := max (-(2 : Int) ^ 63) (min (2 ^ 63 - 1) (a + b))

/-- `ApplicationMetrics::add_assign` (`common.rs:133-148`). -/
def Metrics.add (a b : Metrics) : Metrics :=
  ⟨satAdd a.written b.written, satAdd a.files b.files, satAdd a.shuffles b.shuffles,
    satAdd a.apps b.apps⟩

/-- `ApplicationRegistration` (`lifecycle/actor/mod.rs:19-23`). -/
inductive Registration | pending | succeeded | failed
deriving DecidableEq, Repr

/-- `ApplicationRegistration::error` (`mod.rs:25-37`): whether there is an error. -/
def Registration.error : Registration → Bool
  | .succeeded => false
  | _ => true

/-- The errors, one constructor for every place that makes one. -/
inductive Err
  | application | exhausted | ended | unregistered | epoch | noLocation | cancelled
  | mappers | range | count | remote
deriving DecidableEq, Repr

/-- The fields of `LifecycleManagerActor` (`mod.rs:45-62`) that handlers change. -/
structure State (ρ : Type) where
  registration : Registration
  excluded : List (Nat × Loc)
  registered : List (Int × List (Nat × Slots))
  reservations : List (Int × Reservation)
  pendingSlots : List (Int × List ρ)
  pendingRevives : List ((Int × Int) × List ρ)
  attempts : List (Int × List Int)
  committing : List Int
  committed : List Int
  ids : List ((Nat × Nat) × Int)
  next : Int
  metrics : Metrics
  heartbeat : Option Metrics

/-- `new` and `start` (`core.rs:17-59`): `reg` is how registering the application with the
master ended. -/
def State.init (ρ : Type) (reg : Registration) : State ρ where
  registration := reg
  excluded := []
  registered := []
  reservations := []
  pendingSlots := []
  pendingRevives := []
  attempts := []
  committing := []
  committed := []
  ids := []
  next := 0
  metrics := if reg = .succeeded then { Metrics.zero with apps := 1 } else Metrics.zero
  heartbeat := none

/-- What a caller is told. -/
inductive Answer
  | id (r : Except Err Int)
  | ids (l : List (Nat × Int))
  | slots (r : Except Err Reservation)
  | loc (r : Except Err Loc)
  | done (r : Except Err Unit)
  | stopped

/-- The futures that handlers spawn, with what they captured. -/
inductive Task (ρ : Type)
  | slots (sid : Int) (parts : List Int) (replicate : Bool) (maxWorkers : Int)
  | revive (sid pid : Int) (replicate : Bool) (excluded : List Loc) (epoch : Int)
  | commit (sid : Int) (slots : List (Nat × Slots)) (attempts : List Int) (r : ρ)
  | unregister (sid : Int) (r : ρ)
  | cleanup (sid : Int)
  | heartbeat (m : Metrics)
  | stop (sids : List Int) (r : ρ)

/-- The messages that come from outside the actor (`message.rs`), and the timer. -/
inductive Request (ρ : Type)
  | getId (job stage : Nat) (r : ρ)
  | jobIds (job : Nat) (r : ρ)
  | register (sid : Int) (parts : List Int) (replicate : Bool) (maxWorkers : Int) (r : ρ)
  | revive (sid pid : Int) (old : Loc) (cause : Int) (r : ρ)
  | mapperEnd (sid map attempt n : Int) (r : ρ)
  | unregister (sid : Int) (r : ρ)
  | report (m : Metrics) (r : ρ)
  | heartbeat
  | stop (r : ρ)

/-- The messages that tasks send to the actor. -/
inductive Done (ρ : Type)
  | registered (sid : Int) (res : Except Err Reservation)
  | revived (sid pid : Int) (res : Except Err Reservation)
  | committed (sid : Int) (res : Except Err Metrics) (r : ρ)
  | unregistered (sid : Int) (res : Except Err Unit) (r : ρ)
  | heartbeat (res : Except Err Unit)
  | stopped (r : ρ)

/-- What handling a message does: the new state, the answers given and the tasks spawned. -/
structure Effect (ρ : Type) where
  st : State ρ
  said : List (ρ × Answer) := []
  tasks : List (Task ρ) := []

variable {ρ : Type}

/-- The largest `i32`. -/
def maxI32 : Int := 2 ^ 31 - 1

/-- `handle_get_shuffle_id` (`handler.rs:59-81`). -/
def getId (s : State ρ) (job stage : Nat) (r : ρ) : Effect ρ :=
  match find s.ids (job, stage) with
  | some i => ⟨s, [(r, .id (.ok i))], []⟩
  | none =>
    if s.next = maxI32 then ⟨s, [(r, .id (.error .exhausted))], []⟩
    else ⟨{ s with next := s.next + 1, ids := put s.ids (job, stage) (s.next + 1) },
      [(r, .id (.ok (s.next + 1)))], []⟩

/-- `handle_get_job_shuffle_ids` (`handler.rs:83-97`). -/
def jobIds (s : State ρ) (job : Nat) (r : ρ) : Effect ρ :=
  ⟨s, [(r, .ids (s.ids.filterMap fun e => if e.1.1 = job then some (e.1.2, e.2) else none))], []⟩

/-- `handle_register_shuffle` (`handler.rs:99-181`). The code notes the caller as waiting and
forgets it again when the application is not registered; here it is not noted. -/
def register (s : State ρ) (sid : Int) (parts : List Int) (replicate : Bool) (maxWorkers : Int)
    (r : ρ) : Effect ρ :=
  match find s.reservations sid with
  | some res => ⟨s, [(r, .slots (.ok res))], []⟩
  | none =>
    match find s.pendingSlots sid with
    | some rs => ⟨{ s with pendingSlots := put s.pendingSlots sid (rs ++ [r]) }, [], []⟩
    | none =>
      if s.registration.error then ⟨s, [(r, .slots (.error .application))], []⟩
      else ⟨{ s with pendingSlots := put s.pendingSlots sid [r] }, [],
        [.slots sid parts replicate maxWorkers]⟩

/-- `handle_register_shuffle_complete` (`handler.rs:183-207`). -/
def registerDone (s : State ρ) (sid : Int) (res : Except Err Reservation) : Effect ρ :=
  let rs := (find s.pendingSlots sid).getD []
  let s := { s with pendingSlots := erase s.pendingSlots sid }
  match res with
  | .ok res =>
    ⟨{ s with
        registered := put s.registered sid res.slots
        reservations := put s.reservations sid res
        metrics := { s.metrics with shuffles := satAdd s.metrics.shuffles 1 } },
      rs.map fun r => (r, .slots (.ok res)), []⟩
  | .error e => ⟨s, rs.map fun r => (r, .slots (.error e)), []⟩

/-- The causes for which the worker of the old location is excluded (`handler.rs:603-611`,
numbers from `protocol/mod.rs:13-84`). -/
def primaryCauses : List Int := [19, 38, 40, 42, 44]

/-- The causes for which the worker of its replica is excluded (`handler.rs:612-618`). -/
def replicaCauses : List Int := [18, 39, 41, 43, 45]

/-- `exclude_failed_workers` (`handler.rs:601-633`). The location kept for a worker is the
first that was reported; it only serves to name the worker. -/
def exclude (ex : List (Nat × Loc)) (old : Loc) (cause : Int) : List (Nat × Loc) :=
  if cause ∈ primaryCauses then
    if (find ex old.worker).isSome then ex else put ex old.worker old
  else if cause ∈ replicaCauses then
    match old.peer with
    | none => ex
    | some w => if (find ex w).isSome then ex else put ex w { old with worker := w, peer := none }
  else ex

/-- `handle_revive` (`handler.rs:209-324`). -/
def revive (s : State ρ) (sid pid : Int) (old : Loc) (cause : Int) (r : ρ) : Effect ρ :=
  if s.registration.error then ⟨s, [(r, .loc (.error .application))], []⟩
  else if sid ∈ s.committing ∨ sid ∈ s.committed then ⟨s, [(r, .loc (.error .ended))], []⟩
  else
    match (find s.reservations sid).bind fun res => find res.primary pid with
    | none => ⟨s, [(r, .loc (.error .unregistered))], []⟩
    | some current =>
      if current.epoch > old.epoch then ⟨s, [(r, .loc (.ok current))], []⟩
      else if current.epoch ≠ old.epoch then ⟨s, [(r, .loc (.error .epoch))], []⟩
      else
        let s := { s with excluded := exclude s.excluded old cause }
        match find s.pendingRevives (sid, pid) with
        | some rs =>
          ⟨{ s with pendingRevives := put s.pendingRevives (sid, pid) (rs ++ [r]) }, [], []⟩
        | none =>
          ⟨{ s with pendingRevives := put s.pendingRevives (sid, pid) [r] }, [],
            [.revive sid pid current.peer.isSome (s.excluded.map (·.2)) current.epoch]⟩

/-- `handle_revive_complete` (`handler.rs:326-391`). Sorting the worker ids is left out: the
order is not used. -/
def reviveDone (s : State ρ) (sid pid : Int) (res : Except Err Reservation) : Effect ρ :=
  let rs := (find s.pendingRevives (sid, pid)).getD []
  let s := { s with pendingRevives := erase s.pendingRevives (sid, pid) }
  match res with
  | .error e => ⟨s, rs.map fun r => (r, .loc (.error e)), []⟩
  | .ok rep =>
    match find rep.primary pid with
    | none => ⟨s, rs.map fun r => (r, .loc (.error .noLocation)), []⟩
    | some l =>
      match find s.reservations sid with
      | none => ⟨s, rs.map fun r => (r, .loc (.error .cancelled)), [.cleanup sid]⟩
      | some res =>
        let res := { res with
          primary := put res.primary pid l
          slots := mergeSlots res.slots rep.slots
          workers := (res.workers ++ rep.workers).eraseDups }
        let registered := match find s.registered sid with
          | some t => put s.registered sid (mergeSlots t rep.slots)
          | none => s.registered
        ⟨{ s with reservations := put s.reservations sid res, registered := registered },
          rs.map fun r => (r, .loc (.ok l)), []⟩

/-- `handle_mapper_end` (`handler.rs:393-502`). -/
def mapperEnd (s : State ρ) (sid map attempt n : Int) (r : ρ) : Effect ρ :=
  if n ≤ 0 then ⟨s, [(r, .done (.error .mappers))], []⟩
  else if map < 0 ∨ n ≤ map then ⟨s, [(r, .done (.error .range))], []⟩
  else if sid ∈ s.committed then ⟨s, [(r, .done (.ok ()))], []⟩
  else
    match find s.registered sid with
    | none => ⟨s, [(r, .done (.error .unregistered))], []⟩
    | some slots =>
      let att := (find s.attempts sid).getD (List.replicate n.toNat (-1))
      let s := { s with attempts := put s.attempts sid att }
      if att.length ≠ n.toNat then ⟨s, [(r, .done (.error .count))], []⟩
      else if att[map.toNat]? ≠ some (-1) then ⟨s, [(r, .done (.ok ()))], []⟩
      else
        let att := att.set map.toNat attempt
        let s := { s with attempts := put s.attempts sid att }
        if -1 ∈ att then ⟨s, [(r, .done (.ok ()))], []⟩
        else
          ⟨{ s with committing := sid :: s.committing.filter (fun i => decide (i ≠ sid)) }, [],
            [.commit sid slots att r]⟩

/-- `handle_mapper_end_complete` (`handler.rs:504-521`). -/
def mapperEndDone (s : State ρ) (sid : Int) (res : Except Err Metrics) (r : ρ) : Effect ρ :=
  let s := { s with committing := s.committing.filter (fun i => decide (i ≠ sid)) }
  match res with
  | .ok m =>
    ⟨{ s with
        committed := sid :: s.committed.filter (fun i => decide (i ≠ sid))
        metrics := s.metrics.add m }, [(r, .done (.ok ()))], []⟩
  | .error e => ⟨s, [(r, .done (.error e))], []⟩

/-- `handle_unregister_shuffle` (`handler.rs:523-547`). -/
def unregister (s : State ρ) (sid : Int) (r : ρ) : Effect ρ :=
  if s.registration.error then ⟨s, [(r, .done (.error .application))], []⟩
  else ⟨s, [], [.unregister sid r]⟩

/-- `handle_unregister_shuffle_complete` (`handler.rs:549-565`). -/
def unregisterDone (s : State ρ) (sid : Int) (res : Except Err Unit) (r : ρ) : Effect ρ :=
  match res with
  | .ok () =>
    ⟨{ s with
        ids := s.ids.filter fun e => decide (e.2 ≠ sid)
        registered := erase s.registered sid
        reservations := erase s.reservations sid
        attempts := erase s.attempts sid
        committing := s.committing.filter (fun i => decide (i ≠ sid))
        committed := s.committed.filter (fun i => decide (i ≠ sid)) },
      [(r, .done (.ok ()))], []⟩
  | .error e => ⟨s, [(r, .done (.error e))], []⟩

/-- `handle_report_metrics` (`handler.rs:15-23`). -/
def report (s : State ρ) (m : Metrics) (r : ρ) : Effect ρ :=
  ⟨{ s with metrics := s.metrics.add m }, [(r, .done (.ok ()))], []⟩

/-- `handle_heartbeat` (`handler.rs:25-45`). -/
def heartbeat (s : State ρ) : Effect ρ :=
  match s.heartbeat with
  | some _ => ⟨s, [], []⟩
  | none => ⟨{ s with metrics := Metrics.zero, heartbeat := some s.metrics }, [],
      [.heartbeat s.metrics]⟩

/-- `handle_heartbeat_complete` (`handler.rs:47-57`). -/
def heartbeatDone (s : State ρ) (res : Except Err Unit) : Effect ρ :=
  match res with
  | .error _ =>
    match s.heartbeat with
    | some m => ⟨{ s with heartbeat := none, metrics := s.metrics.add m }, [], []⟩
    | none => ⟨s, [], []⟩
  | .ok () => ⟨{ s with heartbeat := none }, [], []⟩

/-- `handle_stop` (`handler.rs:567-592`). -/
def stop (s : State ρ) (r : ρ) : Effect ρ := ⟨s, [], [.stop (s.registered.map (·.1)) r]⟩

/-- `receive` (`core.rs:61-129`), for messages from outside. -/
def request (s : State ρ) : Request ρ → Effect ρ
  | .getId job stage r => getId s job stage r
  | .jobIds job r => jobIds s job r
  | .register sid parts b m r => register s sid parts b m r
  | .revive sid pid old cause r => revive s sid pid old cause r
  | .mapperEnd sid map attempt n r => mapperEnd s sid map attempt n r
  | .unregister sid r => unregister s sid r
  | .report m r => report s m r
  | .heartbeat => heartbeat s
  | .stop r => stop s r

/-- `receive` (`core.rs:61-129`), for messages from tasks. `StopComplete` stops the actor:
see `World.step`. -/
def done (s : State ρ) : Done ρ → Effect ρ
  | .registered sid res => registerDone s sid res
  | .revived sid pid res => reviveDone s sid pid res
  | .committed sid res r => mapperEndDone s sid res r
  | .unregistered sid res r => unregisterDone s sid res r
  | .heartbeat res => heartbeatDone s res
  | .stopped r => ⟨s, [(r, .stopped)], []⟩

/-! ## The actor and its tasks -/

/-- What the Celeborn master and workers make of a task: they fail it, or they reserve
slots, commit files, or do what was asked. -/
inductive Remote
  | failed
  | reserved (r : Reservation)
  | committed (m : Metrics)
  | fine

/-- The message that a task sends when it ends (the ends of the futures at
`handler.rs:38-43`, `:134-179`, `:269-322`, `:352-358`, `:460-500`, `:536-545`, `:576-590`).
`none`: the answer does not fit the task; `some none`: no message is sent. A reservation is
told to the actor when the master granted it and all workers confirmed it, a commit when all
workers confirmed it; the answers of the single workers are one answer here. -/
def finish : Task ρ → Remote → Option (Option (Done ρ))
  | .slots sid _ _ _, .failed => some (some (.registered sid (.error .remote)))
  | .slots sid _ _ _, .reserved r => some (some (.registered sid (.ok r)))
  | .revive sid pid _ _ _, .failed => some (some (.revived sid pid (.error .remote)))
  | .revive sid pid _ _ e, .reserved r =>
    if e = maxI32 then some (some (.revived sid pid (.error .remote)))
    else some (some (.revived sid pid (.ok (r.withEpoch (e + 1)))))
  | .commit sid _ _ r, .failed => some (some (.committed sid (.error .remote) r))
  | .commit sid _ _ r, .committed m => some (some (.committed sid (.ok m) r))
  | .unregister sid r, .failed => some (some (.unregistered sid (.error .remote) r))
  | .unregister sid r, .fine => some (some (.unregistered sid (.ok ()) r))
  | .cleanup _, .failed => some none
  | .cleanup _, .fine => some none
  | .heartbeat _, .failed => some (some (.heartbeat (.error .remote)))
  | .heartbeat _, .fine => some (some (.heartbeat (.ok ())))
  | .stop _ r, .fine => some (some (.stopped r))
  | _, _ => none

/-- The actor, the tasks in flight, the answers given so far, the tasks that ended and how,
and whether the actor stopped. -/
structure World (ρ : Type) where
  st : State ρ
  tasks : List (Task ρ) := []
  said : List (ρ × Answer) := []
  ended : List (Task ρ × Remote) := []
  stopped : Bool := false

/-- What can happen next: a request arrives, or the task at a position ends. -/
inductive Event (ρ : Type)
  | ask (q : Request ρ)
  | finish (i : Nat) (a : Remote)

/-- A message was handled. -/
def World.apply (w : World ρ) (e : Effect ρ) : World ρ :=
  { w with st := e.st, tasks := w.tasks ++ e.tasks, said := w.said ++ e.said }

/-- The actor gets the message of a task that ended. -/
def World.handle (w : World ρ) : Option (Done ρ) → World ρ
  | none => w
  | some d =>
    if w.stopped then w
    else { w.apply (done w.st d) with stopped := match d with | .stopped _ => true | _ => false }

/-- One event. An actor that stopped handles no message; the tasks are ended in any order. -/
def World.step (w : World ρ) : Event ρ → World ρ
  | .ask q => if w.stopped then w else w.apply (request w.st q)
  | .finish i a =>
    match w.tasks[i]? with
    | none => w
    | some t =>
      match finish t a with
      | none => w
      | some d => ({ w with tasks := w.tasks.eraseIdx i, ended := w.ended ++ [(t, a)] }).handle d

/-- Any number of events. -/
def World.run (w : World ρ) : List (Event ρ) → World ρ
  | [] => w
  | e :: es => (w.step e).run es

/-- The actor after `start`. -/
def World.init (ρ : Type) (reg : Registration) : World ρ := { st := State.init ρ reg }

end Verif.Celeborn
