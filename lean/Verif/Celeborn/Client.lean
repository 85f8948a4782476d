import Verif.Celeborn.Lifecycle
import Verif.Celeborn.Transport

/-!
# The shuffle client

Model of `ShuffleClientActor` (`crates/sail-celeborn/src/shuffle/actor`): what a client knows
about the shuffles of a job, where it pushes, and what it reads.
-/

namespace Verif.Celeborn.Client

open Verif.Catalog

/-- The fields of `ShuffleClientActor` (`shuffle/actor/mod.rs`) that handlers change. The pool
of connections is left out. -/
structure State where
  ids : List ((Nat × Nat) × Int) := []
  locations : List ((Int × Int) × Loc) := []
  history : List ((Int × Int) × List Loc) := []
  batches : List ((Int × Int × Int) × BitVec 32) := []
deriving DecidableEq, Repr

/-- Whether a location takes the place of the latest one (`handler.rs:469-475`). -/
def newer (l : Loc) : Option Loc → Bool
  | none => true
  | some c => decide (c.epoch ≤ l.epoch)

/-- `update_partition_location` (`handler.rs:459-476`). -/
def State.learn (s : State) (sid : Int) (l : Loc) : State :=
  let key := (sid, l.id)
  let h := (find s.history key).getD []
  let h := if h.any (fun x => decide (x.uid = l.uid)) then h
    else (h ++ [l]).mergeSort (fun a b => decide (a.epoch ≤ b.epoch))
  { s with history := put s.history key h, locations := if newer l (find s.locations key) then put s.locations key l else s.locations }

/-- The locations of a reservation that a client learns (`handler.rs:140-150`). -/
def primaries (r : Reservation) : List Loc :=
  let l := r.slots.flatMap fun e => e.2.primary
  if l = [] then r.primary.map (·.2) else l

/-- Forgetting a shuffle (`handler.rs:328-331`, `:342-345`). -/
def State.forget (s : State) (sid : Int) : State where
  ids := s.ids.filter fun e => decide (e.2 ≠ sid)
  locations := s.locations.filter fun e => decide (e.1.1 ≠ sid)
  history := s.history.filter fun e => decide (e.1.1 ≠ sid)
  batches := s.batches.filter fun e => decide (e.1.1 ≠ sid)

/-- The messages of the actor (`message.rs:11-80`) that use or change its state. The others
are passed on to the lifecycle manager. -/
inductive Msg
  | getId (job stage : Nat)
  | gotId (job stage : Nat) (r : Except Err Int)
  | gotIds (job : Nat) (r : Except Err (List (Nat × Int)))
  | registered (sid : Int) (r : Except Err Reservation)
  | push (sid pid map attempt : Int)
  | pushed (sid pid : Int) (l : Option Loc)
  | unregistered (sid : Int) (r : Except Err Unit)
  | cleanUp (sid : Int)
  | read (sid pid : Int)
  | reread (sid pid : Int) (r : Except Err Reservation)

/-- What the actor does: `ask` asks the lifecycle manager; `pushTo` starts the task that
pushes; `openAll` is the stream over the locations, one after the other; `notRegistered` is
the error. -/
inductive Out
  | id (i : Int)
  | ids (l : List (Nat × Int))
  | ask
  | passed
  | pushTo (l : Loc) (batch : BitVec 32)
  | openAll (ls : List Loc)
  | notRegistered
  | failed
deriving DecidableEq, Repr

/-- `ShuffleClientActor::receive` (`core.rs:26-126`) with the handlers. -/
def State.step (s : State) : Msg → State × Out
  -- `handle_get_shuffle_id`, `handler.rs:18-44`
  | .getId job stage =>
    match find s.ids (job, stage) with
    | some i => (s, .id i)
    | none => (s, .ask)
  -- `handle_get_shuffle_id_complete`, `handler.rs:45-59`
  | .gotId job stage r =>
    match r with
    | .ok i => ({ s with ids := put s.ids (job, stage) i }, .id i)
    | .error _ => (s, .failed)
  -- `handle_get_job_shuffle_ids_complete`, `handler.rs:82-105`
  | .gotIds job r =>
    match r with
    | .ok l =>
      let ids := l.foldl (fun m e => put m (job, e.1) e.2) s.ids
      ({ s with ids := ids }, .ids (ids.filterMap fun e => if e.1.1 = job then some (e.1.2, e.2) else none))
    | .error _ => (s, .failed)
  -- `handle_register_shuffle_complete`, `handler.rs:133-154`
  | .registered sid r =>
    match r with
    | .ok res => ((primaries res).foldl (fun s l => s.learn sid l) s, .passed)
    | .error _ => (s, .failed)
  -- `handle_push_data`, `handler.rs:156-187`
  | .push sid pid map attempt =>
    match find s.locations (sid, pid) with
    | none => (s, .notRegistered)
    | some l =>
      let b := (find s.batches (sid, map, attempt)).getD 0
      ({ s with batches := put s.batches (sid, map, attempt) (b + 1) }, .pushTo l b)
  -- `handle_push_data_complete`, `handler.rs:264-278`
  | .pushed sid _ l =>
    match l with
    | some l => (s.learn sid l, .passed)
    | none => (s, .passed)
  -- `handle_unregister_shuffle_complete`, `handler.rs:321-335`
  | .unregistered sid r =>
    match r with
    | .ok _ => (s.forget sid, .passed)
    | .error _ => (s, .failed)
  -- `handle_clean_up_shuffle`, `handler.rs:337-348`
  | .cleanUp sid => (s.forget sid, .passed)
  -- `handle_read_partition_stream`, `handler.rs:350-384`
  | .read sid pid =>
    match find s.history (sid, pid) with
    | none => (s, .notRegistered)
    | some _ => (s, .ask)
  -- `handle_read_partition_stream_complete`, `handler.rs:386-448`
  | .reread sid pid r =>
    match r with
    | .error _ => (s, .failed)
    | .ok res =>
      let s := (res.slots.flatMap fun e => e.2.primary.filter fun l => decide (l.id = pid)).foldl
        (fun s l => s.learn sid l) s
      match find s.history (sid, pid) with
      | none => (s, .notRegistered)
      | some ls => (s, .openAll ls)

/-- A number of messages. -/
def State.run (s : State) : List Msg → State × List Out
  | [] => (s, [])
  | m :: ms =>
    let r := s.step m
    let rs := r.1.run ms
    (rs.1, r.2 :: rs.2)

/-! ## Pushing a batch -/

/-- How a push can fail (`error.rs`): the worker gave a status, the connection broke, the time
was up, or something else. -/
inductive PushErr
  | worker (status : Int)
  | io
  | timeout
  | other
deriving DecidableEq, Repr

/-- `push_failure_cause` (`handler.rs:479-486`). -/
def PushErr.cause : PushErr → Option Int
  | .worker s => some s
  | .io => some 38
  | .timeout => some 42
  | .other => none

/-- What is told to who pushed: the number of bytes, an error of the push or an error of the
lifecycle manager. -/
inductive PushReply
  | ok (n : Nat)
  | push (e : PushErr)
  | lifecycle (e : Err)
deriving DecidableEq, Repr

/-- The task of `handle_push_data` (`handler.rs:188-260`), for the results of the first push,
of the revival and of the second push. The result has the locations to which the batch was
sent, the causes for which the lifecycle manager was asked, the location for
`PushDataComplete` and the reply. The length is that of the data; a push that is accepted
counts 16 more (`worker/client.rs:329-330`). -/
def pushTask (l : Loc) (len : Nat) (first : Except PushErr Unit) (revival : Except Err Loc)
    (second : Except PushErr Unit) : List Loc × Option Int × Option Loc × PushReply :=
  match first with
  | .ok _ => ([l], none, none, .ok (len + 16))
  | .error e =>
    if e = .worker 22 then
      match revival with
      | .ok l' => ([l], some 22, some l', .ok (len + 16))
      | .error e => ([l], some 22, none, .lifecycle e)
    else
      match e.cause with
      | none => ([l], none, none, .push e)
      | some c =>
        match revival with
        | .error e => ([l], some c, none, .lifecycle e)
        | .ok l' =>
          match second with
          | .ok _ => ([l, l'], some c, some l', .ok (len + 16))
          | .error e => ([l, l'], some c, some l', .push e)

end Verif.Celeborn.Client
