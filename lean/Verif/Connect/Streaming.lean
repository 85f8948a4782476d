/-!
# The streaming queries of a session

The table of streaming queries, the tasks that run them and the requests that wait for them.

Sources: crates/sail-spark-connect/src/streaming.rs:14-319;
crates/sail-spark-connect/src/service/plan_executor.rs:302-475 (the two command handlers);
crates/sail-spark-connect/src/session.rs:219-305.

Simplifications: the ids of a query are numbers and a started query gets an id none of whose halves is in
the table (random UUIDs in the code); an error is its message; plans (`explain_query`) are left out; the
table is a list instead of a hash map. Waiting starts in the step that looks up the handles (in the code
the request may be suspended in between, which is the same as starting later with an older handle).
The task of a query is polled by the runtime; one poll consumes items of the stream until the stream is
pending or ends. A poll that never returns, of a stream that is never pending, is no event. A panic in
the stream ends the task without the last line of `run`.
-/

namespace Verif.Connect.Stream

/-- `StreamingQueryId`, streaming.rs:85-89. -/
structure Id where
  query : Nat
  run : Nat
  deriving DecidableEq, Repr

/-- `StreamingQuery`, streaming.rs:14-21. `signalled` if the sender has been taken and used; `gone` if the
task is over, and with it the sending half of `stopped`. -/
structure Query where
  name : String
  error : Option String
  stopped : Bool
  gone : Bool
  signalled : Bool
  awaitable : Bool
  deriving DecidableEq, Repr

/-- `StreamingQuery::new`, streaming.rs:24-43. -/
def Query.new (name : String) : Query := ⟨name, none, false, false, false, true⟩

/-- What the stream of a query returns to `stream.next()`, streaming.rs:71: a batch, an error or the end. -/
inductive Item where
  | batch
  | error (message : String)
  | finish
  deriving DecidableEq, Repr

/-- The inner task of `StreamingQuery::run`, streaming.rs:70-80, over the items that are ready: the error it
leaves and whether it has reached the end of the stream. -/
def consume (err : Option String) : List Item → Option String × Bool
  | [] => (err, false)
  | .batch :: l => consume err l
  | .error m :: l => consume (some m) l
  | .finish :: _ => (err, true)

/-- A poll of the task of a query, `tokio::select!` of streaming.rs:81-84: the branches are polled in a
random order, `signalFirst` says which one is first. The task ends, and says so, if one of the branches
is ready (streaming.rs:85). -/
def pollTask (signalFirst : Bool) (items : List Item) (q : Query) : Query :=
  if q.gone then q
  else if signalFirst && q.signalled then { q with stopped := true, gone := true }
  else
    let r := consume q.error items
    if r.2 || q.signalled then { q with error := r.1, stopped := true, gone := true }
    else { q with error := r.1 }

/-- The task panics while polling the stream: the senders are dropped, streaming.rs:33-35. -/
def panicTask (q : Query) : Query := { q with gone := true }

/-- The body of `stop_query` for a query, streaming.rs:131-133: the signal is sent once. -/
def stopTask (q : Query) : Query := { q with signalled := true }

/-- The body of `reset_stopped_queries` for a query, streaming.rs:245-248. -/
def resetOne (q : Query) : Query := if q.stopped then { q with awaitable := false } else q

/-- Whether `StreamingQueryAwaitHandle::wait` is ready, streaming.rs:271-275: the value is true, or the
sender is gone. -/
def handleReady (q : Query) : Bool := q.stopped || q.gone

/-- The message of the status, streaming.rs:45-62. -/
def Query.message (q : Query) : String :=
  match q.error with
  | some m => m
  | none => if q.stopped then "The query is not active" else "The query is active"

/-- The activity of the status, streaming.rs:60. -/
def Query.isActive (q : Query) : Bool := !q.stopped

/-- What a request waits for: one query (`StreamingQueryAwaitHandle`), or any of some queries
(`StreamingQueryAwaitHandleSet`), where each spawned waiter may have finished. -/
inductive Target where
  | one (id : Id)
  | any (waiters : List (Id × Bool))
  deriving DecidableEq, Repr

structure Wait where
  target : Target
  deadline : Option Nat
  answer : Option Bool
  deriving DecidableEq, Repr

structure State where
  now : Nat
  queries : List (Id × Query)
  waits : List Wait
  deriving DecidableEq, Repr

def init : State := ⟨0, [], []⟩

/-- Lookup in the table. -/
def find (id : Id) (l : List (Id × Query)) : Option Query :=
  (l.find? fun e => decide (e.1 = id)).map (·.2)

/-- Update of an entry of the table. -/
def modify (id : Id) (f : Query → Query) (l : List (Id × Query)) : List (Id × Query) :=
  l.map fun e => if e.1 = id then (e.1, f e.2) else e

/-- The id is new: none of its halves is used. -/
def fresh (id : Id) (l : List (Id × Query)) : Bool :=
  l.all fun e => decide (e.1.query ≠ id.query) && decide (e.1.run ≠ id.run)

/-- `timeout_millis`, streaming.rs:257-264, for an optional timeout: negative timeouts are refused. -/
def timeoutMillis : Option Int → Except Unit (Option Nat)
  | none => .ok none
  | some v => if v < 0 then .error () else .ok (some v.toNat)

inductive Event where
  | start (id : Id) (name : String)
  | stop (id : Id)
  | poll (id : Id) (signalFirst : Bool) (items : List Item)
  | panic (id : Id)
  | reset
  | tick (d : Nat)
  | awaitOne (id : Id) (timeout : Option Int)
  | awaitAny (timeout : Option Int)
  | waiter (w : Nat) (id : Id)
  | pollWait (w : Nat)
  deriving DecidableEq, Repr

/-- What a request gets in the step that receives it. -/
inductive Reply where
  | ok
  | notFound
  | invalid
  | answer (b : Bool)
  | waiting (w : Nat)
  deriving DecidableEq, Repr

/-- The answer of a request for one query when it is polled, `terminated`, streaming.rs:277-287: the inner
future is polled before the deadline. -/
def answerOne (now : Nat) (deadline : Option Nat) (ready : Bool) : Option Bool :=
  if ready then some true
  else match deadline with
    | some d => if d ≤ now then some false else none
    | none => none

/-- The answer of a request for any query when it is polled, `any_terminated`, streaming.rs:299-318: an
empty join set gives false at once. -/
def answerAny (now : Nat) (deadline : Option Nat) (waiters : List (Id × Bool)) : Option Bool :=
  if waiters.isEmpty then some false
  else answerOne now deadline (waiters.any (·.2))

/-- Whether the handle of a query is ready. -/
def readyIn (queries : List (Id × Query)) (id : Id) : Bool :=
  match find id queries with
  | some q => handleReady q
  | none => true

/-- A waiting request is polled. -/
def pollWaitOf (now : Nat) (queries : List (Id × Query)) (w : Wait) : Wait :=
  match w.answer with
  | some _ => w
  | none =>
    match w.target with
    | .one id => { w with answer := answerOne now w.deadline (readyIn queries id) }
    | .any l => { w with answer := answerAny now w.deadline l }

/-- A spawned waiter of a set is polled, streaming.rs:301-303. -/
def runWaiter (queries : List (Id × Query)) (id : Id) (w : Wait) : Wait :=
  match w.target with
  | .one _ => w
  | .any l => { w with target := .any (l.map fun e =>
      if e.1 = id ∧ readyIn queries id = true then (e.1, true) else e) }

/-- Update of a waiting request. -/
def modifyWait (w : Nat) (f : Wait → Wait) (l : List Wait) : List Wait :=
  match l[w]? with
  | some x => l.set w (f x)
  | none => l

/-- `start_streaming_query`, session.rs:219-240; `stop_query`, streaming.rs:125-135; `await_query`,
streaming.rs:213-228, with plan_executor.rs:358-369; `await_queries`, streaming.rs:230-240, with
plan_executor.rs:445-452; `reset_stopped_queries`, streaming.rs:242-248. -/
def step (s : State) : Event → State × Reply
  | .start id name =>
    if fresh id s.queries then
      ({ s with queries := s.queries ++ [(id, Query.new name)] }, .ok)
    else (s, .invalid)
  | .stop id =>
    match find id s.queries with
    | none => (s, .notFound)
    | some _ => ({ s with queries := modify id stopTask s.queries }, .ok)
  | .poll id b items => ({ s with queries := modify id (pollTask b items) s.queries }, .ok)
  | .panic id => ({ s with queries := modify id panicTask s.queries }, .ok)
  | .reset => ({ s with queries := s.queries.map fun e => (e.1, resetOne e.2) }, .ok)
  | .tick d => ({ s with now := s.now + d }, .ok)
  | .awaitOne id timeout =>
    match timeoutMillis timeout with
    | .error _ => (s, .invalid)
    | .ok t =>
      match find id s.queries with
      | none => (s, .notFound)
      | some q =>
        if q.awaitable then
          ({ s with waits := s.waits ++ [⟨.one id, t.map (s.now + ·), none⟩] },
            .waiting s.waits.length)
        else (s, .answer true)
  | .awaitAny timeout =>
    match timeoutMillis timeout with
    | .error _ => (s, .invalid)
    | .ok t =>
      ({ s with waits := s.waits ++ [⟨.any ((s.queries.filter fun e => e.2.awaitable).map
          fun e => (e.1, false)), t.map (s.now + ·), none⟩] }, .waiting s.waits.length)
  | .waiter w id => ({ s with waits := modifyWait w (runWaiter s.queries id) s.waits }, .ok)
  | .pollWait w => ({ s with waits := modifyWait w (pollWaitOf s.now s.queries) s.waits }, .ok)

def run (s : State) : List Event → State
  | [] => s
  | e :: es => run (step s e).1 es

/-- `get_query_status`, streaming.rs:171-178. -/
def status (s : State) (id : Id) : Option (String × String × Bool) :=
  (find id s.queries).map fun q => (q.name, q.message, q.isActive)

/-- `get_query_error`, streaming.rs:180-187. -/
def exception (s : State) (id : Id) : Option (Option String) :=
  (find id s.queries).map (·.error)

/-- `list_active_queries`, streaming.rs:200-211, with the names. -/
def active (s : State) : List (Id × String) :=
  (s.queries.filter fun e => !e.2.stopped).map fun e => (e.1, e.2.name)

/-- `find_query_by_query_id`, streaming.rs:189-201. -/
def getQuery (s : State) (q : Nat) : Option (Id × String) :=
  (s.queries.find? fun e => decide (e.1.query = q)).map fun e => (e.1, e.2.name)

end Verif.Connect.Stream
