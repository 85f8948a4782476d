/-!
# The sessions of the server

The session manager actor: creation on first use, expiry of idle sessions, deletion and failure.

Sources: crates/sail-session/src/session_manager/actor/handler.rs:34-180 (`handle_get_or_create_session`),
182-210 (`handle_probe_idle_session`), 212-247 (`handle_delete_session`), 249-283
(`handle_set_session_failure`); crates/sail-common-datafusion/src/session/activity.rs.

Simplifications: a session context is a number; the job runner, the driver registry and the clean-up
of a deleted session are left out, except that creating a session can go wrong at the points where the
code handles it. Time is a number of ticks, read by `Instant::now`. The actor handles one message at a
time; a delayed message arrives at its time or later (crates/sail-common/src/actor: `send_with_delay`).
`ActivityTracker` cannot fail here (a poisoned lock in the code).
-/

namespace Verif.Connect.Sess

/-- `ServerSessionState`, session_manager/session.rs. A running session has a context, made for a user,
and the time it was last seen active. -/
inductive SState where
  | running (ctx : Nat) (user : String) (activeAt : Nat)
  | deleted
  | failed
  deriving DecidableEq, Repr

/-- `ProbeIdleSession`, a delayed message: the session, the instant it carries and the time it is due. -/
structure Probe where
  id : String
  instant : Nat
  due : Nat
  deriving DecidableEq, Repr

structure State where
  now : Nat
  timeout : Nat
  sessions : List (String × SState)
  probes : List Probe
  nextCtx : Nat
  deriving DecidableEq, Repr

/-- How the creation of a session goes: well, an error of the driver id generator or the job runner
factory (nothing is recorded, handler.rs:63-70, 161), or an error of the driver registry or the session
factory (a failed session is recorded, handler.rs:84-107, 138-158). -/
inductive Creation where
  | ok
  | noRunner
  | noContext
  deriving DecidableEq, Repr

inductive Event where
  | tick (d : Nat)
  | request (id user : String) (c : Creation)
  | fire (p : Probe)
  | delete (id : String)
  | fail (id : String)
  deriving DecidableEq, Repr

/-- What a request gets. -/
inductive Reply where
  | context (ctx : Nat)
  | error
  | none
  deriving DecidableEq, Repr

def init (timeout : Nat) : State :=
  { now := 0, timeout := timeout, sessions := [], probes := [], nextCtx := 0 }

/-- `HashMap::get`. -/
def lookup (id : String) (l : List (String × SState)) : Option SState :=
  (l.find? fun e => e.1 == id).map (·.2)

/-- `HashMap::insert` and the assignment through `get_mut`. -/
def put (id : String) (st : SState) (l : List (String × SState)) : List (String × SState) :=
  (id, st) :: l.filter fun e => e.1 != id

/-- `track_activity` and the delayed probe, handler.rs:164-176. -/
def touch (s : State) (id : String) (ctx : Nat) (user : String) : State :=
  { s with
    sessions := put id (.running ctx user s.now) s.sessions
    probes := ⟨id, s.now, s.now + s.timeout⟩ :: s.probes }

/-- `handle_get_or_create_session`, handler.rs:34-180. The user is looked at only when the session is
created. -/
def request (s : State) (id user : String) (c : Creation) : State × Reply :=
  match lookup id s.sessions with
  | some (.running ctx u _) => (touch s id ctx u, .context ctx)
  | some .deleted => (s, .error)
  | some .failed => (s, .error)
  | none =>
    match c with
    | .ok => (touch { s with nextCtx := s.nextCtx + 1 } id s.nextCtx user, .context s.nextCtx)
    | .noRunner => (s, .error)
    | .noContext => ({ s with sessions := put id .failed s.sessions }, .error)

/-- `handle_probe_idle_session`, handler.rs:182-210. -/
def probe (s : State) (p : Probe) : State :=
  match lookup p.id s.sessions with
  | some (.running _ _ activeAt) =>
    if activeAt ≤ p.instant then { s with sessions := put p.id .deleted s.sessions } else s
  | _ => s

/-- A due probe arrives. -/
def fire (s : State) (p : Probe) : State :=
  if p ∈ s.probes ∧ p.due ≤ s.now then probe { s with probes := s.probes.erase p } p else s

/-- `handle_delete_session`, handler.rs:212-247. -/
def delete (s : State) (id : String) : State × Reply :=
  match lookup id s.sessions with
  | some (.running _ _ _) => ({ s with sessions := put id .deleted s.sessions }, .none)
  | _ => (s, .error)

/-- `handle_set_session_failure`, handler.rs:249-283. -/
def fail (s : State) (id : String) : State :=
  match lookup id s.sessions with
  | some _ => { s with sessions := put id .failed s.sessions }
  | none => s

def step (s : State) : Event → State × Reply
  | .tick d => ({ s with now := s.now + d }, .none)
  | .request id user c => request s id user c
  | .fire p => (fire s p, .none)
  | .delete id => delete s id
  | .fail id => (fail s id, .none)

def run (s : State) : List Event → State
  | [] => s
  | e :: es => run (step s e).1 es

end Verif.Connect.Sess
