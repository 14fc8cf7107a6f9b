/-
Model of the tasks of `location-importer update-geofeeds` and of the connections they get: `handle_update_geofeeds` and
`_fetch_geofeed` (`src/scripts/location-importer.in:1824-1857, 1994`) and the class `Connection`
(`src/python/location/database.py:14-85`).

Tasks run on the event loop of `asyncio`: one callback after the other, in the order in which they became ready.  What the
classes `Semaphore`, `TaskGroup` and `Task` of `asyncio` do is modelled after CPython 3.11, what `ConnectionPool` does after
psycopg_pool; neither is part of the repository.

Simplified: what a task does between two points at which it waits is one step; a task waits only for the semaphore
and for its download (`asyncio.to_thread`, 1861).  The two callbacks for the end of a task (that of the task group and
`__release_connection`) are one.  When the task group cancels the tasks, those that have not got a connection yet end without
one; the others leave as if their download had failed.
-/
namespace Loc

/-- A callback on the event loop that is ready to run -/
inductive Callback
  /-- the first step of a task -/
  | start (i : Nat)
  /-- the task that waited has got its place in the semaphore -/
  | wake (i : Nat)
  /-- the download of the task has ended; `bad` if with an exception that `_fetch_geofeed` does not catch -/
  | resume (i : Nat) (bad : Bool)
  /-- the task has ended -/
  | ended (i : Nat) (bad : Bool)
  deriving DecidableEq, Repr

/-- The state of the program.  `held` is `Connection.__connections`: the task (`none` is the one that runs
    `handle_update_geofeeds`) and the number of its connection; `idle` are the connections in the pool, `opened` counts the
    connections opened so far.  `over` are the tasks that have ended; with `true` those that ended with an exception. -/
structure Tasks where
  queue : List Callback
  places : Nat
  waiting : List Nat
  running : List Nat
  held : List (Option Nat × Nat)
  idle : List Nat
  opened : Nat
  aborting : Bool
  over : List (Nat × Bool)
  deriving Repr

/-- location-importer.in:1824-1832: the semaphore has 32 places, all tasks are created before the first one runs.  The task that
    creates them has got a connection (1772). -/
def tasksNew (n : Nat) : Tasks :=
  { queue := (List.range n).map .start, places := 32, waiting := [], running := [], held := [(none, 0)], idle := [],
    opened := 1, aborting := false, over := [] }

/-- `Connection.connection`, database.py:47-69, with `ConnectionPool.getconn` and `max_size=512` (line 28).  If all
    connections are given away, `getconn` blocks the event loop, so that no task can give one back: `none`. -/
def getConnection (s : Tasks) (task : Option Nat) : Option Tasks :=
  if task ∈ s.held.map (·.1) then some s
  else match s.idle with
    | c :: l => some { s with held := s.held ++ [(task, c)], idle := l }
    | [] => if s.held.length < 512 then some { s with held := s.held ++ [(task, s.opened)], opened := s.opened + 1 } else none

/-- `Connection.__release_connection`, database.py:71-85 -/
def releaseConnection (s : Tasks) (task : Option Nat) : Tasks :=
  { s with held := s.held.filter (·.1 ≠ task), idle := s.idle ++ (s.held.filter (·.1 = task)).map (·.2) }

/-- location-importer.in:1852-1862: the task has a place; it gets a connection (1855) and starts its download. -/
def enterTask (s : Tasks) (i : Nat) : Option Tasks :=
  (getConnection s (some i)).map fun s => { s with running := s.running ++ [i] }

/-- `Semaphore.release`, at the end of line 1852's block: the first task that waits gets the place. -/
def releasePlace (s : Tasks) : Tasks :=
  match s.waiting with
  | [] => { s with places := s.places + 1 }
  | j :: l => { s with waiting := l, queue := s.queue ++ [.wake j] }

/-- `TaskGroup._abort` after the first exception: all tasks are cancelled. -/
def abortTasks (s : Tasks) : Tasks :=
  { s with aborting := true, waiting := [], running := [], queue := s.queue ++ s.running.map (.resume · true) }

/-- One callback. -/
def runCallback (s : Tasks) : Callback → Option Tasks
  | .start i =>
    if s.aborting then some s
    else if s.places > 0 ∧ s.waiting = [] then enterTask { s with places := s.places - 1 } i
    else some { s with waiting := s.waiting ++ [i] }
  | .wake i => if s.aborting then some s else enterTask s i
  | .resume i bad =>
    let s := releasePlace s
    some { s with queue := s.queue ++ [.ended i bad] }
  | .ended i bad =>
    let s := releaseConnection { s with over := s.over ++ [(i, bad)] } (some i)
    some (if bad ∧ ¬ s.aborting then abortTasks s else s)

/-- What can happen next: the first callback runs, a download ends, or the pool closes a connection nobody uses
    (`max_idle`, database.py:34).  `none`: the program is stuck until `getconn` raises an exception after a minute. -/
inductive Happens : Tasks → Option Tasks → Prop
  | run {s : Tasks} {c : Callback} {q : List Callback} (h : s.queue = c :: q) : Happens s (runCallback { s with queue := q } c)
  | download {s : Tasks} {i : Nat} (h : i ∈ s.running) (bad : Bool) :
      Happens s (some { s with running := s.running.erase i, queue := s.queue ++ [.resume i bad] })
  | close {s : Tasks} {c : Nat} (h : c ∈ s.idle) : Happens s (some { s with idle := s.idle.erase c })

end Loc
