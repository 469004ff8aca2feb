import Verif.Base.KV

/-!
Model of /repo/x/schedule/keeper (keeper.go, genesis.go).

Times are integers: nanoseconds since the Unix epoch, UTC.  Handler names are numbers, payloads are lists of bytes.
`id` is a ghost field: the number of the scheduling request that produced a task, so that two requests for the same
time, handler and payload can be told apart and the order of scheduling can be spoken about.  No definition below makes
a decision on it.

Handlers (`eventHooks`) belong to other modules.  Seen from the schedule store a handler is a sequence of
schedule/delete requests followed possibly by a panic; which requests it makes may depend on anything, so handlers are
arbitrary functions of the call number, the task and the current store.
-/
namespace Verif.Schedule

structure Task where
  time : Int
  handler : Nat
  data : List Nat
  /-- ghost -/
  id : Nat := 0
deriving DecidableEq, Repr

structure State where
  /-- The schedule store: key `Key(t)` ↦ `Schedule{Tasks}`.  Keys are kept as times, see `key?` and C15. -/
  store : KV Int (List Task)
  /-- ghost: number of scheduling requests served so far -/
  next : Nat

def State.empty : State := ⟨KV.empty, 0⟩

/-- First moment of the year 2263. -/
def timeEnd : Int := 9246182400000000000

/-- `t.Year() < 1970 || t.Year() > 2262` is the out-of-range test of `Key`, keeper.go:161-164. -/
def inRange (t : Int) : Bool := decide (0 ≤ t ∧ t < timeEnd)

/-- `binary.BigEndian.PutUint64`, `n` bytes. -/
def bigEndian : Nat → Nat → List Nat
  | 0, _ => []
  | n + 1, x => (x / 256 ^ n) % 256 :: bigEndian n x

/-- `Key`, keeper.go:161-168.  `t.UnixNano()` wraps to 64 bits (moments after 2262-04-11 do not fit in `int64`);
`uint64(...)` undoes the sign. `none` = panic. -/
def key? (t : Int) : Option (List Nat) :=
  if inRange t then some (bigEndian 8 ((Int.bmod t (2 ^ 64)) % (2 ^ 64)).toNat) else none

/-- `scheduleTask`, keeper.go:72-85, `none` = panic in `Key`. -/
def schedule? (s : State) (time : Int) (handler : Nat) (data : List Nat) : Option State :=
  if inRange time then
    some ⟨s.store.set time ((s.store.get time).getD [] ++ [⟨time, handler, data, s.next⟩]), s.next + 1⟩
  else none

/-- `delete`, keeper.go:97-121. -/
def delete? (s : State) (time : Int) (p : Task → Bool) : Option State :=
  if inRange time then
    match s.store.get time with
    | none => some s
    | some items =>
      let filtered := items.filter (fun t => !p t)
      some { s with store := if filtered.isEmpty then s.store.erase time else s.store.set time filtered }
  else none

/-- Requests to the schedule keeper. -/
inductive Req where
  /-- `ScheduleTask`, keeper.go:69-71 -/
  | schedule (time : Int) (handler : Nat) (data : List Nat)
  /-- `Delete`, keeper.go:92-96 -/
  | delete (time : Int) (handler : Nat) (data : List Nat)
  /-- `DeleteAll`, keeper.go:87-91 -/
  | deleteAll (time : Int) (handler : Nat)
deriving DecidableEq, Repr

def Req.exec? (s : State) : Req → Option State
  | .schedule time h d => schedule? s time h d
  | .delete time h d => delete? s time (fun t => t.handler == h && t.data == d)
  | .deleteAll time h => delete? s time (fun t => t.handler == h)

/-- A handler run: requests one after another until one panics (a handler that panics by itself after some of
its requests is represented by those requests and the panic flag in `Handlers`). -/
def execReqs (s : State) : List Req → State
  | [] => s
  | r :: rs => match r.exec? s with
    | some s' => execReqs s' rs
    | none => s

/-- The registered handlers: `none` = no handler of that name (`hook == nil`); otherwise the requests it makes
and whether it then panics.  The first argument numbers the calls within a block, so that two calls with the same task
and store may still behave differently. -/
abbrev Handlers := Nat → Task → State → Option (List Req × Bool)

/-- One task of `PerformSchedule`, keeper.go:137-143 with `performSchedule`, 148-159: `recover()` stops a panic, the
writes made before it stay. -/
def runTask (h : Handlers) (i : Nat) (s : State) (t : Task) : State :=
  match h i t s with
  | none => s
  | some (reqs, _panics) => execReqs s reqs

/-- The task loop; the second component is the log of tasks processed, in order. -/
def runTasks (h : Handlers) (i : Nat) (s : State) : List Task → State × List Task
  | [] => (s, [])
  | t :: ts =>
    let r := runTasks h (i + 1) (runTask h i s t) ts
    (r.1, t :: r.2)

/-- Deletion of all processed keys (`store.Delete(it.Key())` on the cache, flushed by `store.Write()`). -/
def eraseAll (s : KV Int (List Task)) : List Int → KV Int (List Task)
  | [] => s
  | k :: ks => eraseAll (s.erase k) ks

/-- `PerformSchedule`, keeper.go:125-146.  The iterator runs over a snapshot of the keys below
`Key(blockTime + 1ns)`; handlers write to the underlying store; the processed keys are deleted at the end. -/
def performSchedule (h : Handlers) (blockTime : Int) (s : State) : State × List Task :=
  let due := s.store.entries.filter (fun e => decide (e.1 < blockTime + 1))
  let r := runTasks h 0 s (due.map Prod.snd).flatten
  ({ r.1 with store := eraseAll r.1.store (due.map Prod.fst) }, r.2)

/-- What happens to the schedule over the life of the chain: a request from a transaction or block hook (a panic
there reverts it), or the schedule's `BeginBlocker` (abci.go). -/
inductive Ev where
  | req (r : Req)
  | block (time : Int) (h : Handlers)

/-- Effect of one event and the log of tasks it ran, each with the time of the block it ran in. -/
def step (s : State) : Ev → State × List (Int × Task)
  | .req r => ((r.exec? s).getD s, [])
  | .block bt h => let r := performSchedule h bt s; (r.1, r.2.map (fun t => (bt, t)))

/-- An execution. -/
def run (s : State) : List Ev → State × List (Int × Task)
  | [] => (s, [])
  | e :: es => let r := step s e; let q := run r.1 es; (q.1, r.2 ++ q.2)

/-- `GetTasks`, keeper.go:50-66 (with in-range bounds). -/
def getTasks (s : State) (since upto : Int) : List Task :=
  ((s.store.entries.filter (fun e => decide (since ≤ e.1 ∧ e.1 < upto))).map Prod.snd).flatten

/-- `ExportGenesis`, genesis.go:16-29. -/
def exportTasks (s : State) : List Task := (s.store.entries.map Prod.snd).flatten

/-- `InitGenesis`, genesis.go:9-14 (into an empty store); `none` = panic. -/
def importTasks? (s : State) : List Task → Option State
  | [] => some s
  | t :: ts => match schedule? s t.time t.handler t.data with
    | some s' => importTasks? s' ts
    | none => none

end Verif.Schedule
