import Verif.Base.M
import Verif.Util.Model
import Verif.Schedule.Lemmas

/-!
Model of /repo/x/voting: keeper/keeper.go, keeper/government.go, types/types.go, types/msgs.go, genesis.go.

Accounts appear as text in this module: government lists, voters and poll answers are stored and compared as strings.
`sdk.AccAddressFromBech32` accepts the all-lowercase and the all-uppercase spelling of an address, `AccAddress.String` writes
lowercase (facts about the SDK).  So a valid text is a `Name`: an address and the spelling.

Simplifications: events and logging dropped; proposal and poll titles are numbers; what an enacted proposal does outside this
module is an arbitrary function `enact` of a number identifying type and arguments (only government membership is modelled
concretely); `int32` periods are unbounded.  Everything on the chain outside the module's store and the schedule is the abstract
`W`.
-/
namespace Verif.Voting
open Verif.Util

abbrev Addr := Nat

/-- A text that `sdk.AccAddressFromBech32` accepts. -/
structure Name where
  addr : Addr
  upper : Bool := false
deriving DecidableEq, Repr

/-- `sdk.AccAddressFromBech32` -/
def Name.parse (n : Name) : Addr := n.addr

/-- `AccAddress.String` -/
def text (a : Addr) : Name := ⟨a, false⟩

/-- The bytes of the text, as a store key. -/
def Name.key (n : Name) : Nat := 2 * n.addr + (if n.upper then 1 else 0)

/-- Type and arguments of a proposal. -/
inductive Kind where
  | governmentAdd (a : Addr)
  | governmentRemove (a : Addr)
  | other (k : Nat)
deriving DecidableEq, Repr

/-- `Proposal`, proto/artery/voting/v1beta1/types.proto -/
structure Proposal where
  title : Nat
  author : Name
  kind : Kind
  endTime : Int := 0
deriving DecidableEq, Repr

/-- `ProposalHistoryRecord` -/
structure Record where
  proposal : Proposal
  government : List Name
  agreed : List Name
  disagreed : List Name
  started : Int
  finished : Int
deriving DecidableEq, Repr

/-- `Poll.requirements` -/
inductive Requirement where
  | none
  | canValidate
  | minStatus (s : Int)
deriving DecidableEq, Repr

/-- `Poll` -/
structure Poll where
  title : Nat
  author : Name
  quorum : Option Frac
  requirement : Requirement
  startTime : Int := 0
  endTime : Int := 0
deriving DecidableEq, Repr

/-- `Decision` -/
inductive Decision where
  | unspecified | positive | negative
deriving DecidableEq, Repr

/-- `PollHistoryItem` -/
structure PollItem where
  poll : Poll
  yes : Nat
  no : Nat
  decision : Decision
deriving DecidableEq, Repr

/-- The module's store (types/key.go), the schedule and the rest of the chain. -/
structure State (W : Type) where
  gov : List Name
  current : Option Proposal
  agreed : List Name
  disagreed : List Name
  startBlock : Option Int
  history : KV Int Record
  poll : Option Poll
  /-- counters, a missing key counts as zero -/
  yes : Nat
  no : Nat
  answers : KV Nat Bool
  pollHistory : KV Int PollItem
  sched : Schedule.State
  world : W

/-- The moment and what the module is connected to. -/
structure Env (W : Type) where
  now : Int
  height : Int
  hour : Int
  /-- parameters `VotingPeriod`, `PollPeriod` -/
  votingPeriod : Int
  pollPeriod : Int
  /-- effect of an agreed proposal of another kind, keeper.go:229-382 -/
  enact : Nat → W → Res Unit × W
  /-- `nodingKeeper.IsQualified`; `none` = error -/
  qualified : W → Addr → Option Bool
  /-- `referralKeeper.Get(ctx, acc).Status`, keyed by text; `none` = error -/
  status : W → Name → Option Int

/-- `VoteHookName`, `PollHookName`, types/key.go:16-17 -/
def voteHook : Nat := 2
def pollHook : Nat := 3

variable {W : Type}

/-- A request to the schedule keeper; out-of-range times panic. -/
def onSched (r : Schedule.Req) : M (State W) Unit := fun s =>
  match r.exec? s.sched with
  | some t => (.ok (), { s with sched := t })
  | none => (.panic, s)

/-- An operation on the rest of the chain; its error is only logged (keeper.go:384-389), a panic is not stopped. -/
def onWorld (f : W → Res Unit × W) : M (State W) Unit := fun s =>
  match f s.world with
  | (.panic, w) => (.panic, { s with world := w })
  | (_, w) => (.ok (), { s with world := w })

/-- `Government.Contains`, types/types.go:323-332 -/
def contains (l : List Name) (a : Addr) : Bool := l.contains (text a)

/-- `Government.Remove`, types/types.go:334-342 -/
def remove (l : List Name) (a : Addr) : List Name := l.erase (text a)

/-- `Government.Append`, types/types.go:344-346 -/
def append (l : List Name) (a : Addr) : List Name := l ++ [text a]

/-- `Validate`, keeper.go:146-157 -/
def validate (gov agreed disagreed : List Name) : Bool × Bool :=
  if gov.length = agreed.length + disagreed.length then (true, decide (agreed.length * 3 ≥ gov.length * 2)) else (false, false)

/-- `SaveProposalToHistory`, keeper.go:159-177: the record of the stored proposal under the block height; a missing proposal or
start block panics. -/
def saveToHistory (e : Env W) : M (State W) Unit := do
  let s ← M.get
  let p ← M.orPanic s.current
  let b ← M.orPanic s.startBlock
  M.modify fun s => { s with history := s.history.set e.height ⟨p, s.gov, s.agreed, s.disagreed, b, e.height⟩ }

/-- The effect of an agreed proposal, keeper.go:227-389; `AddGovernor`, `RemoveGovernor` government.go:33-43. -/
def enact (e : Env W) (k : Kind) : M (State W) Unit :=
  match k with
  | .governmentAdd a => M.modify fun s => { s with gov := append s.gov a }
  | .governmentRemove a => M.modify fun s => { s with gov := remove s.gov a }
  | .other k => onWorld (e.enact k)

/-- `EndProposal`, keeper.go:204-391 -/
def endProposal (e : Env W) (p : Proposal) (agreed : Bool) : M (State W) Unit := do
  onSched (.deleteAll p.endTime voteHook)
  saveToHistory e
  M.modify fun s => { s with current := none, agreed := [], disagreed := [], startBlock := none }
  if agreed then enact e p.kind else pure ()

/-- `ProcessSchedule`, keeper.go:397-409 -/
def processSchedule (e : Env W) : M (State W) Unit := do
  let s ← M.get
  match s.current with
  | none => pure ()
  | some p => endProposal e p (validate s.gov s.agreed s.disagreed).2

/-- `Propose`, keeper.go:437-476 -/
def propose (e : Env W) (msg : Proposal) : M (State W) Unit := do
  let s ← M.get
  M.errIf s.current.isSome
  M.errIf (!contains s.gov msg.author.parse)
  let p := { msg with endTime := e.now + e.votingPeriod * e.hour }
  M.modify fun s => { s with current := some p, agreed := [msg.author], disagreed := [] }
  onSched (.schedule p.endTime voteHook [])
  M.modify fun s => { s with startBlock := some e.height }
  if (validate s.gov [msg.author] []).1 then endProposal e p (validate s.gov [msg.author] []).2 else pure ()

/-- `Vote`, keeper.go:478-518; the voter is the parsed signer (msg_server.go:33). -/
def vote (e : Env W) (voter : Addr) (agree : Bool) : M (State W) Unit := do
  let s ← M.get
  match s.current with
  | none => M.err
  | some p => do
    M.errIf (!contains s.gov voter)
    M.errIf (contains s.agreed voter)
    M.errIf (contains s.disagreed voter)
    let a := if agree then append s.agreed voter else s.agreed
    let d := if agree then s.disagreed else append s.disagreed voter
    M.modify fun s => { s with agreed := a, disagreed := d }
    if (validate s.gov a d).1 then endProposal e p (validate s.gov a d).2 else pure ()

/-- `Poll.Validate`, types/types.go:419-441, as far as it concerns the quorum (a panic refuses the message as well). -/
def quorumOk (q : Option Frac) : Bool :=
  match q with
  | none => true
  | some q => !q.isNegative && (q.gt? (Frac.ofInt 1) == some false)

/-- `MsgStartPoll.ValidateBasic` (types/msgs.go:78-86) and `StartPoll`, keeper.go:543-561.  The author's text itself is looked up
in the government list. -/
def startPoll (e : Env W) (msg : Poll) : M (State W) Unit := do
  M.errIf (!quorumOk msg.quorum)
  let s ← M.get
  M.errIf s.poll.isSome
  M.errIf (!s.gov.contains msg.author)
  let stop := e.now + e.pollPeriod * e.hour
  onSched (.schedule stop pollHook [])
  M.modify fun s => { s with poll := some { msg with startTime := e.now, endTime := stop } }

/-- The check of the respondent, keeper.go:574-590: `none` = panic. -/
def allowed? (e : Env W) (w : W) (acc : Name) : Requirement → Option Bool
  | .none => some true
  | .canValidate => e.qualified w acc.parse
  | .minStatus m => (e.status w acc).map fun s => decide (m ≤ s)

/-- `Answer`, keeper.go:563-624; the counters are `uint64`. -/
def answer (e : Env W) (acc : Name) (yes : Bool) : M (State W) Unit := do
  let s ← M.get
  match s.poll with
  | none => M.err
  | some q => do
    let ok ← M.orPanic (allowed? e s.world acc q.requirement)
    M.errIf (!ok)
    M.errIf (s.answers.has acc.key)
    M.modify fun s => { s with
      answers := s.answers.set acc.key yes
      yes := if yes then (s.yes + 1) % 2 ^ 64 else s.yes
      no := if yes then s.no else (s.no + 1) % 2 ^ 64 }

/-- The comparison with the quorum, keeper.go:647-653: `int64(..)` of the counters; `none` = panic. -/
def decision? (q : Option Frac) (yes no : Nat) : Option Decision :=
  match q with
  | none => some .unspecified
  | some q =>
    if yes = 0 then some .negative
    else do
      let need ← q.mul? (Frac.ofInt (wrap64 ((yes + no) % 2 ^ 64 : Nat)))
      let ok ← (Frac.ofInt (wrap64 yes)).gte? need
      return if ok then .positive else .negative

/-- `EndPoll`, keeper.go:627-683.  It works on a cache that is written at the end, so a panic leaves no trace.  The history key is
the end in seconds. -/
def endPoll : M (State W) Unit := do
  let s ← M.get
  let q ← M.orPanic s.poll
  let d ← M.orPanic (decision? q.quorum s.yes s.no)
  M.modify fun s => { s with
    pollHistory := s.pollHistory.set (q.endTime / 1000000000) ⟨q, s.yes, s.no, d⟩
    poll := none, yes := 0, no := 0, answers := KV.empty }

/-! ### Blocks -/

/-- The due tasks in order: `PerformSchedule` works on a snapshot (x/schedule/keeper/keeper.go:125-146). -/
def dueTasks (now : Int) (s : Schedule.State) : List Schedule.Task :=
  ((s.store.entries.filter (fun x => decide (x.1 < now + 1))).map Prod.snd).flatten

/-- What other modules' handlers and transactions may do: anything to the rest of the chain, and schedule requests for their own
hooks. -/
structure Foreign (W : Type) where
  world : W → W
  reqs : List Schedule.Req

/-- The hook a request is about. -/
def hookOf : Schedule.Req → Nat
  | .schedule _ h _ => h
  | .delete _ h _ => h
  | .deleteAll _ h => h

def Foreign.run (f : Foreign W) (s : State W) : State W :=
  { s with world := f.world s.world, sched := Schedule.execReqs s.sched (f.reqs.filter fun r => hookOf r ≠ voteHook ∧ hookOf r ≠ pollHook) }

/-- One task: the hooks of this module (app/app.go:328-329) or another module's handler.  Panics are recovered and nothing is
rolled back. -/
def runTask (e : Env W) (f : Schedule.Task → Foreign W) (t : Schedule.Task) (s : State W) : State W :=
  if t.handler = voteHook then (processSchedule e s).2
  else if t.handler = pollHook then (endPoll s).2
  else (f t).run s

def runTasks (e : Env W) (f : Schedule.Task → Foreign W) : List Schedule.Task → State W → State W
  | [], s => s
  | t :: ts, s => runTasks e f ts (runTask e f t s)

/-- Begin of a block: all due tasks, then their removal. -/
def block (e : Env W) (f : Schedule.Task → Foreign W) (s : State W) : State W :=
  let t := runTasks e f (dueTasks e.now s.sched) s
  { t with sched := { t.sched with store := Schedule.eraseAll t.sched.store (Schedule.dueKeys e.now s.sched) } }

/-- What can happen. -/
inductive Op (W : Type) where
  | propose (msg : Proposal)
  | vote (voter : Name) (agree : Bool)
  | startPoll (msg : Poll)
  | answer (acc : Name) (yes : Bool)
  | foreign (f : Foreign W)
  | block (f : Schedule.Task → Foreign W)

def Op.run (e : Env W) (s : State W) : Op W → State W
  | .propose msg => M.tx (Voting.propose e msg) s
  | .vote v agree => M.tx (Voting.vote e v.parse agree) s
  | .startPoll msg => M.tx (Voting.startPoll e msg) s
  | .answer acc yes => M.tx (Voting.answer e acc yes) s
  | .foreign f => f.run s
  | .block f => Voting.block e f s

/-- `InitGenesis`, genesis.go:13-31, of a chain without open votes or polls; the schedule and the rest are given. -/
def fresh (gov : List Name) (sched : Schedule.State) (w : W) : State W :=
  ⟨gov, none, [], [], none, KV.empty, none, 0, 0, KV.empty, KV.empty, sched, w⟩

end Verif.Voting
