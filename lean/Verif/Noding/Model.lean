import Verif.Base.KV
import Verif.Base.M
import Verif.Util.Model

/-!
Model of /repo/x/noding: keeper/keeper.go, keeper/lottery.go, keeper/vp_generator.go, abci.go, genesis.go, types/types.go,
types/genesis.go, types/params.go.  The money part of `PayProposerReward` is in Reward.lean.

Simplifications: events and logging dropped; a consensus address is identified with the public key it is the hash of; keys are
numbers and 0 is the empty string; lottery numbers are unbounded (`uint64` in the code) and so are scores and counters
(`int64`, `uint32`); of `Infractions` only the length is kept; the JSON/Bech32 codecs are dropped; `int64(math.Log(..))` is an
arbitrary function of the stake; `sort.Slice` is an arbitrary function (see `SortOk` in Gather.lean).

Functions return `none` when the Go function returns an error or panics before touching the store (all of them do their
checks first); functions that can fail half-way return the state they leave behind.
-/
namespace Verif.Noding
open Verif.Util

abbrev Addr := Nat
abbrev PubKey := Nat

/-- `Info`, proto/noding/types.proto -/
structure Info where
  status : Bool := false
  lastPower : Int := 0
  pubKey : PubKey := 0
  lastPubKey : PubKey := 0
  score : Int := 0
  strokes : Int := 0
  okBlocks : Int := 0
  missed : Int := 0
  jailed : Bool := false
  unjailAt : Int := 0
  infractions : Nat := 0
  banned : Bool := false
  staff : Bool := false
  proposed : Int := 0
  jailCount : Int := 0
  lotteryNo : Nat := 0
deriving DecidableEq, Repr

/-- `Distribution_Slice` -/
structure Slice where
  part : Frac
  power : Int
deriving DecidableEq, Repr

/-- `Distribution` -/
structure Distribution where
  slices : List Slice
  luckyPower : Int
deriving DecidableEq, Repr

/-- `Params` with `MinCriteria` flattened -/
structure Params where
  maxValidators : Nat
  jailAfter : Nat
  unjailAfter : Nat
  lotteryValidators : Nat
  minStatus : Nat
  minSelf : Nat
  minTotal : Nat
  votingPower : Distribution
deriving DecidableEq, Repr

/-- The two stores of the module: records, the three indexes, the parameters. -/
structure State where
  records : KV Addr Info
  queue : KV Nat Addr
  operators : KV PubKey Addr
  proposers : KV Int Addr
  params : Params

/-- What an operation learns from outside: block height, `GetDelegatedInNetwork` (none = error), `GetStatus` (none = error), the
delegated balance, the logarithm, the sorting routine. -/
structure Env where
  height : Int
  stake : Addr → Option Int
  status : Addr → Option Nat
  self : Addr → Int
  log : Int → Int
  sort : List (Addr × Info) → List (Addr × Info)

/-- A validator update sent to the consensus engine: key and power. -/
structure Upd where
  key : PubKey
  power : Int
deriving DecidableEq, Repr

/-! ## types/types.go, types/params.go -/

/-- types/types.go:34-36 -/
def Info.isActive (i : Info) : Bool := i.status && !i.jailed && !i.banned

/-- types/types.go:38-49 (the result without the `changed` flag: equal score means nothing changes) -/
def Info.updateScore (log : Int → Int) (stake : Int) (i : Info) : Info :=
  { i with score := log (if stake < 1 then 1 else stake) - i.strokes + i.okBlocks.tdiv 100 }

/-- types/types.go:14-32 -/
def newInfo (log : Int → Int) (key : PubKey) (stake : Int) : Info :=
  ({ status := true, pubKey := key } : Info).updateScore log stake

/-- The loop of types/types.go:88-96: `none` = panic, `some none` = error, else the sum of the parts. -/
def sumParts? : Frac → List Slice → Option (Option Frac)
  | acc, [] => some (some acc)
  | acc, x :: r =>
    if x.power ≤ 0 then some none
    else if !x.part.isPositive then some none
    else do sumParts? (← acc.add? x.part) r

/-- types/types.go:80-101; `none` = panic, `some false` = rejected. -/
def Distribution.validate? (d : Distribution) : Option Bool :=
  if d.luckyPower ≤ 0 then some false
  else if d.slices.isEmpty then some false
  else do
    match ← sumParts? (Frac.ofInt 0) d.slices with
    | none => some false
    | some t => t.equal? (Frac.ofInt 1)

/-- types/params.go `Params.Validate` together with types/types.go:70-78 and /repo/x/referral/types/types.go:22-27. -/
def Params.validate? (p : Params) : Option Bool :=
  if p.maxValidators = 0 then some false
  else if p.jailAfter = 0 then some false
  else if p.unjailAfter = 0 then some false
  else if p.minStatus < 1 ∨ 9 < p.minStatus ∨ p.minStatus = 8 then some false
  else if p.minTotal < p.minSelf then some false
  else p.votingPower.validate?

/-! ## keeper/vp_generator.go -/

/-- keeper/vp_generator.go:10-16 -/
structure Gen where
  count : Nat := 0
  lastScore : Int := 0
  ptr : Nat := 0
  partAccum : Frac := Frac.ofInt 0
deriving DecidableEq, Repr

/-- keeper/vp_generator.go:27-47; `none` = panic (slice index out of range or zero denominator). -/
def Gen.next? (max : Nat) (d : Distribution) (g : Gen) (score : Int) : Option (Int × Gen) :=
  let c := g.count + 1
  if c > max then some (d.luckyPower, { g with count := c, lastScore := score })
  else if c = 1 then do
    let x ← d.slices[0]?
    some (x.power, { g with count := c, lastScore := score, partAccum := x.part })
  else do
    let fits ← (Frac.mk c max).lte? g.partAccum
    if fits || score == g.lastScore then do
      let x ← d.slices[g.ptr]?
      some (x.power, { g with count := c, lastScore := score })
    else do
      let x ← d.slices[g.ptr + 1]?
      let acc ← g.partAccum.add? x.part
      some (x.power, { count := c, lastScore := score, ptr := g.ptr + 1, partAccum := acc })

/-! ## keeper/lottery.go -/

/-- keeper/lottery.go:21-27: the number after the last one in the queue. -/
def nextNo (q : KV Nat Addr) : Nat :=
  match q.keys.getLast? with
  | some n => n + 1
  | none => 1

/-- keeper/lottery.go:13-32, for a record with number 0 (all callers check). -/
def lotteryAddNew (q : KV Nat Addr) (a : Addr) (i : Info) : KV Nat Addr × Info :=
  (q.set (nextNo q) a, { i with lotteryNo := nextNo q })

/-- keeper/lottery.go:34-45, for a record with a number (all callers check). -/
def lotteryExclude (q : KV Nat Addr) (i : Info) : KV Nat Addr × Info :=
  (q.erase i.lotteryNo, { i with lotteryNo := 0 })

/-- keeper/lottery.go:47-60: the number of the `count`-th in the queue, of the last one if there are fewer, 0 if none. -/
def lotteryLastNo (q : KV Nat Addr) (count : Nat) : Nat := ((q.keys.take count).getLast?).getD 0

/-- keeper/lottery.go:62-70 -/
def lotteryDownshift (q : KV Nat Addr) (a : Addr) (i : Info) : KV Nat Addr × Info :=
  lotteryAddNew (lotteryExclude q i).1 a (lotteryExclude q i).2

/-- `if d.LotteryNo != 0 { lotteryExclude }`, the way every caller uses it. -/
def leaveQueue (q : KV Nat Addr) (i : Info) : KV Nat Addr × Info :=
  if i.lotteryNo ≠ 0 then lotteryExclude q i else (q, i)

/-- `if d.LotteryNo != 0 { lotteryDownshift }`, the way every caller uses it. -/
def moveBack (q : KV Nat Addr) (a : Addr) (i : Info) : KV Nat Addr × Info :=
  if i.lotteryNo ≠ 0 then lotteryDownshift q a i else (q, i)

/-! ## keeper/keeper.go -/

/-- keeper/keeper.go:978-994 with a callback that also changes the queue; `none` = ErrNotFound. -/
def update (s : State) (a : Addr) (f : KV Nat Addr → Info → KV Nat Addr × Info) : Option State := do
  let i ← s.records.get a
  some { s with records := s.records.set a (f s.queue i).2, queue := (f s.queue i).1 }

/-- `sdk.Int.Uint64`, panics out of range -/
def uint64? (x : Int) : Option Nat := if 0 ≤ x ∧ x < 2 ^ 64 then some x.toNat else none

/-- keeper/keeper.go:75-120: qualified or not, and the stake of the network below; `none` = error or panic. -/
def isQualified (e : Env) (s : State) (a : Addr) : Option (Bool × Int) := do
  let stake ← e.stake a
  let status ← e.status a
  if ((s.records.get a).map Info.staff).getD false then some (true, stake)
  else if status < s.params.minStatus then some (false, stake)
  else do
    let self ← uint64? (e.self a)
    if self < s.params.minSelf then some (false, stake)
    else do
      let total ← uint64? stake
      if total < s.params.minTotal then some (false, stake) else some (true, stake)

/-- keeper/keeper.go:124-133 -/
def isValidator (s : State) (a : Addr) : Bool := ((s.records.get a).map Info.isActive).getD false

/-- keeper/keeper.go:135-151 -/
def isActiveValidator (e : Env) (s : State) (a : Addr) : Bool :=
  match s.records.get a with
  | none => false
  | some i => i.isActive && !decide (e.height - i.unjailAt < 6 * (s.params.unjailAfter : Int))

/-- keeper/keeper.go:164-174: the operator and whether it is active with this very key.  `none` = error (index entry without
record) or panic (active without a key), `some none` = not found. -/
def validatorByKey (s : State) (k : PubKey) : Option (Option (Addr × Bool)) :=
  match s.operators.get k with
  | none => some none
  | some b =>
    match s.records.get b with
    | none => none
    | some i => if i.isActive then (if i.pubKey = 0 then none else some (some (b, i.pubKey == k))) else some (some (b, false))

/-- keeper/keeper.go:216-225: the record written by `SwitchOn`. -/
def registered (e : Env) (old : Option Info) (k : PubKey) (stake : Int) : Info :=
  match old with
  | some i => { i with status := true, pubKey := k }.updateScore e.log stake
  | none => newInfo e.log k stake

/-- keeper/keeper.go:216-230: the record and the index entry written when everything is in order. -/
def register (e : Env) (s : State) (a : Addr) (k : PubKey) (stake : Int) : State :=
  { s with records := s.records.set a (registered e (s.records.get a) k stake), operators := s.operators.set k a }

/-- keeper/keeper.go:176-232; the key of a message is never empty. -/
def switchOn (e : Env) (s : State) (a : Addr) (k : PubKey) : Option State := do
  if k = 0 then none
  else if ((s.records.get a).map Info.banned).getD false then none
  else if ((s.records.get a).map Info.status).getD false then none
  else do
    let other ← validatorByKey s k
    if (other.map Prod.snd).getD false then none
    else do
      let q ← isQualified e s a
      if q.1 then do
        let stake ← sdkInt64? q.2
        some (register e s a k stake)
      else none

/-- keeper/keeper.go:234-254 -/
def switchOff (s : State) (a : Addr) : Option State :=
  update s a fun q i => if i.status then leaveQueue q { i with status := false } else (q, i)

/-- keeper/keeper.go:256-287 -/
def onStatusUpdate (e : Env) (s : State) (a : Addr) : Option State :=
  if isValidator s a then do
    let q ← isQualified e s a
    if q.1 then some s else switchOff s a
  else some s

/-- keeper/keeper.go:289-332; the early return of line 323 leaves the record unsaved while the queue entry is gone. -/
def onStakeChanged (e : Env) (s : State) (a : Addr) : Option State :=
  match s.records.get a with
  | none => some s
  | some i => do
    let q ← isQualified e s a
    let stake ← sdkInt64? q.2
    let j := i.updateScore e.log stake
    if i.isActive && !q.1 then some { s with queue := (leaveQueue s.queue { j with status := false }).1 }
    else some { s with records := s.records.set a j }

/-- keeper/keeper.go:629-667 -/
def markStroke (e : Env) (s : State) (a : Addr) : Option State :=
  update s a fun q i =>
    if i.jailed then (q, i)
    else
      let j := { i with score := i.score - i.okBlocks.tdiv 100 - 1, strokes := i.strokes + 1, okBlocks := 0, missed := i.missed + 1 }
      if j.missed ≥ (s.params.jailAfter : Int) then
        leaveQueue q { j with jailed := true, unjailAt := e.height + s.params.unjailAfter, jailCount := j.jailCount + 1, missed := 0 }
      else moveBack q a j

/-- keeper/keeper.go:670-679 -/
def markTick (s : State) (a : Addr) : Option State :=
  update s a fun q i =>
    let j := { i with missed := 0, okBlocks := i.okBlocks + 1 }
    (q, if j.okBlocks.tmod 100 = 0 then { j with score := j.score + 1 } else j)

/-- keeper/keeper.go:681-710 -/
def markByzantine (s : State) (a : Addr) : Option State :=
  update s a fun q i =>
    let j := { i with infractions := i.infractions + 1 }
    if j.infractions > 1 then leaveQueue q { j with banned := true, status := false }
    else moveBack q a j

/-- keeper/keeper.go:712-745 -/
def unjail (e : Env) (s : State) (a : Addr) : Option State := do
  let i ← s.records.get a
  if !i.jailed then none
  else if e.height < i.unjailAt then none
  else do
    let q ← isQualified e s a
    if q.1 then do
      let stake ← sdkInt64? q.2
      some { s with records := s.records.set a ({ i with jailed := false }.updateScore e.log stake) }
    else some { s with records := s.records.set a { i with jailed := false, status := false } }

/-- keeper/keeper.go:748-760: the bookkeeping half of `PayProposerReward`; `none` = no record (the index entry of line 748 stays
behind then, but line 168 has found the record already). -/
def markProposed (e : Env) (s : State) (a : Addr) : Option State :=
  update { s with proposers := s.proposers.set (e.height - 1) a } a fun q i => moveBack q a { i with proposed := i.proposed + 1 }

/-- keeper/keeper.go:832-846 -/
def addToStaff (s : State) (a : Addr) : State :=
  match s.records.get a with
  | some i => { s with records := s.records.set a { i with staff := true } }
  | none => { s with records := s.records.set a { staff := true } }

/-- keeper/keeper.go:848-878.  Called from a scheduler hook, hence not reverted on error: the state left behind. -/
def removeFromStaff (e : Env) (s : State) (a : Addr) : State :=
  match s.records.get a with
  | none => s
  | some i =>
    if i.staff then
      let s1 := { s with records := s.records.set a { i with staff := false } }
      if i.isActive then
        match onStatusUpdate e s1 a with
        | none => s1
        | some s2 => (onStakeChanged e s2 a).getD s2
      else s1
    else s

/-- keeper/keeper.go:912-917 -/
def Info.amnesty (i : Info) : Info :=
  if i.strokes = 0 ∧ i.jailCount = 0 then i
  else { i with score := i.score + i.strokes, strokes := 0, jailCount := 0 }

/-- keeper/keeper.go:903-924 -/
def generalAmnesty (s : State) : State :=
  { s with records := s.records.entries.foldl (fun m e => m.set e.1 e.2.amnesty) s.records }

/-- `SetParams`: the params subspace panics on values its validators reject; used by /repo/x/voting/keeper/keeper.go:301-329. -/
def setParams (s : State) (p : Params) : Option State :=
  if p.validate? = some true then some { s with params := p } else none

/-- keeper/keeper.go:926-947 `GetValidatorState` -/
inductive ValidatorState | off | ban | jail | spare | top | lucky
deriving DecidableEq, Repr

/-- keeper/keeper.go:926-947 -/
def validatorState (s : State) (a : Addr) : ValidatorState :=
  match s.records.get a with
  | none => .off
  | some i =>
    if i.banned then .ban
    else if i.jailed then .jail
    else if !i.status then .off
    else if i.lastPower = 0 then .spare
    else if i.lotteryNo = 0 then .top
    else .lucky

/-! ### GatherValidatorUpdates -/

/-- Decoding a key panics on the empty string. -/
def key? (k : PubKey) : Option PubKey := if k = 0 then none else some k

/-- keeper/keeper.go:343-374, one record. -/
def scanStep (acc : State × List Upd) (r : Addr × Info) : Option (State × List Upd) :=
  if r.2.isActive then do
    let k ← key? r.2.pubKey
    some ({ acc.1 with operators := acc.1.operators.set k r.1 }, acc.2)
  else if r.2.lastPower ≠ 0 then do
    let k ← key? r.2.lastPubKey
    let s ← update acc.1 r.1 fun q i => (q, { i with lastPower := 0, lastPubKey := 0 })
    some (s, acc.2 ++ [⟨k, 0⟩])
  else some acc

/-- Folding a step that may fail. -/
def foldOpt {α β : Type} (f : α → β → Option α) : α → List β → Option α
  | a, [] => some a
  | a, b :: l => do foldOpt f (← f a b) l

/-- The working data of the two loops: store, power generator, updates so far. -/
structure Work where
  s : State
  gen : Gen
  out : List Upd

/-- keeper/keeper.go:405-446, one top validator. -/
def topStep (w : Work) (r : Addr × Info) : Option Work :=
  let i := r.2
  if i.pubKey = 0 then none
  else do
    let (power, gen) ← w.gen.next? w.s.params.maxValidators w.s.params.votingPower i.score
    let moved : Bool := i.pubKey ≠ i.lastPubKey
    let updated : Bool := moved || i.lastPower ≠ power
    let out := w.out ++ (if moved && i.lastPubKey ≠ 0 then [⟨i.lastPubKey, 0⟩] else []) ++ (if updated then [⟨i.pubKey, power⟩] else [])
    if updated || i.lotteryNo ≠ 0 then do
      let s ← update { w.s with queue := (leaveQueue w.s.queue i).1 } r.1 fun q d =>
        (q, { d with lastPower := power, lastPubKey := d.pubKey, lotteryNo := (leaveQueue w.s.queue i).2.lotteryNo })
      some ⟨s, gen, out⟩
    else some ⟨w.s, gen, out⟩

/-- keeper/keeper.go:476-482: the update that takes a validator out. -/
def removal? (i : Info) : Option (List Upd) :=
  if i.lastPower ≠ 0 then (key? i.lastPubKey).map fun k => [⟨k, 0⟩] else some []

/-- keeper/keeper.go:448-501, one of the others; `last` is `maxLotNo`. -/
def restStep (last : Nat) (w : Work) (r : Addr × Info) : Option Work :=
  let i := r.2
  if i.lotteryNo ≠ 0 ∧ i.lotteryNo ≤ last then do
    let (power, gen) ← w.gen.next? w.s.params.maxValidators w.s.params.votingPower i.score
    let moved : Bool := i.pubKey ≠ i.lastPubKey
    if moved || i.lastPower ≠ power then do
      let k ← key? i.pubKey
      let s ← update w.s r.1 fun q d => (q, { d with lastPower := power, lastPubKey := d.pubKey })
      some ⟨s, gen, w.out ++ (if moved && i.lastPubKey ≠ 0 then [⟨i.lastPubKey, 0⟩] else []) ++ [⟨k, power⟩]⟩
    else some ⟨w.s, gen, w.out⟩
  else do
    let gone ← removal? i
    let joined := if i.lotteryNo = 0 then lotteryAddNew w.s.queue r.1 i else (w.s.queue, i)
    if i.lastPower ≠ 0 ∨ i.lotteryNo = 0 then do
      let s ← update { w.s with queue := joined.1 } r.1 fun q d => (q, { d with lastPower := 0, lastPubKey := 0, lotteryNo := joined.2.lotteryNo })
      some ⟨s, w.gen, w.out ++ gone⟩
    else some ⟨w.s, w.gen, w.out ++ gone⟩

/-- keeper/keeper.go:505-517, replacing an earlier update for which `same` says yes. -/
def replaceFirst (same : Upd → Upd → Bool) (x : Upd) : List Upd → List Upd
  | [] => [x]
  | y :: l => if same x y then x :: l else y :: replaceFirst same x l

/-- keeper/keeper.go:504-517 -/
def dedupe (same : Upd → Upd → Bool) (l : List Upd) : List Upd := l.foldl (fun acc x => replaceFirst same x acc) []

/-- The comparison of line 508.  `tmcrypto.PublicKey` is a struct whose only field is an interface holding a pointer, and
`abciPubKeyFromBech32` allocates a new one on every call: `==` compares pointers and never holds between two updates. -/
def pointerEq : Upd → Upd → Bool := fun _ _ => false

/-- keeper/keeper.go:386-396: how many top and lucky validators there will be. -/
def quota (p : Params) (n : Nat) : Nat × Nat :=
  if n > p.maxValidators then
    (p.maxValidators, if n > p.maxValidators + p.lotteryValidators then p.lotteryValidators else n - p.maxValidators)
  else (n, 0)

/-- The records that take part in the selection, in store order (lines 342-375). -/
def actives (s : State) : List (Addr × Info) := s.records.entries.filter fun r => r.2.isActive

/-- keeper/keeper.go:334-520; `none` = error or panic. -/
def gather (e : Env) (s : State) : Option (State × List Upd) := do
  let scanned ← foldOpt scanStep (s, []) s.records.entries
  let active := e.sort (actives s)
  let n := quota s.params active.length
  let w1 ← foldOpt topStep ⟨scanned.1, {}, scanned.2⟩ (active.take n.1)
  let w2 ← foldOpt (restStep (lotteryLastNo w1.s.queue n.2)) w1 (active.drop n.1)
  some (w2.s, dedupe pointerEq w2.out)

/-! ## abci.go -/

/-- abci.go:46-56 -/
def findValidator (s : State) (k : PubKey) : Option Addr := do
  match ← validatorByKey s k with
  | none => none
  | some (a, _) => some a

/-- abci.go:74-90: stops at the first vote it cannot count; the earlier ones stay counted. -/
def markVotes (e : Env) : List (PubKey × Bool) → State → State
  | [], s => s
  | v :: l, s =>
    match findValidator s v.1 with
    | none => s
    | some a =>
      match if v.2 then markTick s a else markStroke e s a with
      | none => s
      | some t => markVotes e l t

/-- abci.go:59-71 -/
def punish : List PubKey → State → State
  | [], s => s
  | k :: l, s =>
    match findValidator s k with
    | none => s
    | some a =>
      match markByzantine s a with
      | none => s
      | some t => punish l t

/-- abci.go:92-104 without the payments. -/
def creditProposer (e : Env) (k : PubKey) (s : State) : State :=
  match findValidator s k with
  | none => s
  | some a => (markProposed e s a).getD s

/-- abci.go:13-35 without the payments. -/
def beginBlock (e : Env) (proposer : PubKey) (votes : List (PubKey × Bool)) (evidence : List PubKey) (s : State) : State :=
  punish evidence (markVotes e votes (creditProposer e proposer s))

/-! ## genesis.go, types/genesis.go -/

/-- `Validator`, an entry of the genesis file. -/
structure GenesisValidator where
  account : Addr
  pubKey : PubKey
  strokes : Int := 0
  okBlocks : Int := 0
  missed : Int := 0
  jailed : Bool := false
  switchedOn : Bool := false
  unjailAt : Int := 0
  infractions : Nat := 0
  banned : Bool := false
  staff : Bool := false
  proposed : Int := 0
  jailCount : Int := 0
  proposedBlocks : List Int := []
deriving DecidableEq, Repr

/-- types/genesis.go:17-34 -/
def GenesisValidator.toInfo (log : Int → Int) (v : GenesisValidator) (stake : Int) : Info :=
  ({ pubKey := v.pubKey, strokes := v.strokes, okBlocks := v.okBlocks, missed := v.missed, jailed := v.jailed,
     status := v.jailed && v.switchedOn, unjailAt := v.unjailAt, infractions := v.infractions, banned := v.banned,
     staff := v.staff, proposed := v.proposed, jailCount := v.jailCount } : Info).updateScore log stake

/-- keeper/keeper.go:594-603: the record and the proposer index written for a genesis entry. -/
def putGenesis (e : Env) (s : State) (v : GenesisValidator) : Option State := do
  let stake ← sdkInt64? (← e.stake v.account)
  some { s with records := s.records.set v.account (v.toInfo e.log stake),
                proposers := v.proposedBlocks.foldl (fun m h => m.set h v.account) s.proposers }

/-- keeper/keeper.go:589-609, one entry. -/
def setActive (e : Env) (s : State) (v : GenesisValidator) : Option State := do
  let k ← key? v.pubKey
  switchOn e (← putGenesis e s v) v.account k

/-- types/genesis.go:85-148, per entry. -/
def GenesisValidator.countersOk (v : GenesisValidator) : Bool :=
  decide (0 ≤ v.proposed ∧ 0 ≤ v.jailCount ∧ 0 ≤ v.okBlocks ∧ 0 ≤ v.missed ∧ ¬(0 < v.okBlocks ∧ 0 < v.missed))

/-- types/genesis.go:72-83 (key and address decoding left out). -/
def genesisValid (p : Params) (active rest : List GenesisValidator) : Bool :=
  p.validate? == some true && !active.isEmpty
    && active.all (fun v => v.pubKey != 0 && !v.jailed && !v.banned && v.countersOk) && rest.all (·.countersOk)

/-- genesis.go:11-27 on the empty store; `none` = panic. -/
def initGenesis (e : Env) (p : Params) (active rest : List GenesisValidator) : Option (State × List Upd) := do
  let s0 ← setParams ⟨KV.empty, KV.empty, KV.empty, KV.empty, p⟩ p
  let s1 ← foldOpt (setActive e) s0 active
  let s2 ← foldOpt (putGenesis e) s1 rest
  gather e s2

end Verif.Noding
