import Verif.Base.KV
import Verif.Base.M
import Verif.Util.Model
import Verif.Schedule.Model

/-!
Model of /repo/x/referral: keeper/keeper.go, keeper/bunch_updater.go, keeper/status_requirements.go, keeper/hooks.go,
keeper/msg_server.go, keeper/genesis.go, types/types.go.

Accounts appear as texts in this module: the store is keyed by texts, and referrers and referrals are texts.
`sdk.AccAddressFromBech32` accepts the all-lowercase and the all-uppercase spelling of an address and `AccAddress.String` writes
lowercase (facts about the SDK); a text is a number, see `text` and `addrOf`; the empty text is `none`.  Texts are ordered as
numbers instead of alphabetically; nothing below depends on which total order it is.

A missing account reads as the empty `Info` (`ProtoCodec.UnmarshalBinaryBare(nil)` is no error), and updating it creates it.

Simplifications: events, logging and gas dropped, except that a loop that would never end is a panic (out of gas inside a
transaction); the lists `Coins`, `Delegated` and `ActiveRefCounts` are functions of the level (`Normalize` pads them with zeros
anyway); `ActiveRefCounts` holds integers that are reduced modulo 2⁶⁴ where they are read, which is what arithmetic on `uint64`
amounts to; overflows of `sdk.Int` are not modelled; the bank is the purses of the accounts; what the callbacks registered by
other modules do to those modules is left out, only whether they succeed matters here.
-/
namespace Verif.Referral
open Verif.Util Verif.Util.Frac

abbrev Addr := Nat
/-- A non-empty text that `sdk.AccAddressFromBech32` accepts. -/
abbrev Key := Nat

/-- `AccAddress.String`: the lowercase spelling -/
def text (a : Addr) : Key := 2 * a
/-- The uppercase spelling -/
def upperText (a : Addr) : Key := 2 * a + 1
/-- `sdk.AccAddressFromBech32` -/
def addrOf (k : Key) : Addr := k / 2

/-- What is totalled: `Coins`, `Delegated`, `ActiveRefCounts`. -/
inductive What where
  | coins | delegated | active
deriving DecidableEq, Repr

/-- `Info`, proto/artery/referral/v1beta1/types.proto -/
structure Info where
  status : Nat := 0
  referrer : Option Key := none
  referrals : List Key := []
  active : Bool := false
  activeReferrals : List Key := []
  /-- `Coins[l]`, `Delegated[l]`, `ActiveRefCounts[l]` -/
  tot : What → Nat → Int := fun _ _ => 0
  transition : Option Key := none
  downgradeAt : Option Int := none
  compressionAt : Option Int := none
  banishmentAt : Option Int := none
  banished : Bool := false

instance : Inhabited Info := ⟨{}⟩

/-- What an account owns, by denomination. -/
structure Purse where
  main : Int := 0
  delegated : Int := 0
  revoking : Int := 0
deriving DecidableEq, Repr

/-- Callbacks, keeper/hooks.go:15-17 -/
inductive Event where
  | statusUpdated | stakeChanged | banished
deriving DecidableEq, Repr

structure State where
  /-- the referral store -/
  store : KV Nat Info
  /-- the store as a bunch updater sees it: its own records, then the store -/
  work : KV Nat Info := KV.empty
  /-- the callbacks a bunch updater has collected -/
  calls : List (Event × Key) := []
  /-- the index store: pairs of status and account -/
  index : List (Nat × Key) := []
  sched : Schedule.State := Schedule.State.empty
  purse : Addr → Purse := fun _ => {}
  now : Int := 0
  /-- the schedule parameter `DayNanos` -/
  day : Int := 1
  /-- the bank parameter `DustDelegation` -/
  dust : Int := 0
  /-- the parameter `TransitionPrice` -/
  price : Int := 0
  /-- the module account `fee_collector` -/
  collector : Addr := 0

/-- The outside world: do the callbacks of other modules succeed? -/
structure Env where
  call : Event → Key → Bool

abbrev Act (α : Type) := M State α

/-! Hook names, keeper/hooks.go:19-22, as numbers -/
def downgradeHook : Nat := 6
def compressionHook : Nat := 7
def timeoutHook : Nat := 8
def banishHook : Nat := 9

/-- A panic inside `bunchUpdater.update` becomes an error, bunch_updater.go:119-129 (out of gas stays a panic; either way the
operation fails). -/
def recover {α : Type} (m : Act α) : Act α := fun s =>
  match m s with
  | (.panic, s') => (.err, s')
  | r => r

/-! ## Lists, /repo/util/lists.go -/

/-- Removal of the first occurrence, the last element taking its place: `RemoveStringFast`, lists.go:16-25. -/
def removeFast (l : List Key) (x : Key) : List Key :=
  if l.contains x then (l.set (l.idxOf x) (l.getLastD 0)).dropLast else l

/-- `RemoveStringPreserveOrder`, lists.go:5-14 -/
def removeOrdered (l : List Key) (x : Key) : List Key := l.erase x

/-- `AddStringSorted`, lists.go:27-41 -/
def addSorted : List Key → Key → List Key
  | [], x => [x]
  | y :: l, x => if y = x then y :: l else if x < y then x :: y :: l else y :: addSorted l x

/-- The loop of `MergeStringsSorted`, lists.go:64-88; the first argument bounds the number of rounds. -/
def mergeLoop : Nat → List Key → List Key → List Key
  | _, [], l2 => l2
  | _, l1, [] => l1
  | 0, l1, _ => l1
  | n + 1, x :: l1, y :: l2 =>
    if x < y then x :: mergeLoop n l1 (y :: l2)
    else if x = y then x :: mergeLoop n l1 l2
    else y :: mergeLoop n (x :: l1) l2

/-- `MergeStringsSorted`, lists.go:53-89 -/
def mergeSorted (l1 l2 : List Key) : List Key := mergeLoop (l1.length + l2.length) l1 l2

/-! ## Reading -/

/-- `Get`, keeper.go:1080-1088 -/
def infoOf (st : KV Nat Info) (k : Key) : Info := (st.get k).getD {}

/-- `getBalance`, keeper.go:1179-1188 -/
def State.balance (s : State) (k : Key) : Int :=
  (s.purse (addrOf k)).main + (s.purse (addrOf k)).delegated + (s.purse (addrOf k)).revoking
/-- `getDelegated`, keeper.go:1190-1196 -/
def State.delegated (s : State) (k : Key) : Int := (s.purse (addrOf k)).delegated

/-- `OneMonth`, /repo/x/schedule/keeper/periods.go:13 -/
def State.month (s : State) : Int := 30 * s.day
/-- `CompressionPeriod`, keeper.go:1286-1288 -/
def State.compressionPeriod (s : State) : Int := 2 * s.month

/-- No time set, or in the past -/
def overdue : Option Int → Int → Bool
  | none, _ => true
  | some t, now => decide (t < now)

/-- No time set, or in the future -/
def notDue : Option Int → Int → Bool
  | none, _ => true
  | some t, now => decide (now < t)

/-- `Info.RegistrationClosed`, types/types.go:74-76 -/
def Info.closed (v : Info) (now month : Int) : Bool :=
  v.referrer.isSome && (v.banished || (!v.active && overdue (v.compressionAt.map (· - month)) now))

/-- `Info.IsEmpty`, types/types.go:112-114 -/
def Info.isEmpty (v : Info) : Bool := v.status == 0 && !v.banished

/-- `NewInfo`, types/types.go:46-56 -/
def newInfo (referrer : Option Key) (coins delegated : Int) : Info :=
  { status := 1, referrer := referrer
    tot := fun w l => if l = 0 then (match w with | .coins => coins | .delegated => delegated | .active => 0) else 0 }

/-- Reading a `uint64` -/
def u64 (x : Int) : Int := x % 18446744073709551616

/-- `sdk.Int.Int64`: panics unless the number fits. -/
def toInt64? (x : Int) : Option Int := if -9223372036854775808 ≤ x ∧ x ≤ 9223372036854775807 then some x else none

/-! ## Status requirements -/

/-- `DelegatedAtLevelsUpTo`, types/types.go:66-72 -/
def Info.delegatedUpTo (v : Info) : Nat → Int
  | 0 => v.tot .delegated 0
  | n + 1 => v.delegatedUpTo n + v.tot .delegated (n + 1)

/-- The first criterion, status_requirements.go:62-74 and 109-121: `Uint64()` panics unless the number fits. -/
def enoughCoins (v : Info) (lines : Nat) (coins : Int) : Option Bool :=
  let x := v.delegatedUpTo lines
  if 0 ≤ x ∧ x < 18446744073709551616 then some (decide (coins ≤ x / 1000000)) else none

/-- `child.ActiveRefCounts[1] >= size`; indexing panics if the child does not exist. -/
def hasRefs (st : KV Nat Info) (child : Key) (size : Int) : Option Bool :=
  (st.get child).map fun v => decide (size ≤ u64 (v.tot .active 1))

/-- The loop of status_requirements.go:82-95 -/
def xByXLoop (st : KV Nat Info) (count : Nat) (size : Int) : Nat → List Key → Option Bool
  | _, [] => some false
  | found, c :: l => do
    let h ← hasRefs st c size
    if h then (if count ≤ found + 1 then some true else xByXLoop st count size (found + 1) l)
    else xByXLoop st count size found l

/-- `statusRequirementsXByX`, status_requirements.go:56-101 -/
def reqXByX (st : KV Nat Info) (v : Info) (lines : Nat) (coins : Int) (count : Nat) (size : Int) : Option Bool := do
  let c ← enoughCoins v lines coins
  let x ← xByXLoop st count size 0 v.activeReferrals
  some (c && x)

/-- `ActiveRefCounts` summed from level 0 on reach `leg` at some point, status_requirements.go:139-151; the argument counts the
levels left. -/
def bigTeam (v : Info) (leg : Int) : Nat → Int → Bool
  | 0, _ => false
  | n + 1, s =>
    let s' := u64 (s + v.tot .active (10 - n))
    if leg ≤ s' then true else bigTeam v leg n s'

/-- The loop of status_requirements.go:133-163 -/
def teamsLoop (st : KV Nat Info) (leg : Int) : Nat → Nat → List Key → Option Bool
  | teams, xs, [] => some (decide (3 ≤ teams) && decide (3 ≤ xs))
  | teams, xs, c :: l =>
    match st.get c with
    | none => if xs < 3 then none else teamsLoop st leg teams xs l
    | some v =>
      let teams' := if teams < 3 ∧ bigTeam v leg 11 0 then teams + 1 else teams
      let xs' := if xs < 3 ∧ 3 ≤ u64 (v.tot .active 1) then xs + 1 else xs
      if 3 ≤ teams' ∧ 3 ≤ xs' then some true else teamsLoop st leg teams' xs' l

/-- `statusRequirementsCore`, status_requirements.go:103-168.  (A missing child has an empty list
`ActiveRefCounts`: no team, and indexing it panics.) -/
def reqCore (st : KV Nat Info) (v : Info) (lines : Nat) (coins leg : Int) : Option Bool := do
  let c ← enoughCoins v lines coins
  let x ← teamsLoop st leg 0 0 v.activeReferrals
  some (c && x)

/-- `checkStatusRequirements`, status_requirements.go:9-54 with `LinesOpened`, types/types.go:29-40; `none` = panic. -/
def meets (st : KV Nat Info) (status : Nat) (v : Info) : Option Bool :=
  if status = 0 then some true
  else if v.banished then some false
  else match status with
    | 1 => some true
    | 2 => reqXByX st v 4 20000 2 2
    | 3 => reqXByX st v 6 50000 3 3
    | 4 => reqCore st v 8 150000 10
    | 5 => reqCore st v 10 300000 50
    | 6 => reqCore st v 10 700000 100
    | 7 => reqCore st v 10 1500000 300
    | 9 => reqCore st v 10 3000000 600
    | _ => none

/-! ## Writing -/

/-- The index after a change of status, keeper.go:1209-1222; `minIndexedStatus` is 5 (keeper.go:22).  (A key that is already there is
written over.) -/
def reindex (index : List (Nat × Key)) (old new : Nat) (k : Key) : List (Nat × Key) :=
  (if 5 ≤ new then [(new, k)] else []) ++
    (if 5 ≤ old then index.filter (fun e => e ≠ (old, k)) else index).filter (fun e => 5 ≤ new → e ≠ (new, k))

/-- `setStatus`, keeper.go:1204-1223 -/
def setStatus (v : Info) (status : Nat) (k : Key) : Act Info := do
  let s ← M.get
  if v.status = status then pure v
  else do
    M.set { s with index := reindex s.index v.status status k }
    pure { v with status := status }

/-- A request to the schedule keeper, which may panic. -/
def request (r : Schedule.Req) : Act Unit := do
  let s ← M.get
  let t ← M.orPanic (r.exec? s.sched)
  M.set { s with sched := t }

/-- `scheduleBanishment`, keeper.go:1290-1294 -/
def scheduleBanishment (k : Key) (v : Info) : Act Info := do
  let s ← M.get
  request (.schedule (s.now + s.month) banishHook [k])
  pure { v with banishmentAt := some (s.now + s.month) }

/-- `ScheduleCompression`, keeper.go:1234-1236 -/
def scheduleCompression (k : Key) (t : Int) : Act Unit := request (.schedule t compressionHook [k])

/-- `newBunchUpdater`, bunch_updater.go:64-71 -/
def newBunch : Act Unit := M.modify fun s => { s with work := s.store, calls := [] }

/-- `addCallback`, bunch_updater.go:218-220 -/
def addCall (e : Event) (k : Key) : Act Unit := M.modify fun s => { s with calls := (e, k) :: s.calls }

/-- The search for the highest status, bunch_updater.go:178-198; the first argument bounds the number of rounds. -/
def highest (st : KV Nat Info) (v : Info) : Nat → Nat → Option Nat
  | 0, cur => some cur
  | n + 1, cur =>
    if cur = 9 then some cur
    else do
      let next := if cur + 1 = 8 then 9 else cur + 1
      let ok ← meets st next v
      if ok then highest st v n next else some cur

/-- The status check, bunch_updater.go:140-211 -/
def checkStatus (k : Key) (v : Info) : Act Info := do
  let v ← (if v.status = 8 then (do let w ← setStatus v 9 k; addCall .statusUpdated k; pure w) else pure v)
  let s ← M.get
  let ok ← M.orPanic (meets s.work v.status v)
  if ok then do
    let v := { v with downgradeAt := none }
    let next ← M.orPanic (highest s.work v 10 v.status)
    if v.status < next then do
      let w ← setStatus v next k
      addCall .statusUpdated k
      pure w
    else pure v
  else if v.downgradeAt.isNone then do
    let at' := s.now + 2 * s.day
    request (.schedule at' downgradeHook [k])
    pure { v with downgradeAt := some at' }
  else pure v

/-- `bunchUpdater.set`, bunch_updater.go:73-90 -/
def put (k : Key) (v : Info) : Act Unit := M.modify fun s => { s with work := s.work.set k v }

/-- `bunchUpdater.update`, bunch_updater.go:118-216; what the callback assigns to outer variables is its second result. -/
def update {α : Type} (k : Key) (check : Bool) (f : Info → Act (Info × α)) : Act α := recover do
  let s ← M.get
  let r ← f (infoOf s.work k)
  let v ← (if check then checkStatus k r.1 else pure r.1)
  put k v
  pure r.2

/-- `commit`, bunch_updater.go:222-237, with `callback`, hooks.go:65-76. -/
def commit (e : Env) : Act Unit := do
  M.modify fun s => { s with store := s.work }
  let s ← M.get
  M.errIf (!s.calls.all fun c => e.call c.1 c.2)

/-- The way all operations use a bunch updater: create it, work with it, commit; the work may also find that there is nothing to
commit. -/
def bunch (e : Env) (m : Act Bool) : Act Unit := do
  newBunch
  let b ← m
  if b then commit e else pure ()

/-! ## Walking up -/

/-- Add `d` at one level. -/
def Info.add (v : Info) (d : What → Int) (l : Nat) : Info :=
  { v with tot := fun w j => if j = l then v.tot w j + d w else v.tot w j }

/-- The loops over ancestors: `f level account value` is applied to at most `n` accounts from `k` upwards, the level going up
by one; the next account is the referrer read in the callback. -/
def climb (check : Bool) (f : Nat → Key → Info → Act Info) : Nat → Nat → Option Key → Act Unit
  | 0, _, _ => pure ()
  | _ + 1, _, none => pure ()
  | n + 1, l, some k => do
    let next ← update k check (fun v => do
      let w ← f l k v
      pure (w, v.referrer))
    climb check f n (l + 1) next

/-- Coins `c` and delegation `d` -/
def money (c d : Int) : What → Int
  | .coins => c
  | .delegated => d
  | .active => 0

/-! ## Registration -/

/-- `AddTopLevelAccount`, keeper.go:150-181 (a panic becomes an error) -/
def addTopLevel (e : Env) (k : Key) : Act Unit := recover do
  let s ← M.get
  M.errIf (s.store.has k)
  bunch e do
    put k (newInfo none (s.balance k) (s.delegated k))
    pure true

/-- The account and its ancestors, keeper.go:224-275 -/
def appendBody (parent child : Key) (skipActivityCheck setCompressionTime : Bool) : Act Bool := do
  let s ← M.get
  let c := s.balance child
  let d := s.delegated child
  let item := newInfo (some parent) c d
  put child (if setCompressionTime then { item with compressionAt := some (s.now + s.compressionPeriod) } else item)
  let r ← update parent true (fun v => do
    addCall .stakeChanged parent
    let w := { v.add (money c d) 1 with referrals := v.referrals ++ [child] }
    pure (w, (v.referrer, !skipActivityCheck && w.closed s.now s.month)))
  M.errIf r.2
  climb true (fun l k v => do
    addCall .stakeChanged k
    pure (v.add (money c d) l)) 9 2 r.1
  pure true

/-- `appendChild`, keeper.go:213-281, with a parent -/
def appendChild (e : Env) (parent child : Key) (skipActivityCheck setCompressionTime : Bool) : Act Unit := do
  let s ← M.get
  M.errIf (s.store.has child)
  bunch e (appendBody parent child skipActivityCheck setCompressionTime)

/-! ## Compression -/

/-- What the ancestor at distance `k` gets when an account with the totals `x` is compressed, keeper.go:362-369.  Level 10 is
left out when `k < 10`, as the loop runs for `i < 10-k`. -/
def squeezed (x : What → Nat → Int) (k : Nat) (v : Info) : Info :=
  { v with tot := fun w j =>
      if j = k then v.tot w j + x w 1
      else if k < j ∧ j - k < 10 - k then v.tot w j + x w (j - k + 1) - x w (j - k)
      else v.tot w j }

/-- The compressed account itself, keeper.go:302-337; the second result is what it was. -/
def compressSelf (k : Key) (v : Info) : Act (Info × Info) := do
  M.errIf v.referrer.isNone
  let w : Info := { v with
    referrals := [], activeReferrals := []
    tot := fun x l => if x ≠ .active ∧ l = 0 then v.tot x l else 0
    compressionAt := none }
  addCall .stakeChanged k
  let w ← setStatus w 1 k
  addCall .statusUpdated k
  let d ← M.orPanic (toInt64? (v.tot .delegated 0))
  let s ← M.get
  let w ← (if d ≤ s.dust then scheduleBanishment k w else pure w)
  pure (w, v)

/-- The account, its referrals and its ancestors, keeper.go:302-380 -/
def compressBody (k : Key) : Act Bool := do
  let old ← update k false (compressSelf k)
  M.forEach old.referrals (fun c =>
    update c false (fun v => pure ({ v with referrer := old.referrer }, ())))
  climb true (fun l a v => do
    addCall .stakeChanged a
    let w := squeezed old.tot l v
    pure (if l = 1 then
        { w with referrals := v.referrals ++ old.referrals
                 activeReferrals := mergeSorted v.activeReferrals old.activeReferrals }
      else w)) 10 1 old.referrer
  pure true

/-- `Compress`, keeper.go:284-393 -/
def compress (e : Env) (k : Key) : Act Unit := bunch e (compressBody k)

/-! ## Balances, coming back -/

/-- The nearest account, from `k` upwards, that is open for registration, keeper.go:465-474 and 1010-1019; the first argument bounds
the number of accounts visited, `none` = the loop never ends. -/
def openAncestor (st : KV Nat Info) (now month : Int) : Nat → Option Key → Option (Option Key)
  | _, none => some none
  | 0, some _ => none
  | n + 1, some k =>
    if (infoOf st k).closed now month then openAncestor st now month n (infoOf st k).referrer else some (some k)

/-- A walk over all stored accounts and one that is not stored. -/
def State.fuel (s : State) : Nat := s.work.entries.length + 2

/-- A returning account is put under `parent` with its own coins, keeper.go:482-518 and 1033-1069. -/
def attach (k : Key) (c d : Int) : Option Key → Act Unit
  | none => pure ()
  | some p => do
    let next ← update p true (fun v =>
      pure ({ v.add (money c d) 1 with referrals := v.referrals ++ [k] }, v.referrer))
    if c = 0 ∧ d = 0 then pure () else climb true (fun l _ v => pure (v.add (money c d) l)) 9 2 next

/-- The account delegates enough again, keeper.go:455-519. -/
def reviveDelegator (k : Key) (v : Info) : Act Info := do
  let v ← (match v.banishmentAt with
    | some t => do
      request (.delete t banishHook [k])
      pure { v with banishmentAt := none }
    | none => pure v)
  if v.banished then do
    let s ← M.get
    let parent ← M.orPanic (openAncestor s.work s.now s.month s.fuel v.referrer)
    attach k (v.tot .coins 0) (v.tot .delegated 0) parent
    pure { v with referrer := parent, banished := false, status := 1 }
  else pure v

/-- An inactive account's delegation changed, keeper.go:449-521. -/
def delegationChanged (k : Key) (v : Info) (newDelegated : Int) : Act Info := do
  let s ← M.get
  if v.active then pure v
  else do
    let d ← M.orPanic (toInt64? newDelegated)
    if d ≤ s.dust then
      (if v.referrer.isSome ∧ v.banished = false ∧ v.banishmentAt.isNone ∧ overdue v.compressionAt s.now then scheduleBanishment k v
       else pure v)
    else reviveDelegator k v

/-- The callback of the first update, keeper.go:437-529 without the test for missing accounts. -/
def ownBalance (k : Key) (v : Info) : Act (Info × (Info × Int × Int)) := do
  let s ← M.get
  let c := s.balance k
  let d := s.delegated k
  let dc := c - v.tot .coins 0
  let dd := d - v.tot .delegated 0
  let v ← (if dd = 0 then pure v else do
    addCall .stakeChanged k
    delegationChanged k v d)
  pure ({ v with tot := fun w l => if l = 0 then (match w with | .coins => c | .delegated => d | .active => v.tot w l) else v.tot w l },
    (v, dc, dd))

/-- The account and its ancestors, keeper.go:437-558 -/
def balanceBody (k : Key) : Act Bool := do
  let s ← M.get
  if (infoOf s.work k).isEmpty then pure false
  else do
    let r ← update k true (ownBalance k)
    (if r.1.banished then pure () else
      climb true (fun l a v => do
        (if r.2.2 = 0 then pure () else addCall .stakeChanged a)
        pure (v.add (money r.2.1 r.2.2) l)) 10 1 r.1.referrer)
    pure true

/-- `OnBalanceChanged`, keeper.go:428-566 -/
def onBalanceChanged (e : Env) (k : Key) : Act Unit := bunch e (balanceBody k)

/-- The account and its ancestors, keeper.go:1009-1069 -/
def comeBackBody (k : Key) : Act Bool := do
  let r ← update k false (fun v => do
    let s ← M.get
    let parent ← M.orPanic (openAncestor s.work s.now s.month s.fuel v.referrer)
    pure ({ v with referrer := parent, banished := false, banishmentAt := none, compressionAt := none, status := 1 },
      (parent, v)))
  attach k (r.2.tot .coins 0) (r.2.tot .delegated 0) r.1
  pure true

/-- `ComeBack`, keeper.go:1004-1077 -/
def comeBack (e : Env) (k : Key) : Act Unit := bunch e (comeBackBody k)

/-! ## Activity -/

/-- One more or one less active account -/
def people (value : Bool) : What → Int
  | .active => if value then 1 else -1
  | _ => 0

/-- The account itself, keeper.go:587-605 -/
def activateSelf (k : Key) (value : Bool) (v : Info) : Act (Info × Option Key) := do
  let s ← M.get
  let w : Info := { v.add (people value) 0 with
    active := value
    compressionAt := if value then none else some (s.now + s.compressionPeriod) }
  let w ← (match v.banishmentAt with
    | some t => (if value then do
        request (.delete t banishHook [k])
        pure { w with banishmentAt := none }
      else pure w)
    | none => pure w)
  pure (w, v.referrer)

/-- The account and its ancestors, keeper.go:587-630.  If the value is already set nothing is committed. -/
def activeBody (k : Key) (value check : Bool) : Act Bool := do
  let s ← M.get
  if (infoOf s.work k).active = value then pure false
  else do
    let parent ← update k false (activateSelf k value)
    climb check (fun l _ v =>
      let w := v.add (people value) l
      pure (if l = 1 then
          { w with activeReferrals := if value then addSorted v.activeReferrals k else removeOrdered v.activeReferrals k }
        else w)) 10 1 parent
    (if parent.isSome && !value then scheduleCompression k (s.now + s.compressionPeriod) else pure ())
    pure true

/-- `SetActive`, keeper.go:568-639 -/
def setActive (e : Env) (k : Key) (value check : Bool) : Act Unit := bunch e (activeBody k value check)

/-! ## Transitions -/

/-- The walk of `validateTransition`, keeper.go:1274-1282: is `subject` among the accounts from `k` upwards?  The first argument
bounds the number of accounts visited, `none` = the loop never ends. -/
def reaches (st : KV Nat Info) (subject : Key) : Nat → Option Key → Option Bool
  | _, none => some false
  | 0, some _ => none
  | n + 1, some k => if k = subject then some true else reaches st subject n (infoOf st k).referrer

/-- `validateTransition`, keeper.go:1238-1284 -/
def validateTransition (subject : Key) (newParent : Option Key) (fresh : Bool) : Act Unit := do
  let s ← M.get
  match newParent with
  | none => M.err
  | some p => do
    M.errIf (subject == p)
    let r := infoOf s.store subject
    M.errIf (if fresh then r.transition.isSome else r.transition != some p)
    M.errIf (r.referrer == some p)
    M.errIf ((infoOf s.store p).closed s.now s.month)
    let below ← M.orPanic (reaches s.store subject (s.store.entries.length + 2) (infoOf s.store p).referrer)
    M.errIf below

/-- The bank sets a purse and tells this module, /repo/x/bank/internal/keeper (`SetCoins` hook), app.go:314-321. -/
def setPurse (e : Env) (a : Addr) (p : Purse) : Act Unit := do
  M.modify fun s => { s with purse := fun b => if b = a then p else s.purse b }
  onBalanceChanged e (text a)

/-- `SendCoinsFromAccountToModule` of main coins to the fee collector, /repo/x/bank/internal/keeper/keeper.go:134-144. -/
def pay (e : Env) (a : Addr) (amount : Int) : Act Unit := do
  let s ← M.get
  M.errIf (decide ((s.purse a).main < amount))
  setPurse e a { s.purse a with main := (s.purse a).main - amount }
  let s ← M.get
  setPurse e s.collector { s.purse s.collector with main := (s.purse s.collector).main + amount }

/-- `k.set`, keeper.go:1150-1160 -/
def setInfo (k : Key) (v : Info) : Act Unit := M.modify fun s => { s with store := s.store.set k v }

/-- `RequestTransition`, keeper.go:700-745 -/
def requestTransition (e : Env) (subject : Key) (newParent : Option Key) : Act Unit := do
  validateTransition subject newParent true
  let s ← M.get
  (if 0 < s.price then pay e (addrOf subject) s.price else pure ())
  let s ← M.get
  setInfo subject { infoOf s.store subject with transition := newParent }
  request (.schedule (s.now + s.day) timeoutHook [subject])

/-- `CancelTransition`, keeper.go:749-778 -/
def cancelTransition (subject : Key) : Act Unit := do
  let s ← M.get
  setInfo subject { infoOf s.store subject with transition := none }

/-- Add (or subtract) the totals `x` of a subtree to the ancestor at distance `l` of its root, keeper.go:855-859 and 868-872. -/
def Info.addTree (v : Info) (sign : Int) (x : What → Nat → Int) (l : Nat) : Info :=
  { v with tot := fun w j => if l ≤ j ∧ j ≤ 10 then v.tot w j + sign * x w (j - l) else v.tot w j }

/-- The loop over both lines of ancestors, keeper.go:849-879 -/
def moveTotals (x : What → Nat → Int) : Nat → Nat → Option Key → Option Key → Act Unit
  | 0, _, _, _ => pure ()
  | n + 1, l, old, new =>
    if old = new then pure ()
    else do
      let old' ← (match old with
        | none => pure none
        | some a => update a true (fun v => pure (v.addTree (-1) x l, v.referrer)))
      let new' ← (match new with
        | none => pure none
        | some a => update a true (fun v => pure (v.addTree 1 x l, v.referrer)))
      moveTotals x n (l + 1) old' new'

/-- A panic instead of an error -/
def must {α : Type} (m : Act α) : Act α := fun s =>
  match m s with
  | (.err, s') => (.panic, s')
  | r => r

/-- The old referrer, keeper.go:808-827.  Indexing past the end panics if the subject is not among the referrals. -/
def leave (subject : Key) (r : Info) (v : Info) : Act (Info × Option Key) := do
  M.panicIf (!v.referrals.contains subject)
  let w := v.addTree (-1) r.tot 1
  pure ({ w with
    referrals := removeFast (removeFast v.referrals subject) subject
    activeReferrals := if r.active then removeFast v.activeReferrals subject else v.activeReferrals }, v.referrer)

/-- The new referrer, keeper.go:831-845 -/
def join (subject : Key) (r : Info) (v : Info) : Act (Info × Option Key) :=
  let w := v.addTree 1 r.tot 1
  pure ({ w with
    referrals := v.referrals ++ [subject]
    activeReferrals := if r.active then v.activeReferrals ++ [subject] else v.activeReferrals }, v.referrer)

/-- Both lines of ancestors, keeper.go:808-879 -/
def moveBody (subject : Key) (r : Info) (oldParent newParent : Key) : Act Bool := do
  let old ← update oldParent true (leave subject r)
  let new ← update newParent true (join subject r)
  moveTotals r.tot 9 2 old new
  pure true

/-- `AffirmTransition`, keeper.go:782-893.  (For a subject without referrer the update of the account "" panics.) -/
def affirmTransition (e : Env) (subject : Key) : Act Unit := do
  let s ← M.get
  let r := infoOf s.store subject
  validateTransition subject r.transition false
  setInfo subject { r with referrer := r.transition, transition := none }
  match r.referrer, r.transition with
  | some oldParent, some newParent => must (bunch e (moveBody subject r oldParent newParent))
  | _, _ => M.panic

/-- `MsgServer.ResolveTransition`, keeper/msg_server.go:38-58 -/
def resolveTransition (e : Env) (signer subject : Key) (approved : Bool) : Act Unit := do
  let s ← M.get
  M.errIf ((infoOf s.store subject).referrer != some signer)
  if approved then affirmTransition e subject else cancelTransition subject

/-! ## Banishment -/

/-- The account itself, keeper.go:916-941 -/
def banishSelf (v : Info) : Act (Info × Info) := do
  let s ← M.get
  M.errIf v.referrer.isNone
  M.errIf v.active
  let d ← M.orPanic (toInt64? (v.tot .delegated 0))
  M.errIf (decide (s.dust < d))
  pure ({ v with banished := true, status := 0, compressionAt := none, downgradeAt := none, banishmentAt := none }, v)

/-- The ancestors of an account that leaves, keeper.go:949-985 -/
def detach (k : Key) (c d : Int) : Option Key → Act Unit
  | none => pure ()
  | some p => do
    let next ← update p true (fun v =>
      pure ({ v.add (money (-c) (-d)) 1 with referrals := removeFast v.referrals k }, v.referrer))
    if c = 0 ∧ d = 0 then pure () else climb true (fun l _ v => pure (v.add (money (-c) (-d)) l)) 9 2 next

/-- The account and its ancestors, keeper.go:916-985 -/
def banishBody (k : Key) : Act Bool := do
  let v ← update k false banishSelf
  M.errIf v.banished
  detach k (v.tot .coins 0) (v.tot .delegated 0) v.referrer
  pure true

/-- `Banish`, keeper.go:909-1001 -/
def banish (e : Env) (k : Key) : Act Unit := do
  bunch e (banishBody k)
  M.errIf (!e.call .banished k)

/-! ## Hooks of the scheduler -/

/-- The callback of `performDowngrade`, keeper/hooks.go:82-101 (from status 0 the next one is −1, for which the status check
panics) -/
def downgradeSelf (k : Key) (v : Info) : Act (Info × Unit) := do
  let s ← M.get
  if notDue v.downgradeAt s.now then pure (v, ())
  else if v.status = 0 then M.panic
  else do
    let next := if v.status - 1 = 8 then 7 else v.status - 1
    let w ← setStatus v next k
    pure ({ w with downgradeAt := none }, ())

def downgradeBody (k : Key) : Act Bool := do
  update k true (downgradeSelf k)
  addCall .statusUpdated k
  pure true

/-- `performDowngrade`, keeper/hooks.go:78-108 -/
def performDowngrade (e : Env) (k : Key) : Act Unit := bunch e (downgradeBody k)

/-- `performCompression`, keeper/hooks.go:110-120 -/
def performCompression (e : Env) (k : Key) : Act Unit := do
  let s ← M.get
  if notDue (infoOf s.store k).compressionAt s.now then pure () else compress e k

/-! ## The fee ladder -/

/-- The table of `GetReferralValidatorFeesForDelegating`, keeper.go:99-127: ratio, status, number of levels. -/
def ladder : List (Frac × Nat × Nat) :=
  [(permille 1, 3, 4), (permille 2, 4, 6), (permille 3, 5, 10), (permille 4, 6, 12), (permille 5, 7, 14), (permille 6, 9, 20)]

/-- The highest row that an ancestor of this status at distance `i` reaches, keeper.go:1126-1127; the argument counts the rows left. -/
def rowOf (status i : Nat) : Nat → Option Nat
  | 0 => none
  | j + 1 =>
    match ladder[j]? with
    | none => none
    | some (_, st, lvl) => if st ≤ status ∧ i < lvl then some j else rowOf status i j

/-- The part of a row that is not yet taken, keeper.go:1129-1138 -/
def share? (best : Option Nat) (j : Nat) : Option Frac :=
  match ladder[j]? with
  | none => none
  | some (r, _, _) =>
    match best with
    | none => r.sub? (Frac.ofInt 0)
    | some b =>
      match ladder[b]? with
      | none => none
      | some (q, _, _) => r.sub? q

/-- `highestAncestorValidatorIndex < j`, keeper.go:1128 -/
def above : Option Nat → Nat → Bool
  | none, _ => true
  | some b, j => decide (b < j)

/-- The loop of `getReferralValidatorFeesCore`, keeper.go:1105-1145: `n` rounds left, distance `i`, the highest row paid so far, the
next ancestor.  `validator` is `nodingKeeper.IsActiveValidator`, which may fail; `none` = error. -/
def feesLoop (st : KV Nat Info) (validator : Addr → Option Bool) : Nat → Nat → Option Nat → Option Key → Option (List (Key × Frac))
  | 0, _, _, _ => some []
  | _ + 1, _, _, none => some []
  | n + 1, i, best, some a =>
    match validator (addrOf a) with
    | none => none
    | some false => feesLoop st validator n (i + 1) best (infoOf st a).referrer
    | some true =>
      match rowOf (infoOf st a).status i 6 with
      | none => feesLoop st validator n (i + 1) best (infoOf st a).referrer
      | some j =>
        if above best j then
          match share? best j, feesLoop st validator n (i + 1) (some j) (infoOf st a).referrer with
          | some r, some rest => some ((a, r) :: rest)
          | _, _ => none
        else feesLoop st validator n (i + 1) best (infoOf st a).referrer

/-- `GetReferralValidatorFeesForDelegating`, keeper.go:98-134 and 1090-1148 -/
def validatorFees (st : KV Nat Info) (validator : Addr → Option Bool) (k : Key) : Option (List (Key × Frac)) :=
  feesLoop st validator 20 0 none (infoOf st k).referrer

end Verif.Referral
