import Verif.Bank.Model
import Verif.Schedule.Model

/-!
Model of /repo/x/delegating (keeper/keeper.go, keeper/hooks.go, keeper/genesis.go, types/types.go, types/params.go).

The state joins the bank store, the delegating store, the schedule store and the delegating parameters.  What the module
asks of other modules (profile, noding, earning, referral) is given by an arbitrary environment per operation.

Simplifications: events and logging dropped; `sort.Slice` (unstable) is a stable insertion sort – the order among requests
with equal times is not observable in any statement; `time.Duration` arithmetic does not saturate; the bank hook does not
touch the stores modelled here (the referral hook schedules tasks of its own, see `Act.req` in Props).
-/
namespace Verif.Delegating
open Verif.Util Verif.Bank

abbrev Addr := Nat

/-- `RevokeRequest` -/
structure Request where
  time : Int
  amount : Int
deriving DecidableEq, Repr

/-- `Record` -/
structure Record where
  nextAccrue : Option Int := none
  requests : List Request := []
  missedPart : Option Frac := none
deriving DecidableEq, Repr

/-- `Revoke` parameter: waiting period in days (`int32`) and burnt share. -/
structure RevokeParams where
  period : Int
  burn : Frac
deriving DecidableEq, Repr

/-- `PercentageListRange` -/
structure Row where
  start : Nat
  list : List Frac
deriving DecidableEq, Repr

/-- `Params` -/
structure Params where
  minDelegate : Int
  revoke : RevokeParams
  express : RevokeParams
  table : List Row
deriving DecidableEq, Repr

structure State where
  bank : Bank.State
  records : KV Nat Record
  sched : Schedule.State
  params : Params

/-- Everything an operation learns from outside the modelled stores. -/
structure Env where
  bank : Bank.Env
  /-- block time, nanoseconds -/
  now : Int
  /-- `scheduleKeeper.OneDay` -/
  day : Int
  /-- `profileKeeper.GetProfile(acc)`: `none` = nil, otherwise `IsActive` -/
  profile : Addr → Option Bool
  /-- `nodingKeeper.IsActiveValidator`, `none` = error -/
  validator : Addr → Option Bool
  /-- `earningKeeper.IsActiveEarner` (VPN, storage), `none` = error -/
  earner : Addr → Option (Bool × Bool)
  /-- `refKeeper.GetReferralValidatorFeesForDelegating`, `none` = error -/
  fees : Addr → Option (List (Addr × Frac))

/-- `RevokeHookName` and `AccrueHookName`, types/key.go:16-17 -/
def revokeHook : Nat := 0
def accrueHook : Nat := 1

/-! ### Parameters -/

/-- `Revoke.Validate`, types/types.go:131-142: `none` = panic. -/
def RevokeParams.validate? (r : RevokeParams) : Option Bool := do
  if r.period < 1 then return false
  if ← r.burn.gt? (Frac.percent 100) then return false
  if r.burn.isNegative then return false
  return true

/-- `PercentageListRange.Validate`, types/types.go:91-101. -/
def Row.validate (r : Row) : Bool := decide (r.list.length = 5) && r.list.all (fun p => !p.isNegative)

/-- The loop of `ValidatePercentageTable`, types/types.go:108-122. -/
def validateRows : Option Nat → List Row → Bool
  | _, [] => true
  | prev, r :: rs =>
    r.validate && (match prev with | none => decide (r.start = 0) | some p => decide (p < r.start))
      && validateRows (some r.start) rs

/-- `ValidatePercentageTable`, types/types.go:103-124. -/
def validateTable (t : List Row) : Bool := !t.isEmpty && validateRows none t

/-- `Params.Validate`, types/params.go:111-125: `none` = panic. -/
def Params.validate? (p : Params) : Option Bool := do
  if p.minDelegate < 1 then return false
  if !(← p.revoke.validate?) then return false
  if !(← p.express.validate?) then return false
  return validateTable p.table

/-! ### Rates -/

/-- The inner loop of `percent`, keeper.go:492-498: the last row of the leading run of rows that start at or below the
delegated amount.  Outer `none` = index out of range. -/
def bonusAt? (delegated : Int) (i : Nat) : Frac → List Row → Option Frac
  | acc, [] => some acc
  | acc, r :: rs =>
    if delegated ≥ (r.start : Int) then
      match r.list[i]? with
      | some b => bonusAt? delegated i b rs
      | none => none
    else some acc

/-- The outer loop of `percent`, keeper.go:489-501. -/
def sumBonuses? (delegated : Int) (table : List Row) : Nat → List Bool → Frac → Option Frac
  | _, [], acc => some acc
  | i, v :: vs, acc =>
    if v then do
      let b ← bonusAt? delegated i ⟨0, 1⟩ table
      let acc' ← acc.add? b
      sumBonuses? delegated table (i + 1) vs acc'
    else sumBonuses? delegated table (i + 1) vs acc

/-- `percent`, keeper.go:478-504. -/
def percent? (dust : Int) (table : List Row) (delegated : Int) (profile validator vpn storage : Bool) : Option Frac := do
  let d ← sdkInt64? delegated
  if d ≤ dust then return ⟨0, 1⟩
  let s ← sumBonuses? delegated table 0 [true, validator, profile, vpn, storage] ⟨0, 1⟩
  let q ← s.div? ⟨30, 1⟩
  q.reduce?

/-- `dayPart`, keeper.go:506-508. -/
def dayPart? (now day «end» : Int) : Option Frac := do
  let r ← Frac.reduce? ⟨«end» - now, day⟩
  (Frac.ofInt 1).sub? r

/-! ### Access to the parts of the state -/

/-- Run a bank computation. -/
def onBank {α : Type} (m : M Bank.State α) : M State α := fun s =>
  let r := m s.bank
  (r.1, { s with bank := r.2 })

/-- An error turned into a panic (`if err != nil { panic(err) }`). -/
def mustBank (m : M Bank.State Unit) : M State Unit := fun s =>
  let r := m s.bank
  (match r.1 with | .err => .panic | x => x, { s with bank := r.2 })

/-- `scheduleKeeper.ScheduleTask` / `Delete` -/
def onSched (r : Schedule.Req) : M State Unit := fun s =>
  match r.exec? s.sched with
  | some t => (.ok (), { s with sched := t })
  | none => (.panic, s)

def getRecord (s : State) (a : Addr) : Record := (s.records.get a).getD {}

def delegatedOf (s : State) (a : Addr) : Int := (balance s.bank a).delegated

/-! ### Moving coins between the denominations -/

/-- `delegate`, `freeze` and `undelegate`, keeper.go:264-353, share this shape: subtract, add, correct the supply. -/
def convert (e : Env) (a : Addr) (minus plus : Coins) : M State Unit := do
  M.panicIf (!minus.valid)
  onBank (subtractCoins e.bank a minus)
  M.panicIf (!plus.valid)
  onBank (addCoins e.bank a plus)
  onBank (deflate minus)
  onBank (inflate plus)

/-- `delegate`, keeper.go:264-288 -/
def delegate (e : Env) (a : Addr) (u : Int) : M State Unit :=
  if u = 0 then pure () else convert e a (Coins.ofMain u) (Coins.ofDelegated u)

/-- `freeze`, keeper.go:290-321 -/
def freeze (e : Env) (a : Addr) (ud ur : Int) : M State Unit :=
  if ud = 0 then pure () else convert e a (Coins.ofDelegated ud) (Coins.ofRevoking ur)

/-- `undelegate`, keeper.go:323-353 -/
def undelegate (e : Env) (a : Addr) (u : Int) : M State Unit :=
  if u = 0 then pure () else convert e a (Coins.ofRevoking u) (Coins.ofMain u)

/-! ### Interest -/

/-- `accrue`, keeper.go:355-394 -/
def accrue (e : Env) (a : Addr) (u : Int) : M State Unit :=
  if u = 0 then pure () else
  match e.profile a with
  | none => pure ()
  | some _ => do
    M.panicIf (decide (u < 0))
    onBank (inflate (Coins.ofMain u))
    let s ← M.get
    let q := s.bank.params.fee
    let fee ← M.orPanic (calculateFee? u q.rate q.maxFee q.forProposer q.forCompany)
    if fee = 0 then mustBank (addCoins e.bank a (Coins.ofMain u))
    else do
      M.panicIf (decide (fee < 0))
      M.panicIf (decide (u - fee < 0))
      mustBank (addCoins e.bank e.bank.splitCollector (Coins.ofMain fee))
      mustBank (addCoins e.bank a (Coins.ofMain (u - fee)))

/-- One share, keeper.go:427: `fee.Ratio.Div(30/1).Reduce().MulInt64(u).Int64()`. -/
def share? (ratio : Frac) (u : Int) : Option Int := do
  let q ← ratio.div? ⟨30, 1⟩
  let q ← q.reduce?
  (← q.mulInt? u).int64?

/-- The loop over the beneficiaries, keeper.go:426-435: their shares (zero shares skipped, `sdk.NewCoin` panics on a
negative one) and the 64-bit total. -/
def shares? (u : Int) : List (Addr × Frac) → Option (List (Addr × Int) × Int)
  | [] => some ([], 0)
  | (b, r) :: rest => do
    let x ← share? r u
    if x = 0 then shares? u rest
    else if x < 0 then none
    else do
      let (l, t) ← shares? u rest
      return ((b, x) :: l, wrap64 (x + t))

/-- `accrueToValidator`, keeper.go:396-447.  `u` comes from an `int64`. -/
def accrueToValidator (e : Env) (a : Addr) (u : Int) : M State Unit :=
  if u = 0 then pure () else
  match e.profile a with
  | none => pure ()
  | some _ => do
    let fees ← M.orPanic (e.fees a)
    let (outs, total) ← M.orPanic (shares? u fees)
    if total = 0 then pure () else do
      M.forEach outs fun o => mustBank (addCoins e.bank o.1 (Coins.ofMain o.2))
      M.panicIf (decide (total < 0))
      onBank (inflate (Coins.ofMain total))

/-- The flags of an account: profile, validator, VPN, storage (a nil profile is dereferenced: panic). -/
def flags? (e : Env) (a : Addr) : Option (Bool × Bool × Bool × Bool) := do
  let p ← e.profile a
  let v ← e.validator a
  let (n, st) ← e.earner a
  return (p, v, n, st)

/-- The part of the day to be paid for, keeper.go:451-455. -/
def paidPart? (e : Env) (item : Record) (next : Int) : Option Frac := do
  let dp ← dayPart? e.now e.day next
  match item.missedPart with
  | some m => dp.sub? m
  | none => some dp

/-- Interest and validator base of `accruePart`, keeper.go:451-467. -/
def interest? (e : Env) (s : State) (a : Addr) (item : Record) (next : Int) : Option (Int × Int) := do
  let dp ← paidPart? e item next
  let (p, v, n, st) ← flags? e a
  let d := delegatedOf s a
  let pc ← percent? s.bank.params.dustDelegation s.params.table d p v n st
  let d64 ← sdkInt64? d
  let x ← pc.mul? dp
  let x ← x.reduce?
  let i ← (← x.mulInt? d64).int64?
  let y ← dp.reduce?
  let j ← (← y.mulInt? d64).int64?
  return (i, j)

/-- Payment of interest and validator shares, keeper.go:469-472. -/
def payInterest (e : Env) (a : Addr) (i j : Int) : M State Unit :=
  if 0 < i then do
    accrue e a i
    accrueToValidator e a j
  else pure ()

/-- `accruePart`, keeper.go:449-476: returns the updated record. -/
def accruePart (e : Env) (a : Addr) (item : Record) (nextPayment : Int) : M State Record :=
  match item.nextAccrue with
  | none => pure { item with nextAccrue := some nextPayment }
  | some next => do
    let s ← M.get
    let ij ← M.orPanic (interest? e s a item next)
    payInterest e a ij.1 ij.2
    onSched (.delete next accrueHook [a])
    pure { item with nextAccrue := some nextPayment, missedPart := none }

/-! ### Messages -/

/-- The next accrual of an account whose delegation is now `d`, keeper.go:103-110, 155-162: none for dust, otherwise in
one day, with a task. -/
def planAccrue (e : Env) (a : Addr) (d : Int) (item : Record) : M State Record := do
  let s ← M.get
  let d64 ← M.orPanic (sdkInt64? d)
  if d64 ≤ s.bank.params.dustDelegation then pure { item with nextAccrue := none }
  else do
    onSched (.schedule (e.now + e.day) accrueHook [a])
    pure { item with nextAccrue := some (e.now + e.day) }

/-- What is left of a revoked amount after burning, keeper.go:97: `u - Burn.MulInt64(u.Int64()).Int64()`. -/
def afterBurn? (burn : Frac) (u : Int) : Option Int := do
  let u64 ← sdkInt64? u
  let b ← (← burn.mulInt? u64).int64?
  return u - b

/-- `Revoke`, keeper.go:64-121 -/
def revoke (e : Env) (a : Addr) (u : Int) (express : Bool) : M State Unit :=
  if u = 0 then pure () else do
    let s ← M.get
    let current := delegatedOf s a
    M.errIf (decide (u > current))
    let item ← accruePart e a (getRecord s a) (e.now + e.day)
    let rp := if express then s.params.express else s.params.revoke
    let ur ← M.orPanic (afterBurn? rp.burn u)
    freeze e a u ur
    let item ← planAccrue e a (current - u) item
    let time := e.now + rp.period * e.day
    M.modify fun s => { s with records := s.records.set a { item with requests := item.requests ++ [⟨time, ur⟩] } }
    onSched (.schedule time revokeHook [a])

/-- `MsgRevoke`/`MsgExpressRevoke`: `ValidateBasic` (types/msgs.go:95-103, 147-155) and the message server. -/
def msgRevoke (e : Env) (a : Addr) (u : Int) (express : Bool) : M State Unit := do
  M.errIf (decide (u ≤ 0))
  revoke e a u express

/-- `Delegate`, keeper.go:123-176 -/
def delegateMsg (e : Env) (a : Addr) (u : Int) : M State Unit := do
  let s ← M.get
  M.errIf (decide (u < s.params.minDelegate))
  M.panicIf (decide (u < 0))
  let fee ← onBank (payTxFee e.bank a (Coins.ofMain u))
  let s ← M.get
  let item ← accruePart e a (getRecord s a) (e.now + e.day)
  delegate e a (u - fee)
  let s ← M.get
  let item ← planAccrue e a (delegatedOf s a) item
  M.modify fun s => { s with records := s.records.set a item }

/-- `MsgDelegate`: `ValidateBasic` (types/msgs.go:43-51) and the message server. -/
def msgDelegate (e : Env) (a : Addr) (u : Int) : M State Unit := do
  M.errIf (decide (u ≤ 0))
  delegateMsg e a u

/-! ### Scheduled tasks and hooks -/

def insertReq (r : Request) : List Request → List Request
  | [] => [r]
  | x :: xs => if x.time ≤ r.time then x :: insertReq r xs else r :: x :: xs

/-- `sort.Slice(item.Requests, …Time.Before…)`, hooks.go:36-38 -/
def sortReqs : List Request → List Request
  | [] => []
  | r :: rs => insertReq r (sortReqs rs)

/-- The loop of `performRevoking`, hooks.go:40-50 (it stops at the first request that is not due). -/
def payDue (e : Env) (a : Addr) : List Request → M State Unit
  | [] => pure ()
  | r :: rs => if r.time > e.now then pure () else do
    undelegate e a r.amount
    payDue e a rs

/-- `performRevoking`, hooks.go:21-62.  `Record.IsEmpty` asks for a nil slice, which `Requests[n:]` never is, so the
record is never deleted here. -/
def performRevoking (e : Env) (a : Addr) : M State Unit := do
  let s ← M.get
  match s.records.get a with
  | none => pure ()
  | some item => do
    let sorted := sortReqs item.requests
    let n := (sorted.takeWhile (fun r => decide (r.time ≤ e.now))).length
    payDue e a sorted
    if n = 0 then pure ()
    else M.modify fun s => { s with records := s.records.set a { item with requests := sorted.drop n } }

/-- Interest and validator base of `MustPerformAccrue`, hooks.go:88-99. -/
def fullInterest? (pc : Frac) (d : Int) (missed : Option Frac) : Option (Int × Int) := do
  let d64 ← sdkInt64? d
  let i ← (← pc.mulInt? d64).int64?
  match missed with
  | none => some (i, d64)
  | some m => do
    let mi ← (← m.mulInt? i).int64?
    let mj ← (← m.mulInt? d64).int64?
    some (wrap64 (i - mi), wrap64 (d64 - mj))

/-- `MustPerformAccrue`, hooks.go:64-106; `time` is the task's time. -/
def performAccrue (e : Env) (a : Addr) (time : Int) : M State Unit := do
  let s ← M.get
  let item := getRecord s a
  M.panicIf (decide (item.nextAccrue ≠ some time))
  let d := delegatedOf s a
  let f ← M.orPanic (flags? e a)
  let pc ← M.orPanic (percent? s.bank.params.dustDelegation s.params.table d f.1 f.2.1 f.2.2.1 f.2.2.2)
  if pc.isZero then
    M.modify fun s => { s with records := s.records.set a { item with nextAccrue := none } }
  else do
    let ij ← M.orPanic (fullInterest? pc d item.missedPart)
    accrue e a ij.1
    accrueToValidator e a ij.2
    onSched (.schedule (time + e.day) accrueHook [a])
    let item := { item with nextAccrue := some (time + e.day), missedPart := none }
    M.modify fun s => { s with records := s.records.set a item }

/-- `OnBanished`, hooks.go:108-116 -/
def onBanished (e : Env) (a : Addr) : M State Unit := do
  let s ← M.get
  let d := delegatedOf s a
  if d = 0 then pure () else revoke e a d false

/-! ### Queries and genesis -/

/-- `GetAccumulation`, keeper.go:201-252: total and current sum shown to the account; outer `none` = panic, inner
`none` = error. -/
def accumulation? (e : Env) (s : State) (a : Addr) : Option (Option (Int × Int)) := do
  match (s.records.get a).bind Record.nextAccrue with
  | none => return none
  | some next =>
    let dp ← Frac.reduce? ⟨e.now - (next - e.day), e.day⟩
    let d := delegatedOf s a
    let (p, v, n, st) ← flags? e a
    let pc ← percent? s.bank.params.dustDelegation s.params.table d p v n st
    let d64 ← sdkInt64? d
    let total ← (← pc.mulInt? d64).reduce?
    let cur ← total.mul? dp
    match (getRecord s a).missedPart with
    | none => return some (← total.int64?, ← cur.int64?)
    | some m =>
      let missed ← m.mul? total
      return some (← (← total.sub? missed).int64?, ← (← cur.sub? missed).int64?)

/-- `InitAccounts`, keeper/genesis.go:11-28. -/
def initAccounts (l : List (Addr × Option Int × List Request)) : KV Nat Record :=
  l.foldl (fun m x => m.set x.1 { nextAccrue := x.2.1, requests := x.2.2 }) KV.empty

/-- `ExportAccounts`, keeper/genesis.go:30-45. -/
def exportAccounts (m : KV Nat Record) : List (Addr × Option Int × List Request) :=
  m.entries.map fun x => (x.1, x.2.nextAccrue, x.2.requests)

end Verif.Delegating
