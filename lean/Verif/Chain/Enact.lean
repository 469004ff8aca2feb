import Verif.Bank.Model
import Verif.Delegating.Model
import Verif.Noding.Model
import Verif.Profile.Model
import Verif.Earning.Model
import Verif.Voting.Model

/-!
What proposals of the government do: `Proposal.Validate` and `MsgPropose.ValidateBasic` (/repo/x/voting/types/types.go:30-291, args.go:9-46,
msgs.go:24-29) and the effects in `EndProposal` (/repo/x/voting/keeper/keeper.go:227-390).

Simplifications: texts of addresses in parameters are the canonical ones, so that lists of texts are lists of addresses; the company accounts
of the referral parameters never change and are left out; titles and names of upgrades are numbers, zero for the empty text.  The arguments
of deprecated types are opaque.
-/
namespace Verif.Enact
open Verif.Util

abbrev Addr := Nat

/-- `upgrade.Plan` with a time; the free text `Info` is left out. -/
structure Plan where
  name : Nat
  time : Int
deriving DecidableEq, Repr

/-- The parameters of all modules, the government, the records of validators, the planned upgrade and the names of upgrades done. -/
structure World where
  bank : Bank.Params
  delegating : Delegating.Params
  noding : Noding.State
  profile : Profile.Params
  transitionPrice : Nat
  signers : List Addr
  government : List Voting.Name
  plan : Option Plan
  done : List Nat

/-- Types whose enactment is an error, keeper.go:234-239, 310-311, 320-321, 330-339, 346-347, 361-362 -/
inductive Deprecated where
  | delegationAward | delegationNetworkAward | productNetworkAward | minimalStatus | revokePeriod | validatorBonus | subscriptionBonus
  | vpnBonus | storageBonus | validator | burnOnRevoke | percentageRanges
deriving DecidableEq, Repr

/-- `ProposalType` -/
inductive Kind where
  | enterPrice | vpnPrice | storagePrice | transitionPrice
  | governmentAdd | governmentRemove | creatorAdd | creatorRemove | staffAdd | staffRemove | earningSignerAdd | earningSignerRemove
  | rateSignerAdd | rateSignerRemove | vpnSignerAdd | vpnSignerRemove | storageSignerAdd | storageSignerRemove
  | blockedSenderAdd | blockedSenderRemove
  | upgrade | cancelUpgrade | amnesty
  | minSend | minDelegate | dust | maxFee
  | maxValidators | luckyValidators | jailAfter | minCriteria | votingPower
  | fee | split | table | revoke | expressRevoke
  | deprecated (d : Deprecated)
  | unknown (n : Nat)
deriving DecidableEq, Repr

/-- `MinCriteria` -/
structure Criteria where
  status : Nat
  self : Nat
  total : Nat
deriving DecidableEq, Repr

/-- `Proposal.Args`.  `none` inside: an empty field (`nil`), or a text that is not an address.  `deprecated`: arguments of a deprecated type and
whether their own `Validate` accepts them. -/
inductive Args where
  | none
  | price (n : Nat)
  | address (a : Option Addr)
  | upgrade (name : Nat) (height : Int) (time : Option Int)
  | minAmount (n : Int)
  | count (n : Nat)
  | criteria (c : Option Criteria)
  | votingPower (d : Noding.Distribution)
  | portion (q : Option Frac)
  | portions (l : List (Option Frac))
  | table (t : List Delegating.Row)
  | revoke (r : Option Delegating.RevokeParams)
  | deprecated (d : Deprecated) (ok : Bool)

structure Proposal where
  title : Nat
  author : Option Addr
  kind : Kind
  args : Args
  endTime : Option Int := Option.none

/-! ### Acceptance -/

/-- `MinCriteria.Validate`, /repo/x/noding/types/types.go:70-78, with /repo/x/referral/types/types.go:22-27 -/
def Criteria.valid (c : Criteria) : Bool := decide (1 ≤ c.status) && decide (c.status ≤ 9) && c.status != 8 && decide (c.self ≤ c.total)

/-- A portion in [0; 1), types.go:229; `none` = panic -/
def portionOk? : Option Frac → Option Bool
  | none => some false
  | some q => if q.isNegative then some false else (q.gte? (Frac.ofInt 1)).map (!·)

/-- A portion in [0; 1], types.go:239-241 -/
def shareOk? : Option Frac → Option Bool
  | none => some false
  | some q => if q.isNegative then some false else (q.gt? (Frac.ofInt 1)).map (!·)

/-- types.go:237-247; indexing past the end of the list panics. -/
def splitOk? : List (Option Frac) → Option Bool
  | a :: l => do
    if !(← shareOk? a) then return false
    match l with
    | [] => none
    | b :: _ => do
      if !(← shareOk? b) then return false
      match a, b with
      | some a, some b => do
        if ← (← a.add? b).gt? (Frac.ofInt 1) then return false
        if splitRatiosMaxLcm < (← splitLcm? a b) then return false
        return true
      | _, _ => none
  | [] => none

/-- `Proposal.Validate`, types.go:37-290 and args.go:9-38, the part about type and arguments; `none` = panic (the transaction is refused too). -/
def argsOk? (k : Kind) (x : Args) : Option Bool :=
  match k with
  | .cancelUpgrade | .amnesty => match x with | .none => some true | _ => some false
  | .enterPrice | .vpnPrice | .storagePrice | .transitionPrice => match x with | .price _ => some true | _ => some false
  | .governmentAdd | .governmentRemove | .creatorAdd | .creatorRemove | .staffAdd | .staffRemove | .earningSignerAdd | .earningSignerRemove
  | .rateSignerAdd | .rateSignerRemove | .vpnSignerAdd | .vpnSignerRemove | .storageSignerAdd | .storageSignerRemove
  | .blockedSenderAdd | .blockedSenderRemove => match x with | .address a => some a.isSome | _ => some false
  | .upgrade => match x with | .upgrade n h t => some (n != 0 && decide (h ≤ 0) && t.isSome) | _ => some false
  | .minSend | .minDelegate | .dust | .maxFee => match x with | .minAmount _ => some true | _ => some false
  | .maxValidators | .luckyValidators => match x with | .count _ => some true | _ => some false
  | .jailAfter => match x with | .count n => some (n != 0) | _ => some false
  | .minCriteria => match x with | .criteria c => c.map Criteria.valid | _ => some false
  | .votingPower => match x with | .votingPower d => d.validate? | _ => some false
  | .fee => match x with | .portion q => portionOk? q | _ => some false
  | .split => match x with | .portions l => splitOk? l | _ => some false
  | .table => match x with | .table t => some (Delegating.validateTable t) | _ => some false
  | .revoke | .expressRevoke => match x with | .revoke r => (match r with | some r => r.validate? | none => none) | _ => some false
  | .deprecated .validatorBonus | .deprecated .subscriptionBonus | .deprecated .vpnBonus | .deprecated .storageBonus | .deprecated .validator
  | .deprecated .burnOnRevoke => match x with | .portion q => portionOk? q | _ => some false
  | .deprecated d => match x with | .deprecated d' ok => some (decide (d = d') && ok) | _ => some false
  | .unknown _ => some false

/-- `MsgPropose.ValidateBasic`, msgs.go:24-29, and types.go:31-36 -/
def Proposal.accepted (p : Proposal) : Bool :=
  p.endTime.isNone && p.title != 0 && p.author.isSome && decide (argsOk? p.kind p.args = some true)

/-! ### Effects -/

/-- What an enactment learns from outside. -/
structure Env where
  noding : Noding.Env
  now : Int

/-- The validators of the bank's parameter store, /repo/x/bank/types/params.go:72-82 and 145-233 -/
def bankValid? (p : Bank.Params) : Option Bool := if p.dustDelegation < 0 then some false else validateFeeParams? p.fee

/-- `SetParams` of the bank, /repo/x/bank/internal/keeper/send.go:230-232: the parameter store panics on invalid values. -/
def setBank (p : Bank.Params) : M World Unit := do
  M.panicIf (decide (bankValid? p ≠ some true))
  M.modify fun w => { w with bank := p }

/-- `if err = p.Validate(); err == nil { SetParams }`, keeper.go:340-345 and 348-360 -/
def trySetBank (p : Bank.Params) : M World Unit := do
  let ok ← M.orPanic (bankValid? p)
  M.errIf (!ok)
  setBank p

/-- `SetParams` of /repo/x/delegating/keeper/params.go:17-20 -/
def setDelegating (p : Delegating.Params) : M World Unit := do
  M.panicIf (decide (p.validate? ≠ some true))
  M.modify fun w => { w with delegating := p }

/-- keeper.go:363-368 -/
def trySetDelegating (p : Delegating.Params) : M World Unit := do
  let ok ← M.orPanic p.validate?
  M.errIf (!ok)
  setDelegating p

/-- `SetParams` of /repo/x/noding/keeper/params.go:15-17 -/
def setNoding (p : Noding.Params) : M World Unit := do
  let w ← M.get
  let s ← M.orPanic (Noding.setParams w.noding p)
  M.modify fun w => { w with noding := s }

/-- `SetParams` of /repo/x/profile/keeper/params.go:16-31; the magic is unchanged in all uses. -/
def setProfile (p : Profile.Params) : M World Unit := do
  M.panicIf (!p.valid)
  M.modify fun w => { w with profile := p }

/-- `SetParams` of /repo/x/earning/keeper/params.go:16-19, with types/params.go:72-86 -/
def setSigners (l : List Addr) : M World Unit := do
  M.panicIf l.isEmpty
  M.modify fun w => { w with signers := l }

/-- `add`, /repo/x/profile/keeper/params.go:81-88, and `AddStringOntoEnd`, /repo/util/lists.go:43-51 -/
def addTo (l : List Addr) (a : Addr) : List Addr := if l.contains a then l else l ++ [a]

/-- `remove`, /repo/x/profile/keeper/params.go:90-105, and `RemoveStringFast`, /repo/util/lists.go:16-25 -/
def removeFrom (l : List Addr) (a : Addr) : List Addr := if l.contains a then Earning.swapRemove a l else l

/-- `ScheduleUpgrade` of the SDK, for plans with a time: refused if the time has passed or an upgrade of this name was done.  An assumption: the
source of the SDK is not in /repo. -/
def scheduleUpgrade (e : Env) (p : Plan) : M World Unit := do
  let w ← M.get
  M.errIf (p.name == 0 || decide (p.time ≤ e.now) || w.done.contains p.name)
  M.modify fun w => { w with plan := some p }

/-- The getters of arguments; a missing argument is a nil pointer. -/
def Args.price? : Args → Option Nat | .price n => some n | _ => Option.none
def Args.address? : Args → Option Addr | .address a => a | _ => Option.none
def Args.minAmount? : Args → Option Int | .minAmount n => some n | _ => Option.none
def Args.count? : Args → Option Nat | .count n => some n | _ => Option.none
def Args.criteria? : Args → Option Criteria | .criteria c => c | _ => Option.none
def Args.votingPower? : Args → Option Noding.Distribution | .votingPower d => some d | _ => Option.none
def Args.portion? : Args → Option Frac | .portion q => q | _ => Option.none
def Args.split? : Args → Option (Frac × Frac) | .portions (some a :: some b :: _) => some (a, b) | _ => Option.none
def Args.table? : Args → Option (List Delegating.Row) | .table t => some t | _ => Option.none
def Args.revoke? : Args → Option Delegating.RevokeParams | .revoke r => r | _ => Option.none
def Args.plan? : Args → Option Plan | .upgrade n _ (some t) => some ⟨n, t⟩ | _ => Option.none

/-- The switch of `EndProposal`, keeper.go:227-390, with government.go:33-43 and /repo/x/bank/internal/keeper/send.go:234-244.  An `err` here is
only logged, keeper.go:384-389. -/
def enact (e : Env) (k : Kind) (x : Args) : M World Unit := do
  let w ← M.get
  match k with
  | .enterPrice => do let n ← M.orPanic x.price?; setProfile { w.profile with subscriptionPrice := n }
  | .vpnPrice => do let n ← M.orPanic x.price?; setProfile { w.profile with vpnGbPrice := n }
  | .storagePrice => do let n ← M.orPanic x.price?; setProfile { w.profile with storageGbPrice := n }
  | .transitionPrice => do let n ← M.orPanic x.price?; M.modify fun w => { w with transitionPrice := n }
  | .governmentAdd => do let a ← M.orPanic x.address?; M.modify fun w => { w with government := Voting.append w.government a }
  | .governmentRemove => do let a ← M.orPanic x.address?; M.modify fun w => { w with government := Voting.remove w.government a }
  | .creatorAdd => do let a ← M.orPanic x.address?; setProfile { w.profile with creators := addTo w.profile.creators a }
  | .creatorRemove => do let a ← M.orPanic x.address?; setProfile { w.profile with creators := removeFrom w.profile.creators a }
  | .rateSignerAdd => do let a ← M.orPanic x.address?; setProfile { w.profile with tokenRateSigners := addTo w.profile.tokenRateSigners a }
  | .rateSignerRemove => do let a ← M.orPanic x.address?; setProfile { w.profile with tokenRateSigners := removeFrom w.profile.tokenRateSigners a }
  | .vpnSignerAdd => do let a ← M.orPanic x.address?; setProfile { w.profile with vpnSigners := addTo w.profile.vpnSigners a }
  | .vpnSignerRemove => do let a ← M.orPanic x.address?; setProfile { w.profile with vpnSigners := removeFrom w.profile.vpnSigners a }
  | .storageSignerAdd => do let a ← M.orPanic x.address?; setProfile { w.profile with storageSigners := addTo w.profile.storageSigners a }
  | .storageSignerRemove => do let a ← M.orPanic x.address?; setProfile { w.profile with storageSigners := removeFrom w.profile.storageSigners a }
  | .staffAdd => do let a ← M.orPanic x.address?; M.modify fun w => { w with noding := Noding.addToStaff w.noding a }
  | .staffRemove => do let a ← M.orPanic x.address?; M.modify fun w => { w with noding := Noding.removeFromStaff e.noding w.noding a }
  | .earningSignerAdd => do let a ← M.orPanic x.address?; setSigners (w.signers ++ [a])
  | .earningSignerRemove => do
    let a ← M.orPanic x.address?
    if w.signers.contains a then setSigners (Earning.swapRemove a w.signers) else pure ()
  | .blockedSenderAdd => do let a ← M.orPanic x.address?; setBank { w.bank with blockedSenders := addTo w.bank.blockedSenders a }
  | .blockedSenderRemove => do let a ← M.orPanic x.address?; setBank { w.bank with blockedSenders := removeFrom w.bank.blockedSenders a }
  | .upgrade => do let p ← M.orPanic x.plan?; scheduleUpgrade e p
  | .cancelUpgrade => M.modify fun w => { w with plan := none }
  | .amnesty => M.modify fun w => { w with noding := Noding.generalAmnesty w.noding }
  | .minSend => do let n ← M.orPanic x.minAmount?; setBank { w.bank with minSend := n }
  | .minDelegate => do let n ← M.orPanic x.minAmount?; setDelegating { w.delegating with minDelegate := n }
  | .dust => do let n ← M.orPanic x.minAmount?; setBank { w.bank with dustDelegation := n }
  | .maxFee => do let n ← M.orPanic x.minAmount?; trySetBank { w.bank with fee := { w.bank.fee with maxFee := n } }
  | .maxValidators => do let n ← M.orPanic x.count?; setNoding { w.noding.params with maxValidators := n }
  | .luckyValidators => do let n ← M.orPanic x.count?; setNoding { w.noding.params with lotteryValidators := n }
  | .jailAfter => do let n ← M.orPanic x.count?; setNoding { w.noding.params with jailAfter := n }
  | .minCriteria => do
    let c ← M.orPanic x.criteria?
    setNoding { w.noding.params with minStatus := c.status, minSelf := c.self, minTotal := c.total }
  | .votingPower => do let d ← M.orPanic x.votingPower?; setNoding { w.noding.params with votingPower := d }
  | .fee => do let q ← M.orPanic x.portion?; trySetBank { w.bank with fee := { w.bank.fee with rate := q } }
  | .split => do
    let q ← M.orPanic x.split?
    trySetBank { w.bank with fee := { w.bank.fee with forProposer := q.1, forCompany := q.2 } }
  | .table => do let t ← M.orPanic x.table?; trySetDelegating { w.delegating with table := t }
  | .revoke => do let r ← M.orPanic x.revoke?; setDelegating { w.delegating with revoke := r }
  | .expressRevoke => do let r ← M.orPanic x.revoke?; setDelegating { w.delegating with express := r }
  | .deprecated _ => M.err
  | .unknown _ => M.err

end Verif.Enact
