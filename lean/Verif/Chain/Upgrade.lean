import Verif.Delegating.Chain
import Verif.Delegating.Interest
import Verif.Referral.Model

/-!
Model of the upgrade handlers in /repo/app/upgrade.go that move money: `ForceGlobalDelegation` (version 2.2.1) and
`EmptyEarningVpnStorageCollectors` (2.5.2).

`none` = panic: the upgrade handler runs at the beginning of a block outside of any recovery, so the chain stops.

Simplifications: logging dropped; `rk.Iterate` (x/referral/keeper/keeper.go:657-696) walks over the store as it was at the beginning
and collects the changed records; since this callback reads no other record, writing each record at once (also an unchanged one) gives the
same store; the lists of totals have all eleven levels; durations do not saturate.
-/
namespace Verif.Upgrade
open Verif.Util Verif.Bank Verif.Delegating

abbrev Key := Referral.Key

/-- The stores the handlers work on. -/
structure State where
  del : Delegating.State
  ref : KV Nat Referral.Info

/-- The stores and the variables of `ForceGlobalDelegation`, upgrade.go:303-309. -/
structure Vars where
  bank : Bank.State
  records : KV Nat Record
  sched : Schedule.State
  ref : KV Nat Referral.Info
  t : Int
  q : Frac
  dMain : Int
  dRevoke : Int

/-- `time.Second`, upgrade.go:310 -/
def second : Int := 1000000000

/-- The first loop over the levels, upgrade.go:323-328. -/
def delegateAll (r : Referral.Info) : Referral.Info :=
  { r with tot := fun w l => if w = .delegated ∧ l ≤ 10 then r.tot .coins l else r.tot w l }

/-- `bStore.Set(key, …Balance{…})`, upgrade.go:396-397: no check, no hook, and an empty balance is written as well. -/
def setRaw (b : Bank.State) (a : Nat) (c : Coins) : Bank.State := { b with balances := b.balances.set a c }

/-- Deletion of the tasks of open requests, upgrade.go:363-365. -/
def dropTasks? (a : Nat) : List Request → Schedule.State → Option Schedule.State
  | [], s => some s
  | r :: l, s => do dropTasks? a l (← (Schedule.Req.delete r.time revokeHook [a]).exec? s)

/-- The callback of `ForceGlobalDelegation`, upgrade.go:317-402, for the record `x.2` under the key `x.1`.  `sdk.NewCoin` panics on negative
amounts. -/
def forceOne? (plan day dust : Int) (dq : Frac) (v : Vars) (x : Nat × Referral.Info) : Option Vars :=
  let k := x.1
  let r := x.2
  if r.banished then some v
  else if r.tot .coins 0 = r.tot .delegated 0 then some { v with ref := v.ref.set k (delegateAll r) }
  else
    let a := Referral.addrOf k
    let b := balance v.bank a
    if b.main < 0 ∨ b.revoking < 0 then none
    else
      let total := b.delegated + b.main + b.revoking
      let di := (v.records.get a).getD {}
      (dropTasks? a di.requests v.sched).bind fun sched =>
      let bank := setRaw v.bank a ⟨0, total, 0, b.other⟩
      let dMain := v.dMain + b.main
      let dRevoke := v.dRevoke + b.revoking
      match di.nextAccrue with
      | some next =>
        (sdkInt64? b.main).bind fun m => (sdkInt64? b.revoking).bind fun w => (sdkInt64? total).bind fun d =>
        (Frac.mul? ⟨wrap64 (m + w), d⟩ ⟨plan - (next - day), day⟩).bind fun p =>
        some ⟨bank, v.records.set a ⟨some next, [], some p⟩, sched, v.ref.set k (delegateAll r), v.t, v.q, dMain, dRevoke⟩
      | none =>
        (sdkInt64? total).bind fun d =>
        if d > dust then
          (v.q.add? dq).bind fun q =>
          ((Schedule.Req.schedule (v.t - second) accrueHook [a]).exec? sched).bind fun sched =>
          (match r.banishmentAt with
            | some time => (Schedule.Req.delete time Referral.banishHook [k]).exec? sched
            | none => some sched).bind fun sched =>
          some ⟨bank, v.records.set a ⟨some (v.t - second), [], some q⟩, sched,
            v.ref.set k { delegateAll r with banishmentAt := none }, v.t - second, q, dMain, dRevoke⟩
        else
          some ⟨bank, if di.requests.isEmpty then v.records else v.records.erase a, sched, v.ref.set k (delegateAll r), v.t, v.q,
            dMain, dRevoke⟩

/-- The loop over the records, upgrade.go:317 -/
def forceLoop? (plan day dust : Int) (dq : Frac) : List (Nat × Referral.Info) → Vars → Option Vars
  | [], v => some v
  | x :: l, v => (forceOne? plan day dust dq v x).bind (forceLoop? plan day dust dq l)

/-- `ForceGlobalDelegation`, upgrade.go:297-416; `plan` is the time of the upgrade plan. -/
def forceGlobalDelegation? (plan day : Int) (s : State) : Option State :=
  (Frac.reduce? ⟨second, day⟩).bind fun dq =>
  (forceLoop? plan day s.del.bank.params.dustDelegation dq s.ref.entries
    ⟨s.del.bank, s.del.records, s.del.sched, s.ref, plan + day, ⟨0, 1⟩, 0, 0⟩).bind fun v =>
  let less := v.bank.supply.sub ⟨v.dMain, 0, v.dRevoke, 0⟩
  if less.valid then
    some ⟨⟨{ v.bank with supply := less.add ⟨0, v.dMain + v.dRevoke, 0, 0⟩ }, v.records, v.sched, s.del.params⟩, v.ref⟩
  else none

/-- `EmptyEarningVpnStorageCollectors`, upgrade.go:1020-1054; an error of `SetBalance` is a panic. -/
def emptyCollectors (e : Bank.Env) (company earning vpn storage : Nat) : M Bank.State Unit := do
  let b ← M.get
  setBalance e company ((((balance b company).add (balance b earning)).add (balance b vpn)).add (balance b storage))
  setBalance e earning {}
  setBalance e vpn {}
  setBalance e storage {}

end Verif.Upgrade
