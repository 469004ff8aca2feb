import Verif.Base.KV
import Verif.Base.M

/-! Model of /repo/x/earning: who earns from VPN traffic and storage.

Accounts are identified with the addresses their texts parse to; texts that do not parse are refused before anything happens
(types/msgs.go:66-74 and 106-119).  Times are nanoseconds; `Time.Add` beyond the range of `time.Time` is not modelled. -/
namespace Verif.Earning

abbrev Addr := Nat

/-- `Timestamps`, proto/artery/earning/v1beta1/types.proto: the last reported activity. -/
structure Stamps where
  vpn : Option Int
  storage : Option Int
deriving DecidableEq, Repr

structure State where
  /-- the earning store: address ↦ timestamps -/
  store : KV Nat Stamps
  /-- the parameter `Signers`: parsed addresses -/
  signers : List Addr

/-- keeper.go:61-67 and 69-75: is an activity recent?  `t.Add(2 * OneDay).After(BlockTime)` -/
def fresh (day now : Int) : Option Int → Bool
  | none => false
  | some t => decide (now < t + 2 * day)

/-- keeper.go:64-66 and 72-74: an activity that is not recent is dropped. -/
def keep (day now : Int) (t : Option Int) : Option Int := if fresh day now t then t else none

/-- `IsActiveEarner`, keeper/keeper.go:49-85: the answers for VPN and storage, and the store afterwards. -/
def isActiveEarner (day now : Int) (a : Addr) (s : State) : (Bool × Bool) × State :=
  match s.store.get a with
  | none => ((false, false), s)
  | some t =>
    let v := keep day now t.vpn
    let g := keep day now t.storage
    ((fresh day now t.vpn, fresh day now t.storage),
      if v = none ∧ g = none then { s with store := s.store.erase a }
      else if v ≠ t.vpn ∨ g ≠ t.storage then { s with store := s.store.set a ⟨v, g⟩ }
      else s)

/-- `Earner`, proto/artery/earning/v1beta1/types.proto -/
structure Earner where
  account : Addr
  stamps : Stamps
deriving DecidableEq, Repr

/-- The body of the loop of `SetMultiple`, keeper/msg_server.go:31-45. -/
def setOne (s : State) (x : Earner) : State :=
  if x.stamps.vpn = none ∧ x.stamps.storage = none then { s with store := s.store.erase x.account }
  else { s with store := s.store.set x.account x.stamps }

/-- `SetMultiple`, keeper/msg_server.go:27-48, and `Set`, 18-25 (a list of one).  `MsgSetMultiple.ValidateBasic`
(types/msgs.go:106-119) refuses an empty list.  The field `Signer` is not looked at: it determines who has to sign the
transaction (`GetSigners`, types/msgs.go:45-54 and 92-94), nothing else. -/
def setMultiple (_signer : Addr) (xs : List Earner) : M State Unit := do
  M.errIf xs.isEmpty
  M.modify fun s => xs.foldl setOne s

/-- `SetParams`, keeper/params.go:16-19: the parameter store panics if the list is empty (types/params.go:72-86). -/
def setParams (signers : List Addr) : M State Unit := do
  M.panicIf signers.isEmpty
  M.modify fun s => { s with signers := signers }

/-- `AddSigner`, keeper/params.go:21-25 -/
def addSigner (a : Addr) : M State Unit := do
  let s ← M.get
  setParams (s.signers ++ [a])

/-- The list without the first occurrence of `a`, the last element taking its place, keeper/params.go:30-36. -/
def swapRemove (a : Addr) (l : List Addr) : List Addr :=
  let i := l.idxOf a
  (l.set i (l.getLastD 0)).dropLast

/-- `RemoveSigner`, keeper/params.go:27-41 -/
def removeSigner (a : Addr) : M State Unit := do
  let s ← M.get
  if s.signers.contains a then setParams (swapRemove a s.signers) else pure ()

/-- `GetEarners`, keeper/genesis.go:9-24 -/
def getEarners (s : State) : List Earner := s.store.entries.map fun x => ⟨x.1, x.2⟩

/-- `SetEarners`, keeper/genesis.go:26-36 -/
def setEarners (xs : List Earner) (s : State) : State :=
  xs.foldl (fun s x => { s with store := s.store.set x.account x.stamps }) s

/-- `InitGenesis`, genesis.go:9-13, on an empty store. -/
def initGenesis (signers : List Addr) (xs : List Earner) : M State Unit := do
  setParams signers
  M.modify (setEarners xs)

/-- The loop of `QueryServer.List`, keeper/query_server.go:100-114, without its 32-bit arithmetic: the entries with numbers from
`start` up to, not including, `stop`. -/
def listLoop (start stop : Int) : Int → List Earner → List Earner
  | _, [] => []
  | current, x :: l =>
    if current < stop then
      if current < start then listLoop start stop (current + 1) l else x :: listLoop start stop (current + 1) l
    else []

/-- `QueryServer.List`, keeper/query_server.go:79-117; `wrap32` is the arithmetic of `int32`. -/
def wrap32 (x : Int) : Int := Int.bmod x (2 ^ 32)

def list (limit page : Int) (s : State) : List Earner :=
  listLoop (wrap32 (limit * wrap32 (page - 1))) (wrap32 (limit * page)) 0 (getEarners s)

end Verif.Earning
