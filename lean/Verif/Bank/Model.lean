import Verif.Base.KV
import Verif.Base.M
import Verif.Util.Model

/-!
Model of /repo/x/bank/internal/keeper (send.go, keeper.go, msg_server.go, view.go, genesis.go) and of the message
and input/output validation in /repo/x/bank/types.

Simplifications: events and logging are dropped; module accounts are ordinary addresses (creating the account record
of a module in the auth store is not modelled); the `SetCoins` hook (referral's `OnBalanceChanged`) is an arbitrary
oracle that may fail or panic but does not touch the bank store.
-/
namespace Verif.Bank
open Verif.Util

abbrev Addr := Nat

/-- Denominations: `uartr`, `uartrd` (delegated), `uartrr` (being revoked) and one standing for any other. -/
inductive Denom where
  | main | delegated | revoking | other
deriving DecidableEq, Repr

/-- `sdk.Coins`, one amount per denomination; 0 = denomination absent. -/
structure Coins where
  main : Int := 0
  delegated : Int := 0
  revoking : Int := 0
  other : Int := 0
deriving DecidableEq, Repr

namespace Coins

/-- `Coins.AmountOf` -/
def amt (c : Coins) : Denom → Int
  | .main => c.main
  | .delegated => c.delegated
  | .revoking => c.revoking
  | .other => c.other

/-- `Coins.Add` -/
def add (a b : Coins) : Coins :=
  ⟨a.main + b.main, a.delegated + b.delegated, a.revoking + b.revoking, a.other + b.other⟩

/-- The difference computed by `Coins.SafeSub`. -/
def sub (a b : Coins) : Coins :=
  ⟨a.main - b.main, a.delegated - b.delegated, a.revoking - b.revoking, a.other - b.other⟩

/-- `Coins.IsValid` (no component negative; a zero component is an absent coin). -/
def valid (c : Coins) : Bool :=
  decide (0 ≤ c.main ∧ 0 ≤ c.delegated ∧ 0 ≤ c.revoking ∧ 0 ≤ c.other)

/-- `Coins.Empty` / `IsZero` -/
def isEmpty (c : Coins) : Bool := decide (c = {})

/-- `util.Uartrs` and `sdk.NewCoins(sdk.NewCoin("uartr", x))`. -/
def ofMain (x : Int) : Coins := { main := x }
def ofDelegated (x : Int) : Coins := { delegated := x }
def ofRevoking (x : Int) : Coins := { revoking := x }

end Coins

/-- Bank parameters, x/bank/types/params.go. -/
structure Params where
  minSend : Int
  dustDelegation : Int
  fee : FeeParams
  companyAccount : Addr
  blockedSenders : List Addr
deriving DecidableEq

/-- The bank store: balances under `BalancesPrefix`, the supply, the parameters. -/
structure State where
  balances : KV Nat Coins
  supply : Coins
  params : Params
deriving DecidableEq

/-- What the bank keeper is connected to. -/
structure Env where
  /-- `fireSetCoins` (send.go:180-191): the registered hook, called after a balance was written. -/
  hook : State → Addr → Res Unit
  /-- `ak.GetAccount(...) != nil` -/
  accExists : Addr → Bool
  /-- `BlockedAddr` (send.go:219-221); the map is empty in app.go. -/
  blockedAddr : Addr → Bool
  /-- address of the module account `auth.FeeCollectorName` -/
  feeCollector : Addr
  /-- address of the module account `util.SplittableFeeCollectorName` -/
  splitCollector : Addr

/-- `GetBalance`, view.go:59-75. -/
def balance (b : State) (a : Addr) : Coins := (b.balances.get a).getD {}

/-- `fireSetCoins`, send.go:180-191. -/
def fireSetCoins (e : Env) (a : Addr) : M State Unit := fun b => (e.hook b a, b)

/-- `SetBalance`, send.go:157-178: refuses invalid coins, removes the record of an empty balance, then runs the
hook (whose failure does not undo the write). -/
def setBalance (e : Env) (a : Addr) (c : Coins) : M State Unit := do
  M.errIf (!c.valid)
  M.modify fun b =>
    { b with balances := if c.isEmpty then b.balances.erase a else b.balances.set a c }
  fireSetCoins e a

/-- `SubtractCoins`, send.go:120-134 (`SpendableCoins` = `GetBalance`, view.go:125-127). -/
def subtractCoins (e : Env) (a : Addr) (c : Coins) : M State Unit := do
  M.errIf (!c.valid)
  let b ← M.get
  let d := (balance b a).sub c
  M.errIf (!d.valid)
  setBalance e a d

/-- `AddCoins`, send.go:137-144 (`sdk.NewCoins` panics on a negative amount). -/
def addCoins (e : Env) (a : Addr) (c : Coins) : M State Unit := do
  M.errIf (!c.valid)
  let b ← M.get
  let d := (balance b a).add c
  M.panicIf (!d.valid)
  setBalance e a d

/-- `SendCoins`, send.go:97-115. -/
def sendCoins (e : Env) (src dst : Addr) (c : Coins) : M State Unit := do
  subtractCoins e src c
  addCoins e dst c

/-- One input or output of a multi-party payment. -/
structure InOut where
  addr : Addr
  coins : Coins
deriving DecidableEq

/-- `Input.ValidateBasic` / `Output.ValidateBasic`, types/types.go:15-26, 36-47: valid and all positive, i.e. not
empty. -/
def InOut.ok (x : InOut) : Bool := x.coins.valid && !x.coins.isEmpty

def totalCoins (l : List InOut) : Coins := l.foldl (fun acc x => acc.add x.coins) {}

/-- `ValidateInputsOutputs`, types/types.go. -/
def validateInputsOutputs (ins outs : List InOut) : Bool :=
  ins.all InOut.ok && outs.all InOut.ok && decide (totalCoins ins = totalCoins outs)

/-- `InputOutputCoins`, send.go:74-94. -/
def inputOutputCoins (e : Env) (ins outs : List InOut) : M State Unit := do
  M.errIf (!validateInputsOutputs ins outs)
  M.forEach ins fun x => subtractCoins e x.addr x.coins
  M.forEach outs fun x => addCoins e x.addr x.coins

/-- `SetSupply(GetSupply().Inflate(c))`, types/supply.go:32-34. -/
def inflate (c : Coins) : M State Unit := M.modify fun b => { b with supply := b.supply.add c }

/-- `SetSupply(GetSupply().Deflate(c))`, types/supply.go:37-39: `Coins.Sub` panics on a negative result. -/
def deflate (c : Coins) : M State Unit := do
  let b ← M.get
  M.panicIf (!(b.supply.sub c).valid)
  M.set { b with supply := b.supply.sub c }

/-- The fee of a payment, as computed inside `PayTxFee`, keeper.go:147-153: panics on a non-sendable denomination,
on a fee that cannot be computed and on a negative fee (`sdk.NewCoin`). -/
def txFeeOf? (p : Params) (c : Coins) : Option Int :=
  if c.delegated ≠ 0 ∨ c.revoking ≠ 0 ∨ c.other ≠ 0 then none
  else if c.main = 0 then some 0
  else do
    let f ← calculateFee? c.main p.fee.rate p.fee.maxFee p.fee.forProposer p.fee.forCompany
    if f < 0 then none else some f

/-- `PayTxFee`, keeper.go:146-161: returns the fee. -/
def payTxFee (e : Env) (a : Addr) (c : Coins) : M State Int := do
  let b ← M.get
  let fee ← M.orPanic (txFeeOf? b.params c)
  if fee = 0 then pure 0
  else do
    sendCoins e a e.splitCollector (Coins.ofMain fee)
    pure fee

/-- `MintCoins`, keeper.go:177-202; the permission check is `minter`. -/
def mintCoins (e : Env) (moduleAcc : Addr) (minter : Bool) (c : Coins) : M State Unit := do
  M.panicIf (!minter)
  addCoins e moduleAcc c
  inflate c

/-- `BurnAccCoins`, keeper.go:226-238. -/
def burnAccCoins (e : Env) (a : Addr) (c : Coins) : M State Unit := do
  subtractCoins e a c
  deflate c

/-- `BurnCoins`, keeper.go:206-224: an error of `BurnAccCoins` is answered with `return nil`. -/
def burnCoins (e : Env) (moduleAcc : Addr) (burner : Bool) (c : Coins) : M State Unit := do
  M.panicIf (!burner)
  M.ignoreErr (burnAccCoins e moduleAcc c)

/-- `MsgSend` -/
structure MsgSend where
  src : Addr
  dst : Addr
  amount : Coins
deriving DecidableEq

/-- `minCoins.IsAnyGT(msg.Amount)`, msg_server.go:32-35: a zero amount is not compared. -/
def belowMin (p : Params) (c : Coins) : Bool := decide (p.minSend > c.main ∧ c.main ≠ 0)

/-- `MsgSend.ValidateBasic` (types/msgs.go:33-54) followed by `Send`, msg_server.go:14-58. -/
def send (e : Env) (m : MsgSend) : M State Unit := do
  M.errIf (!m.amount.valid)
  M.errIf m.amount.isEmpty
  M.errIf (!e.accExists m.dst)
  M.errIf (e.blockedAddr m.dst)
  M.errIf (decide (m.amount.delegated ≠ 0 ∨ m.amount.revoking ≠ 0 ∨ m.amount.other ≠ 0))
  let b ← M.get
  M.panicIf (decide (b.params.minSend < 0))
  M.errIf (belowMin b.params m.amount)
  M.errIf (b.params.blockedSenders.contains m.src)
  let _ ← payTxFee e m.src m.amount
  sendCoins e m.src m.dst m.amount

/-- `MsgBurn.ValidateBasic` (types/msgs.go:78-86) followed by `Burn`, msg_server.go:60-75.  The amount is a `uint64`;
the conversion to `int64` wraps and `sdk.NewCoin` panics on a negative number. -/
def burn (e : Env) (a : Addr) (amount : Nat) : M State Unit := do
  M.errIf (decide (amount = 0))
  let x := wrap64 amount
  M.panicIf (decide (x < 0))
  burnAccCoins e a (Coins.ofMain x)

/-- `InitGenesis`, genesis.go:11-37, after `SanitizeGenesisBalances` (sorting of the list; the sort order plays no role
for the result unless an address occurs twice).  `supply` empty = take the sum. -/
def initGenesis (e : Env) (p : Params) (bals : List InOut) (supply : Coins) : M State Unit := do
  M.set ⟨KV.empty, {}, p⟩
  M.forEach bals fun x => setBalance e x.addr x.coins
  M.modify fun b => { b with supply := if supply.isEmpty then totalCoins bals else supply }

end Verif.Bank
