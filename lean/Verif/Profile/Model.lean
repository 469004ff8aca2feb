import Verif.Bank.Model
import Verif.Schedule.Lemmas
import Mathlib.Data.List.Lex

/-!
Model of /repo/x/profile (keeper/keeper.go, keeper/subscription.go, keeper/msg_server.go, keeper/params.go, types/types.go,
types/msgs.go).

The state joins the bank store, the schedule store, the three stores of the module (profiles, aliases, cards), the part of the
auth store that hands out account numbers, the module parameters and the block time.

Simplifications: events and logging dropped; the referral keeper is an oracle that answers, fails or panics and may make schedule
requests; unsigned 64-bit fields are natural numbers and every place where Go's arithmetic can wrap is wrapped explicitly (`u64`,
`wrap64`); the flags `Noding`, `Storage`, `Validator`, `Vpn` of a profile are one opaque number (no modelled function reads them);
a nil profile pointer is a panic at the first place it would be dereferenced; signatures are checked by the SDK, so the
`addr` of a message is its signer.
-/
namespace Verif.Profile
open Verif.Util Verif.Bank

/-- A text: the list of its code points. -/
abbrev Text := List Nat

/-- The text functions of the Go library used by the module. -/
structure TextOps where
  /-- `strings.ToLower` -/
  lower : Text → Text
  /-- `strings.TrimSpace` -/
  trim : Text → Text
  /-- `strings.HasPrefix(strings.ToTitle(s), "ARTR-")` -/
  reserved : Text → Bool

/-- `Profile`, proto/artery/profile/v1beta1/types.proto. -/
structure Profile where
  autoPay : Bool := false
  activeUntil : Option Int := none
  flags : Nat := 0
  nickname : Text := []
  cardNumber : Nat := 0
  vpnLimit : Nat := 0
  vpnCurrent : Nat := 0
  storageLimit : Nat := 0
  storageCurrent : Nat := 0
  imLimitExtra : Nat := 0
  extraImUntil : Option Int := none
  autoPayImExtra : Bool := false
deriving DecidableEq, Repr

/-- `Params`, proto/artery/profile/v1beta1/params.proto; account lists hold addresses. -/
structure Params where
  creators : List Addr := []
  renamePrice : Int := 1000000
  cardMagic : Nat := 0x1A21A4B61B
  storageSigners : List Addr := []
  vpnSigners : List Addr := []
  tokenRateSigners : List Addr := []
  tokenRate : Frac := ⟨100000, 1⟩
  subscriptionPrice : Nat := 1990
  vpnGbPrice : Nat := 10
  storageGbPrice : Nat := 10
  baseVpnGb : Nat := 7
  baseStorageGb : Nat := 5
deriving DecidableEq, Repr

structure State where
  bank : Bank.State
  sched : Schedule.State
  /-- profile store: address ↦ profile -/
  profiles : KV Nat Profile
  /-- alias store: lower-cased nickname ↦ address -/
  aliases : KV Text Addr
  /-- card store: card number ↦ address -/
  cards : KV Nat Addr
  /-- auth store: address ↦ account number -/
  accounts : KV Nat Nat
  /-- auth store: `GlobalAccountNumber` -/
  nextAcc : Nat
  params : Params
  /-- block time, nanoseconds -/
  now : Int

/-- What the referral keeper does: how the call ends and which schedule requests it made before. -/
abbrev RefCall := Res Unit × List Schedule.Req

/-- Everything an operation learns from outside the modelled stores. -/
structure Env where
  bank : Bank.Env
  text : TextOps
  /-- `scheduleKeeper.OneMonth` -/
  month : Int
  /-- `referralKeeper.Get(acc)`: `none` = error, otherwise the field `Banished` -/
  banished : Addr → Option Bool
  /-- `referralKeeper.ComeBack` -/
  comeBack : Addr → RefCall
  /-- `referralKeeper.MustSetActive` -/
  setActive : Addr → Bool → RefCall
  /-- `referralKeeper.AppendChild` (parent, child) followed by `ScheduleCompression` -/
  appendChild : Addr → Addr → RefCall
  /-- `referralKeeper.GetParams(ctx).CompanyAccounts.GetForSubscription()` -/
  company : Addr

/-- `RefreshHookName` and `RefreshImHookName`, types/key.go:22-23 -/
def refreshHook : Nat := 4
def refreshImHook : Nat := 5

/-- `util.GBSize`, /repo/util/keys.go:15 -/
def gb : Nat := 1073741824

/-- Conversion to `uint64`. -/
def u64 (x : Int) : Nat := (x % 2 ^ 64).toNat

/-- `IsActive`, types/types.go:13-15 -/
def Profile.isActive (p : Profile) (now : Int) : Bool :=
  match p.activeUntil with
  | none => false
  | some t => decide (now < t)

/-- `IsExtraImStorageActive`, types/types.go:17-19 -/
def Profile.isImActive (p : Profile) (now : Int) : Bool :=
  decide (p.imLimitExtra ≠ 0) && match p.extraImUntil with
    | none => false
    | some t => decide (now < t)

/-! ### Access to the neighbours -/

def onBank {α : Type} (m : M Bank.State α) : M State α := fun s =>
  match m s.bank with
  | (r, b) => (r, { s with bank := b })

def onSched (r : Schedule.Req) : M State Unit := fun s =>
  match r.exec? s.sched with
  | some t => (.ok (), { s with sched := t })
  | none => (.panic, s)

/-- The hook a request is about. -/
def hookOf : Schedule.Req → Nat
  | .schedule _ h _ => h
  | .delete _ h _ => h
  | .deleteAll _ h => h

/-- Does a request concern another module's hook? -/
def foreignReq (r : Schedule.Req) : Bool := decide (hookOf r ≠ refreshHook ∧ hookOf r ≠ refreshImHook)

/-- A call of the referral keeper; it (and those it notifies) make schedule requests for their own hooks only. -/
def onReferral (c : RefCall) : M State Unit := fun s =>
  (c.1, { s with sched := Schedule.execReqs s.sched (c.2.filter foreignReq) })

/-- `if c { m() }` -/
def when (c : Bool) (m : M State Unit) : M State Unit := if c then m else pure ()

/-- `NewAccountWithAddress` and `SetAccount` of the auth keeper: the next account number is taken. -/
def newAccount (a : Addr) : M State Nat := fun s =>
  (.ok s.nextAcc, { s with accounts := s.accounts.set a s.nextAcc, nextAcc := s.nextAcc + 1 })

/-! ### Profiles, keeper/keeper.go -/

/-- `GetProfileAccountByNickname`, keeper.go:82-85 -/
def byNickname (e : Env) (s : State) (n : Text) : Option Addr := s.aliases.get (e.text.lower n)

/-- `GetProfileAccountByCardNumber`, keeper.go:97-103 -/
def byCard (s : State) (c : Nat) : Option Addr := s.cards.get c

/-- `setProfileAccountByNickname`, keeper.go:87-90 -/
def setAlias (e : Env) (n : Text) (a : Addr) : M State Unit :=
  M.modify fun s => { s with aliases := s.aliases.set (e.text.lower n) a }

/-- `removeProfileAccountByNickname`, keeper.go:92-95 -/
def removeAlias (e : Env) (n : Text) : M State Unit :=
  M.modify fun s => { s with aliases := s.aliases.erase (e.text.lower n) }

/-- `setProfileAccountByCardNumber`, keeper.go:105-111 -/
def setCard (c : Nat) (a : Addr) : M State Unit := M.modify fun s => { s with cards := s.cards.set c a }

/-- `removeProfileAccountByCardNumber`, keeper.go:113-118 -/
def removeCard (c : Nat) : M State Unit := M.modify fun s => { s with cards := s.cards.erase c }

/-- `ValidateProfileNickname`, keeper.go:192-207: is the (trimmed) nickname acceptable? -/
def nicknameOk (e : Env) (s : State) (a : Addr) (n : Text) : Bool :=
  decide (n = []) || (!e.text.reserved n && match byNickname e s n with
    | none => true
    | some b => decide (b = a))

/-- `SendCoinsFromAccountToModule(addr, FeeCollectorName, Uartrs(x))` (`sdk.NewCoin` panics on a negative amount). -/
def chargeFee (e : Env) (a : Addr) (x : Int) : M State Unit := do
  M.panicIf (decide (x < 0))
  onBank (sendCoins e.bank a e.bank.feeCollector (Coins.ofMain x))

/-- The nickname part of `SetProfile`, keeper.go:130-148 and 163-166. -/
def updateAlias (e : Env) (a : Addr) (old : Option Profile) (raw : Text) : M State Unit :=
  let n := e.text.trim raw
  match old with
  | some o =>
    if o.nickname ≠ raw then do
      when (decide (o.nickname ≠ [])) (removeAlias e o.nickname)
      when (decide (n ≠ [])) (chargeFee e a 1000000 >>= fun _ => setAlias e n a)
    else pure ()
  | none => when (decide (n ≠ [])) (setAlias e n a)

/-- The card part of `SetProfile`, keeper.go:150-160 and 168-170: the card number to be stored. -/
def updateCard (a : Addr) (old : Option Profile) (c : Nat) : M State Nat :=
  match old with
  | some o =>
    if c ≠ 0 then do
      when (decide (o.cardNumber ≠ c)) (when (decide (o.cardNumber ≠ 0)) (removeCard o.cardNumber) >>= fun _ => setCard c a)
      pure c
    else pure o.cardNumber
  | none => do
    when (decide (c ≠ 0)) (setCard c a)
    pure c

/-- keeper.go:172-177. -/
def storeProfile (a : Addr) (p : Profile) : M State Unit :=
  M.modify fun s => { s with profiles := s.profiles.set a p }

/-- keeper.go:179-183. -/
def ensureAccount (a : Addr) : M State Unit := do
  let s ← M.get
  if s.accounts.has a then pure () else do
    let _ ← newAccount a
    pure ()

/-- keeper.go:185-187. -/
def tellReferral (e : Env) (a : Addr) (old : Option Profile) (p : Profile) : M State Unit := do
  let s ← M.get
  if p.isActive s.now ≠ (old.map (·.isActive s.now)).getD false then onReferral (e.setActive a (p.isActive s.now))
  else pure ()

/-- `SetProfile`, keeper.go:120-190. -/
def setProfile (e : Env) (a : Addr) (p : Profile) : M State Unit := do
  let s ← M.get
  let old := s.profiles.get a
  M.errIf (!nicknameOk e s a (e.text.trim p.nickname))
  updateAlias e a old p.nickname
  let c ← updateCard a old p.cardNumber
  storeProfile a { p with cardNumber := c }
  ensureAccount a
  tellReferral e a old p

/-- `CreateAccountWithProfile`, keeper.go:213-225, and `CardNumberByAccountNumber`, 227-229. -/
def createWithProfile (e : Env) (a ref : Addr) (p : Profile) : M State Unit := do
  let n ← newAccount a
  onReferral (e.appendChild ref a)
  let s ← M.get
  setProfile e a { p with cardNumber := n ^^^ s.params.cardMagic }

/-! ### Messages, keeper/msg_server.go -/

/-- `CreateAccount`, msg_server.go:18-54; `p` is the profile carried by the message (none = an empty one, keeper.go:209-211).
`MsgCreateAccount.ValidateBasic` (types/msgs.go:60-72) checks the three addresses only.  The comparison of the creator with the
list is on texts in the code; here on addresses. -/
def createAccount (e : Env) (creator a ref : Addr) (p : Option Profile) : M State Unit := do
  let s ← M.get
  M.errIf (s.accounts.has a)
  when (decide (0 < s.params.renamePrice) && !s.params.creators.contains creator)
    (chargeFee e creator s.params.renamePrice)
  createWithProfile e a ref (p.getD {})

/-- One entry of `MsgUpdateProfile.Updates`. -/
inductive Update where
  | autoPay (b : Bool)
  | flags (n : Nat)
  | nickname (t : Text)
  | autoPayIm (b : Bool)
deriving DecidableEq, Repr

/-- msg_server.go:62-79. -/
def Update.apply (p : Profile) : Update → Profile
  | .autoPay b => { p with autoPay := b }
  | .flags n => { p with flags := n }
  | .nickname t => { p with nickname := t }
  | .autoPayIm b => { p with autoPayImExtra := b }

/-- `MsgUpdateProfile.ValidateBasic` on one update, types/msgs.go:131-149: forbidden characters ` */:'"=[],.` (types/msgs.go:43),
at least three bytes (here: code points), prefix. -/
def Update.valid : Update → Bool
  | .nickname t => decide (t = []) || (t.all (fun c => !([32, 42, 47, 58, 39, 34, 61, 91, 93, 44, 46].contains c)) &&
      decide (3 ≤ t.length) && decide (t.take 5 ≠ [65, 82, 84, 82, 45]))
  | _ => true

/-- `UpdateProfile`, msg_server.go:56-86. -/
def updateProfile (e : Env) (a : Addr) (us : List Update) : M State Unit := do
  M.errIf us.isEmpty
  M.errIf (!us.all Update.valid)
  let s ← M.get
  let p ← M.orPanic (s.profiles.get a)
  setProfile e a (us.foldl Update.apply p)

/-- `SetStorageCurrent`, msg_server.go:88-108, keeper.go:231-246; the value is a `uint64`. -/
def setStorageCurrent (sender a : Addr) (value : Nat) : M State Unit := do
  let s ← M.get
  M.errIf (!s.params.storageSigners.contains sender)
  match s.profiles.get a with
  | none => M.err
  | some p => storeProfile a { p with storageCurrent := u64 value }

/-- `SetVpnCurrent`, msg_server.go:110-131, keeper.go:248-263. -/
def setVpnCurrent (sender a : Addr) (value : Nat) : M State Unit := do
  let s ← M.get
  M.errIf (!s.params.vpnSigners.contains sender)
  match s.profiles.get a with
  | none => M.err
  | some p => storeProfile a { p with vpnCurrent := u64 value }

/-- The validators of the parameter store, types/params.go:167-182 and 243-300.  A list of addresses must not be empty; that its texts are
addresses is given by the type. -/
def Params.valid (p : Params) : Bool :=
  !p.creators.isEmpty && !p.storageSigners.isEmpty && !p.vpnSigners.isEmpty && !p.tokenRateSigners.isEmpty && p.tokenRate.isPositive &&
    p.subscriptionPrice != 0 && p.vpnGbPrice != 0 && p.storageGbPrice != 0 && p.baseVpnGb != 0 && p.baseStorageGb != 0

/-- `SetRate`, msg_server.go:173-193, through `SetParams` (keeper/params.go:16-31; the magic is unchanged) and the validation of
the parameter store, which panics. -/
def setRate (sender : Addr) (v : Frac) : M State Unit := do
  let s ← M.get
  M.errIf (!s.params.tokenRateSigners.contains sender)
  M.panicIf (!({ s.params with tokenRate := v } : Params).valid)
  M.modify fun s => { s with params := { s.params with tokenRate := v } }

/-- `SetParams`, keeper/params.go:16-31, once a magic is stored: zero keeps the old one, any other change panics, and so do
invalid parameters. -/
def setParams (p : Params) : M State Unit := do
  let s ← M.get
  M.panicIf (decide (p.cardMagic ≠ s.params.cardMagic ∧ p.cardMagic ≠ 0) || !p.valid)
  M.modify fun s => { s with params := { p with cardMagic := s.params.cardMagic } }

/-! ### Subscription, keeper/subscription.go -/

/-- `monthPart`, subscription.go:520-522 -/
def monthPart? (e : Env) (now until_ : Int) : Option Frac := Frac.reduce? ⟨until_ - now, e.month⟩

/-- The storage amount of `PayTariff`, subscription.go:21-39, in bytes; `none` = error. -/
def tariffStorage? (p : Params) (pr : Profile) (storageGb : Nat) : Option Nat :=
  if storageGb = 0 then
    if pr.storageLimit = 0 then some (p.baseStorageGb * gb) else some pr.storageLimit
  else if storageGb < p.baseStorageGb then none
  else if storageGb * gb < pr.storageCurrent then none
  else some (storageGb * gb)

/-- First version of `tariffTotal`, subscription.go:42 -/
def tariff? (p : Params) : Option Int := do
  (← p.tokenRate.mulInt? p.subscriptionPrice).bigInt?

/-- `storageFeeFrac` as first computed, subscription.go:56-58.  The product of bytes and price is taken in `int64`. -/
def baseStorageFee? (p : Params) (storageB : Nat) : Option Frac := do
  let x ← p.tokenRate.mulInt? (wrap64 ((wrap64 storageB - wrap64 (p.baseStorageGb * gb)) * p.storageGbPrice))
  let y ← x.divInt? gb
  y.reduce?

/-- The surcharge for changing the limit of a running subscription, subscription.go:61-67. -/
def changeFee? (e : Env) (p : Params) (now until_ : Int) (storageB limit : Nat) : Option Frac := do
  let t ← monthPart? e now until_
  let x ← p.tokenRate.mulInt? (wrap64 (wrap64 storageB - wrap64 limit))
  let y ← x.divInt? gb
  let z ← y.reduce?
  let w ← z.mulInt? p.storageGbPrice
  let v ← w.mul? t
  v.reduce?

/-- `storageFeeFrac`, subscription.go:56-75: `until_` is the end of the subscription if it is running. -/
def storageFee? (e : Env) (p : Params) (now : Int) (running : Option Int) (storageB limit : Nat) : Option Frac := do
  let b ← baseStorageFee? p storageB
  match running with
  | none => return b
  | some u =>
    if storageB ≠ limit then do
      let c ← changeFee? e p now u storageB limit
      let f ← b.add? c
      return (if f.isNegative then ⟨0, 1⟩ else f)
    else return b

/-- The end of the subscription if it is running. -/
def running (p : Profile) (now : Int) : Option Int := if p.isActive now then p.activeUntil else none

/-- The two amounts of `PayTariff`: total and transaction fee, subscription.go:42-45, 77-80 (the fee is of the price without
storage).  `none` = panic. -/
def tariffTotal? (e : Env) (s : State) (pr : Profile) (storageB : Nat) : Option (Int × Int) := do
  let t ← tariff? s.params
  let b := s.bank.params.fee
  let fee ← calculateFee? t b.rate b.maxFee b.forProposer b.forCompany
  let f ← storageFee? e s.params s.now (running pr s.now) storageB pr.storageLimit
  let i ← f.bigInt?
  return (t + i, fee)

/-- `resetLimits`, subscription.go:367-387 -/
def resetLimits (p : Params) (pr : Profile) : Profile :=
  let base := p.baseVpnGb * gb
  let l1 := if base < pr.vpnCurrent then u64 ((pr.vpnLimit : Int) - (pr.vpnCurrent - base)) else pr.vpnLimit
  let l2 := if l1 < base then base else l1
  { pr with vpnLimit := l2, vpnCurrent := 0, storageLimit := if pr.storageLimit = 0 then p.baseStorageGb * gb else pr.storageLimit }

/-- Return of a banished account, subscription.go:47-54. -/
def comeBack (e : Env) (a : Addr) : M State Unit :=
  match e.banished a with
  | none => M.err
  | some true => onReferral (e.comeBack a)
  | some false => pure ()

/-- The payment, subscription.go:80-100.  `sdk.NewCoin` panics on negative amounts. -/
def payTotal (e : Env) (a : Addr) (total fee : Int) : M State Unit := do
  M.panicIf (decide (total - fee < 0))
  M.panicIf (decide (fee < 0))
  M.panicIf (decide (total < 0))
  onBank (inputOutputCoins e.bank [⟨a, Coins.ofMain total⟩]
    (⟨e.company, Coins.ofMain (total - fee)⟩ :: if fee = 0 then [] else [⟨e.bank.splitCollector, Coins.ofMain fee⟩]))

/-- The profile after the payment, subscription.go:72 and 101-116; `none` = nil dereference. -/
def renewed? (e : Env) (p : Params) (now : Int) (pr : Profile) (storageB : Nat) (auto : Bool) : Option Profile :=
  let pr1 := if pr.isActive now ∧ storageB ≠ pr.storageLimit then { pr with storageLimit := storageB } else pr
  if pr.isActive now = false ∧ auto = false then
    some (resetLimits p { pr1 with activeUntil := some (now + e.month) })
  else match pr.activeUntil with
    | none => none
    | some u =>
      let pr2 := { pr1 with activeUntil := some (u + e.month) }
      some (if auto then resetLimits p pr2 else pr2)

/-- `scheduleRenew`, subscription.go:359-361 -/
def scheduleRenew (a : Addr) (t : Int) : M State Unit := onSched (.schedule t refreshHook [a])

/-- `scheduleRenewIm`, subscription.go:363-365 -/
def scheduleRenewIm (a : Addr) (t : Int) : M State Unit := onSched (.schedule t refreshImHook [a])

/-- `PayTariff`, subscription.go:17-130 (both amounts are computed before a banished account is returned; in the code the
storage part, which cannot fail with accepted parameters, comes after). -/
def payTariff (e : Env) (a : Addr) (storageGb : Nat) (auto : Bool) : M State Unit := do
  let s ← M.get
  let pr ← M.orPanic (s.profiles.get a)
  M.errIf (tariffStorage? s.params pr storageGb).isNone
  let storageB := (tariffStorage? s.params pr storageGb).getD 0
  let q ← M.orPanic (tariffTotal? e s pr storageB)
  comeBack e a
  payTotal e a q.1 q.2
  let pr2 ← M.orPanic (renewed? e s.params s.now pr storageB auto)
  scheduleRenew a (pr2.activeUntil.getD 0)
  setProfile e a pr2

/-- Payment of a fixed price: the transaction fee is part of it, subscription.go:160-174, 214-227, 264-278 and 488-502. -/
def paySplit (e : Env) (a : Addr) (x : Int) : M State Unit := do
  M.panicIf (decide (x < 0))
  let fee ← onBank (payTxFee e.bank a (Coins.ofMain x))
  M.panicIf (decide (x - fee < 0))
  onBank (sendCoins e.bank a e.company (Coins.ofMain (x - fee)))

/-- Price of extra storage, subscription.go:146 and 200: `none` = panic. -/
def extraFee? (p : Params) (extraGb : Nat) (t : Frac) : Option Int := do
  let x ← p.tokenRate.mulInt? (wrap64 ((extraGb : Int) * p.storageGbPrice))
  let y ← x.mul? t
  y.int64?

/-- `BuyStorage`, subscription.go:132-186; `MsgBuyStorage.ValidateBasic` refuses zero. -/
def buyStorage (e : Env) (a : Addr) (extraGb : Nat) : M State Unit := do
  M.errIf (decide (extraGb = 0))
  let s ← M.get
  let pr ← M.orPanic (s.profiles.get a)
  M.errIf (!pr.isActive s.now)
  let base := s.params.baseStorageGb * gb
  let limit := if pr.storageLimit < base then base else pr.storageLimit
  let t ← M.orPanic (monthPart? e s.now (pr.activeUntil.getD 0))
  let fee ← M.orPanic (extraFee? s.params extraGb t)
  M.panicIf (decide (fee ≤ 0))
  paySplit e a fee
  setProfile e a { pr with storageLimit := u64 (limit + extraGb * gb) }

/-- `BuyImStorage`, subscription.go:188-250; `MsgBuyImExtraStorage.ValidateBasic` refuses zero. -/
def buyIm (e : Env) (a : Addr) (extraGb : Nat) : M State Unit := do
  M.errIf (decide (extraGb = 0))
  let s ← M.get
  let pr ← M.orPanic (s.profiles.get a)
  let t ← M.orPanic (if pr.isImActive s.now then monthPart? e s.now (pr.extraImUntil.getD 0) else some ⟨1, 1⟩)
  let fee ← M.orPanic (extraFee? s.params extraGb t)
  M.panicIf (decide (fee ≤ 0))
  paySplit e a fee
  if pr.isImActive s.now then
    setProfile e a { pr with imLimitExtra := u64 (pr.imLimitExtra + extraGb) }
  else do
    scheduleRenewIm a (s.now + e.month)
    setProfile e a { pr with imLimitExtra := extraGb, extraImUntil := some (s.now + e.month) }

/-- `BuyVpn`, subscription.go:252-290; `MsgBuyVpn.ValidateBasic` refuses zero. -/
def buyVpn (e : Env) (a : Addr) (vpnGb : Nat) : M State Unit := do
  M.errIf (decide (vpnGb = 0))
  let s ← M.get
  let pr ← M.orPanic (s.profiles.get a)
  M.errIf (!pr.isActive s.now)
  let x ← M.orPanic (s.params.tokenRate.mulInt? (wrap64 ((vpnGb : Int) * s.params.vpnGbPrice)))
  let fee ← M.orPanic x.int64?
  paySplit e a fee
  setProfile e a { pr with vpnLimit := u64 (pr.vpnLimit + vpnGb * gb) }

/-- `GiveStorageUp`, subscription.go:292-318; `MsgGiveStorageUp.ValidateBasic` refuses zero. -/
def giveStorageUp (e : Env) (a : Addr) (amountGb : Nat) : M State Unit := do
  M.errIf (decide (amountGb = 0))
  let s ← M.get
  let pr ← M.orPanic (s.profiles.get a)
  let base := s.params.baseStorageGb * gb
  let limit := if amountGb * gb < base then base else amountGb * gb
  M.errIf (decide (limit < pr.storageCurrent))
  M.errIf (decide (pr.storageLimit ≤ limit))
  setProfile e a { pr with storageLimit := limit }

/-- `GiveImStorageUp`, subscription.go:320-346 -/
def giveImUp (e : Env) (a : Addr) (extraGb : Nat) : M State Unit := do
  let s ← M.get
  let pr ← M.orPanic (s.profiles.get a)
  M.errIf (decide ((if pr.isImActive s.now then pr.imLimitExtra else 0) ≤ extraGb))
  if extraGb = 0 then do
    onSched (.delete (pr.extraImUntil.getD 0) refreshImHook [a])
    setProfile e a { pr with imLimitExtra := 0, extraImUntil := none }
  else setProfile e a { pr with imLimitExtra := extraGb }

/-- `prolongImExtra`, subscription.go:473-518: the changed profile. -/
def prolong (e : Env) (a : Addr) (pr : Profile) : M State Profile := do
  M.errIf (decide (pr.imLimitExtra = 0) || pr.extraImUntil.isNone)
  let s ← M.get
  let x ← M.orPanic (s.params.tokenRate.mulInt? (wrap64 (wrap64 pr.imLimitExtra * s.params.storageGbPrice)))
  let fee ← M.orPanic x.int64?
  M.panicIf (decide (fee ≤ 0))
  paySplit e a fee
  let u := pr.extraImUntil.getD 0
  onSched (.delete u refreshImHook [a])
  scheduleRenewIm a (u + e.month)
  pure { pr with extraImUntil := some (u + e.month) }

/-- `ProlongImExtra`, subscription.go:348-357 (a failure of the last step panics). -/
def prolongIm (e : Env) (a : Addr) : M State Unit := do
  let s ← M.get
  let pr ← M.orPanic (s.profiles.get a)
  let pr2 ← prolong e a pr
  setProfile e a pr2

/-- `if err := m(); err != nil { h() }` -/
def onErr {σ α : Type} (m h : M σ α) : M σ α := fun s =>
  match m s with
  | (.ok a, t) => (.ok a, t)
  | (.err, t) => h t
  | (.panic, t) => (.panic, t)

/-- `monthlyRoutine`, subscription.go:401-438: what the renewal task does.  The failure of an automatic payment is reported to
the referral module only. -/
def monthly (e : Env) (a : Addr) : M State Unit := do
  let s ← M.get
  let pr ← M.orPanic (s.profiles.get a)
  if pr.isActive s.now then setProfile e a (resetLimits s.params pr)
  else if pr.autoPay then onErr (payTariff e a 0 true) (onReferral (e.setActive a false))
  else onReferral (e.setActive a false)

/-- `monthlyImRoutine`, subscription.go:440-471 -/
def monthlyIm (e : Env) (a : Addr) : M State Unit := do
  let s ← M.get
  let pr ← M.orPanic (s.profiles.get a)
  let dropped := { pr with imLimitExtra := 0, extraImUntil := none, autoPayImExtra := false }
  let pr2 ← onErr (if pr.autoPayImExtra then prolong e a pr else M.err) (pure dropped)
  setProfile e a pr2

/-! ### Blocks and executions -/

/-- Other modules: any change of the bank store that keeps the parameters valid is up to `bank`; requests for their own hooks;
accounts they create. -/
structure Foreign where
  bank : Bank.State → Bank.State
  reqs : List Schedule.Req
  newAccounts : List Addr

def addAccounts : List Addr → State → State
  | [], s => s
  | a :: l, s => addAccounts l (if s.accounts.has a then s else (newAccount a s).2)

def Foreign.run (f : Foreign) (s : State) : State :=
  addAccounts f.newAccounts { s with
    bank := f.bank s.bank,
    sched := Schedule.execReqs s.sched (f.reqs.filter foreignReq) }

/-- The account a task is about. -/
def target (t : Schedule.Task) : Addr := t.data.headD 0

/-- One task: the hooks of this module (app/app.go:326-327) or another module's handler.  Panics are recovered and nothing is
rolled back.  The environment may differ from task to task. -/
def runTask (e : Schedule.Task → Env) (f : Schedule.Task → Foreign) (t : Schedule.Task) (s : State) : State :=
  if t.handler = refreshHook then (monthly (e t) (target t) s).2
  else if t.handler = refreshImHook then (monthlyIm (e t) (target t) s).2
  else (f t).run s

def runTasks (e : Schedule.Task → Env) (f : Schedule.Task → Foreign) : List Schedule.Task → State → State
  | [], s => s
  | t :: ts, s => runTasks e f ts (runTask e f t s)

/-- The due tasks in order: `PerformSchedule` works on a snapshot (x/schedule/keeper/keeper.go:125-146). -/
def dueTasks (now : Int) (s : Schedule.State) : List Schedule.Task :=
  ((s.store.entries.filter (fun x => decide (x.1 < now + 1))).map Prod.snd).flatten

/-- Begin of a block at time `now`: all due tasks, then their removal. -/
def block (e : Schedule.Task → Env) (f : Schedule.Task → Foreign) (now : Int) (s : State) : State :=
  let t := runTasks e f (dueTasks now s.sched) { s with now := now }
  { t with sched := { t.sched with store := Schedule.eraseAll t.sched.store (Schedule.dueKeys now s.sched) } }

/-- What can happen. -/
inductive Op where
  | createAccount (creator a ref : Addr) (p : Option Profile)
  | updateProfile (a : Addr) (us : List Update)
  | setStorageCurrent (sender a : Addr) (v : Nat)
  | setVpnCurrent (sender a : Addr) (v : Nat)
  | setRate (sender : Addr) (v : Frac)
  | setParams (p : Params)
  | payTariff (a : Addr) (storageGb : Nat)
  | buyStorage (a : Addr) (extraGb : Nat)
  | buyIm (a : Addr) (extraGb : Nat)
  | buyVpn (a : Addr) (vpnGb : Nat)
  | giveStorageUp (a : Addr) (amountGb : Nat)
  | giveImUp (a : Addr) (extraGb : Nat)
  | prolongIm (a : Addr)
  | foreign (f : Foreign)
  | block (e : Schedule.Task → Env) (f : Schedule.Task → Foreign) (now : Int)

def Op.run (e : Env) (s : State) : Op → State
  | .createAccount c a r p => M.tx (Profile.createAccount e c a r p) s
  | .updateProfile a us => M.tx (Profile.updateProfile e a us) s
  | .setStorageCurrent x a v => M.tx (Profile.setStorageCurrent x a v) s
  | .setVpnCurrent x a v => M.tx (Profile.setVpnCurrent x a v) s
  | .setRate x v => M.tx (Profile.setRate x v) s
  | .setParams p => M.tx (Profile.setParams p) s
  | .payTariff a g => M.tx (Profile.payTariff e a g false) s
  | .buyStorage a g => M.tx (Profile.buyStorage e a g) s
  | .buyIm a g => M.tx (Profile.buyIm e a g) s
  | .buyVpn a g => M.tx (Profile.buyVpn e a g) s
  | .giveStorageUp a g => M.tx (Profile.giveStorageUp e a g) s
  | .giveImUp a g => M.tx (Profile.giveImUp e a g) s
  | .prolongIm a => M.tx (Profile.prolongIm e a) s
  | .foreign f => f.run s
  | .block e f now => Profile.block e f now s

end Verif.Profile
