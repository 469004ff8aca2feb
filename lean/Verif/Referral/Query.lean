import Verif.Referral.Model

/-! Queries about statuses, networks and transitions. -/
namespace Verif.Referral

/-- `Status.Validate`, types/types.go:22-27: from LUCKY (1) to ABSOLUTE_CHAMPION (9) without the deprecated HERO (8). -/
def validStatus (n : Nat) : Bool := decide (1 ≤ n) && decide (n ≤ 9) && n != 8

/-- `AllWithStatus`, keeper/query_server.go:85-107; `none` = refused.  The order of the answer, which is that of the texts of the
addresses, is not modelled. -/
def allWithStatus (s : State) (n : Nat) : Option (List Key) :=
  if !validStatus n then none
  else if n < 5 then none
  else some ((s.index.filter fun e => e.1 = n).map Prod.snd)

/-- `Status.LinesOpened`, types/types.go:29-40 -/
def linesOpened : Nat → Nat
  | 1 => 4
  | 2 => 6
  | 3 => 8
  | _ => 10

/-- `CoinsAtLevelsUpTo`, types/types.go:58-64 -/
def Info.coinsUpTo (v : Info) : Nat → Int
  | 0 => v.tot .coins 0
  | n + 1 => v.coinsUpTo n + v.tot .coins (n + 1)

/-- `GetCoinsInNetwork`, keeper/keeper.go:398-411 -/
def coinsInNetwork (v : Info) (maxDepth : Nat) : Int :=
  v.coinsUpTo (min (linesOpened v.status) (if maxDepth = 0 then 10 else maxDepth))

/-- `GetDelegatedInNetwork`, keeper/keeper.go:416-426 -/
def delegatedInNetwork (v : Info) (maxDepth : Nat) : Int := v.delegatedUpTo (min (linesOpened v.status) maxDepth)

/-- `QueryServer.Coins`, keeper/query_server.go:36-54: total and delegated coins; `none` = panic.  The lists of a missing account are empty,
reading them panics.  (The lists of an account that was banished in the genesis file, and of one that asked for a transition without being
registered, are shorter than eleven as well, until the record is written by a bunch updater; here they are filled with zeros.) -/
def queryCoins (st : KV Nat Info) (k : Key) (maxDepth : Nat) : Option (Int × Int) :=
  (st.get k).map fun v => (coinsInNetwork v maxDepth, delegatedInNetwork v maxDepth)

/-- `QueryServer.CheckStatus`, keeper/query_server.go:56-65, with `AreStatusRequirementsFulfilled`, keeper/keeper.go:138-147; of the result only
the field `Overall`. -/
def queryCheckStatus (st : KV Nat Info) (k : Key) (status : Nat) : Res Bool :=
  if !validStatus status then .err
  else match meets st status (infoOf st k) with
    | none => .panic
    | some b => .ok b

/-- `QueryServer.ValidateTransition`, keeper/query_server.go:67-76, without the text of the reason -/
def queryTransition (s : State) (subject : Key) (target : Option Key) : Res Bool :=
  match (validateTransition subject target true s).1 with
  | .ok _ => .ok true
  | .err => .ok false
  | .panic => .panic

end Verif.Referral
