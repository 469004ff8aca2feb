import Verif.Referral.Exec

/-!
Export and import of the referral module: `ExportToGenesis` and `ImportFromGenesis`, /repo/x/referral/keeper/genesis.go.  The parameters are
copied as they are and left out.
-/
namespace Verif.Referral

/-- `GenesisState`, /repo/proto/artery/referral/v1beta1/genesis.proto, without the parameters -/
structure GenesisFile where
  topLevel : List Key := []
  other : List (Key × List Key) := []
  banished : List (Key × Option Key) := []
  compressions : List (Key × Int) := []
  banishment : List (Key × Int) := []
  downgrades : List (Key × Nat × Int) := []
  transitions : List (Key × Key) := []
deriving DecidableEq

/-! ### Export -/

/-- The first result of `GetTopLevelAndBanishedAccounts`, keeper.go:184-206 -/
def topLevelOf (st : KV Nat Info) : List Key := (st.entries.filter fun x => !x.2.banished && x.2.referrer.isNone).map (·.1)

/-- The second result of `GetTopLevelAndBanishedAccounts`, keeper.go:184-206 -/
def banishedOf (st : KV Nat Info) : List (Key × Option Key) := (st.entries.filter fun x => x.2.banished).map fun x => (x.1, x.2.referrer)

/-- What is noted about one account, genesis.go:35-61 and 69-95; the second component is `nextLevel`. -/
def visit (st : KV Nat Info) (x : GenesisFile × List (Key × List Key)) (k : Key) : GenesisFile × List (Key × List Key) :=
  let v := infoOf st k
  ({ x.1 with
      compressions := x.1.compressions ++ (v.compressionAt.map fun t => (k, t)).toList
      banishment := x.1.banishment ++ (v.banishmentAt.map fun t => (k, t)).toList
      downgrades := x.1.downgrades ++ (v.downgradeAt.map fun t => (k, v.status, t)).toList
      transitions := x.1.transitions ++ (v.transition.map fun t => (k, t)).toList },
    if v.referrals.isEmpty then x.2 else x.2 ++ [(k, v.referrals)])

/-- The loop over the levels, genesis.go:63-98; the first argument bounds the number of rounds, `none` = the loop never ends. -/
def levels (st : KV Nat Info) : Nat → GenesisFile × List (Key × List Key) → Option GenesisFile
  | 0, _ => none
  | n + 1, x =>
    if x.2.isEmpty then some x.1
    else levels st n ((x.2.flatMap (·.2)).foldl (visit st) ({ x.1 with other := x.1.other ++ x.2 }, []))

/-- `ExportToGenesis`, genesis.go:11-101 -/
def exportGenesis (st : KV Nat Info) : Option GenesisFile :=
  levels st (st.entries.length + 1) ((topLevelOf st).foldl (visit st) ({ topLevel := topLevelOf st, banished := banishedOf st }, []))

/-! ### Import -/

/-- The dates, the statuses and the transitions, genesis.go:147-184 -/
def importFields (g : GenesisFile) : Act Bool := do
  M.forEach g.compressions fun x => update x.1 false fun v => pure ({ v with compressionAt := some x.2 }, ())
  M.forEach g.banishment fun x => update x.1 false fun v => pure ({ v with banishmentAt := some x.2 }, ())
  M.forEach g.downgrades fun x => update x.1 false fun v => do
    let w ← setStatus v x.2.1 x.1
    pure ({ w with downgradeAt := some x.2.2 }, ())
  M.forEach g.transitions fun x => update x.1 false fun v => pure ({ v with transition := some x.2 }, ())
  pure true

/-- `ImportFromGenesis`, genesis.go:103-190; errors of the first two loops panic there -/
def importGenesis (e : Env) (g : GenesisFile) : Act Unit := do
  M.forEach g.topLevel fun k => must (addTopLevel e k)
  M.forEach g.other fun r => M.forEach r.2 fun c => must (appendChild e r.1 c true false)
  M.forEach g.banished fun x => importBanished x.1 x.2
  bunch e (importFields g)

end Verif.Referral
