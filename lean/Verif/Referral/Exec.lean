import Verif.Referral.Model

/-! Executions of the referral module. -/
namespace Verif.Referral

/-- `AppendChild` and what follows, /repo/x/profile/keeper/keeper.go:213-227 (`CreateAccountWithProfile`): the new account may be
active at once (`SetProfile`, keeper.go:185-187). -/
def register (e : Env) (child parent : Key) (active : Bool) : Act Unit := do
  appendChild e parent child false true
  let s ← M.get
  scheduleCompression child (s.now + s.compressionPeriod)
  if active then setActive e child true true else pure ()

/-- A banished account comes back, /repo/x/profile/keeper/subscription.go:45-52. -/
def returnIfBanished (e : Env) (k : Key) : Act Unit := do
  let s ← M.get
  if (infoOf s.store k).banished then comeBack e k else pure ()

/-- The referral part of `PayTariff`, /repo/x/profile/keeper/subscription.go:45-52 and keeper.go:185-187.  The payments in between are
steps of their own. -/
def subscribe (e : Env) (k : Key) : Act Unit := do
  returnIfBanished e k
  setActive e k true true

/-- A banished account in the genesis file, keeper/genesis.go:133-143 -/
def importBanished (k : Key) (former : Option Key) : Act Unit := M.modify fun s =>
  { s with store := (s.store.set k {
      referrer := former, banished := true
      tot := fun w l => if l = 0 then (match w with | .coins => s.balance k | .delegated => s.delegated k | .active => 0) else 0 }) }

/-- The rest of the genesis file, keeper/genesis.go:147-184: times, status (through `setStatus`), transition of an
account. -/
def importTimes (k : Key) (compressionAt banishmentAt downgradeAt : Option Int) (transition : Option Key) (status : Nat) : Act Unit :=
  M.modify fun s => { s with
    store := (s.store.set k { infoOf s.store k with compressionAt, banishmentAt, downgradeAt, transition, status })
    index := if (infoOf s.store k).status = status then s.index else reindex s.index (infoOf s.store k).status status k }

/-- What can happen.  Transactions are undone when they fail; hooks of the scheduler and changes of balance are not. -/
inductive Op where
  /-- genesis: an account without referrer -/
  | top (k : Key)
  /-- genesis: an account with referrer -/
  | child (parent child : Key)
  /-- genesis: a banished account -/
  | banished (k : Key) (former : Key)
  /-- genesis: other fields of an account -/
  | times (k : Key) (compressionAt banishmentAt downgradeAt : Option Int) (transition : Option Key) (status : Nat)
  /-- genesis: an active account, without status check -/
  | activate (k : Key)
  | register (child parent : Key) (active : Bool)
  | comeBack (k : Key)
  | subscribe (k : Key)
  /-- the subscription ends -/
  | expire (k : Key)
  | balance (a : Addr) (p : Purse)
  | request (subject : Key) (destination : Option Key)
  | resolve (signer subject : Key) (approved : Bool)
  | downgrade (k : Key)
  | compression (k : Key)
  | timeout (k : Key)
  | banish (k : Key)
  /-- time passes and parameters change -/
  | world (now dust price : Int) (collector : Addr)

def step (e : Env) : Op → State → State
  | .top k, s => M.tx (addTopLevel e k) s
  | .child p c, s => M.tx (appendChild e p c true false) s
  | .banished k f, s => M.tx (importBanished k (some f)) s
  | .times k c b d t x, s => M.tx (importTimes k c b d t x) s
  | .activate k, s => M.tx (setActive e k true false) s
  | .register c p a, s => M.tx (register e c p a) s
  | .comeBack k, s => M.tx (returnIfBanished e k) s
  | .subscribe k, s => M.tx (subscribe e k) s
  | .expire k, s => (setActive e k false true s).2
  | .balance a p, s => (setPurse e a p s).2
  | .request k d, s => M.tx (requestTransition e k d) s
  | .resolve g k b, s => M.tx (resolveTransition e g k b) s
  | .downgrade k, s => (performDowngrade e k s).2
  | .compression k, s => (performCompression e k s).2
  | .timeout k, s => (cancelTransition k s).2
  | .banish k, s => (banish e k s).2
  | .world n d p c, s => { s with now := n, dust := d, price := p, collector := c }

/-- An execution; the outcome of callbacks may be different in every step. -/
def run : List (Env × Op) → State → State
  | [], s => s
  | (e, op) :: l, s => run l (step e op s)

theorem run_append (l l' : List (Env × Op)) (s : State) : run (l ++ l') s = run l' (run l s) := by
  induction l generalizing s with
  | nil => rfl
  | cons x l ih => exact ih _

/-- Every step of an execution meets a condition on the state before it. -/
def Along (ok : Op → State → Prop) : List (Env × Op) → State → Prop
  | [], _ => True
  | (e, op) :: l, s => ok op s ∧ Along ok l (step e op s)

theorem Along.run {ok : Op → State → Prop} {P : State → Prop} (h : ∀ e op s, P s → ok op s → P (step e op s)) :
    ∀ (l : List (Env × Op)) (s : State), P s → Along ok l s → P (run l s)
  | [], _, hs, _ => hs
  | (e, op) :: l, s, hs, hl => Along.run h l (step e op s) (h e op s hs hl.1) hl.2

end Verif.Referral
