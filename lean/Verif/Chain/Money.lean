import Verif.Delegating.Props
import Verif.Noding.Reward

/-! Property C06 for the whole chain: everything in the repository that moves coins, in any order.  (Only the one-off migrations in
app/upgrade.go are left out.) -/
namespace Verif.Chain
open Verif.Util Verif.Bank
open Verif.Delegating hiding Addr

/-- Money is consistent and the parameters are accepted ones. -/
structure Sound (s : Delegating.State) : Prop where
  core : Core s
  params : s.params.validate? = some true

/-- The same for the bank part. -/
structure Money (b : Bank.State) : Prop where
  nonneg : NonNeg b
  supply : SupplyEq b
  fee : FeeOk b.params.fee

theorem Core.money {s : Delegating.State} (h : Core s) : Money s.bank := ⟨h.nonneg, h.supply, h.fee⟩
theorem Money.core {s : Delegating.State} (h : Money s.bank) : Core s := ⟨h.nonneg, h.supply, h.fee⟩

theorem get_bind_pres {σ β : Type} {P : σ → Prop} {f : σ → M σ β} (h : ∀ s, P s → M.Preserves P (f s)) :
    M.Preserves P (M.get >>= f) := fun s hs => h s hs s hs

theorem orPanic_bind_pres {σ α β : Type} {P : σ → Prop} {o : Option α} {f : α → M σ β} (h : ∀ a, o = some a → M.Preserves P (f a)) :
    M.Preserves P (M.orPanic o >>= f) := by
  intro s hs
  cases o with
  | none => exact hs
  | some a => exact h a rfl s hs

theorem keeps_pres {α : Type} {m : M Delegating.State α} (h : Keeps m) : M.Preserves Sound m := fun s hs =>
  ⟨(h s hs.core).core, by rw [(h s hs.core).params]; exact hs.params⟩

theorem onBank_pres {α : Type} {m : M Bank.State α} (h : M.Preserves Money m) : M.Preserves Sound (onBank m) := fun s hs =>
  ⟨Money.core (s := (onBank m s).2) (h s.bank (Core.money hs.core)), hs.params⟩

/-! ### bank primitives, also when they fail half-way -/

theorem shift_money {delta : Addr → Denom → Int} {u : Denom → Int} {b c : Bank.State} (hb : Money b) (hn : NonNeg c)
    (h : Shift delta u u b c) : Money c := ⟨hn, h.supplyEq hb.supply, by rw [h.params]; exact hb.fee⟩

theorem sendCoins_pres {e : Bank.Env} (he : HooksOk e) (x y : Addr) (c : Coins) : M.Preserves Money (sendCoins e x y c) := by
  intro b hb
  by_cases h : ∀ d, 0 ≤ c.amt d ∧ c.amt d ≤ (balance b x).amt d
  · obtain ⟨u, hu⟩ := Res.isOk_iff.1 ((sendCoins_succeeds he (dst := y) hb.nonneg).2 h)
    have h2 : sendCoins e x y c b = (.ok (), (sendCoins e x y c b).2) := Prod.ext hu rfl
    exact shift_money hb (sendCoins_nonneg e x y c b hb.nonneg) (sendCoins_shift h2).1
  · have : sendCoins e x y c b = (.err, b) := M.bind_err (subtractCoins_fail (fun hh => h fun d => ⟨hh.1 d, hh.2 d⟩))
    rw [this]; exact hb

theorem payTxFee_pres {e : Bank.Env} (he : HooksOk e) (x : Addr) (c : Coins) : M.Preserves Money (payTxFee e x c) := by
  refine .bind .get fun b => .bind (.orPanic _) fun fee => ?_
  split
  · exact .pure _
  · exact .bind (sendCoins_pres he _ _ _) fun _ => .pure _

/-- A payment from at most one account never gets stuck half-way. -/
theorem single_pres {e : Bank.Env} (he : HooksOk e) (i : InOut) (outs : List InOut) : M.Preserves Money (inputOutputCoins e [i] outs) := by
  intro b hb
  by_cases hv : validateInputsOutputs [i] outs = true
  swap
  · have : inputOutputCoins e [i] outs b = (.err, b) := by
      unfold inputOutputCoins
      have hv' : (!validateInputsOutputs [i] outs) = true := by simpa using hv
      rw [hv']
      exact M.bind_err (M.errIf_true b)
    rw [this]; exact hb
  by_cases h : ∀ d, 0 ≤ i.coins.amt d ∧ i.coins.amt d ≤ (balance b i.addr).amt d
  swap
  · have : inputOutputCoins e [i] outs b = (.err, b) := by
      unfold inputOutputCoins
      rw [hv]
      show (M.errIf false >>= _) b = _
      rw [M.bind_ok (M.errIf_false b), M.bind_err]
      rw [M.forEach_cons]
      exact M.bind_err (subtractCoins_fail (fun hh => h fun d => ⟨hh.1 d, hh.2 d⟩))
    rw [this]; exact hb
  obtain ⟨b1, h1⟩ := subtractCoins_succ he (fun d => (h d).1) (fun d => (h d).2)
  have n1 : NonNeg b1 := by have := subtractCoins_nonneg e i.addr i.coins b hb.nonneg; rw [h1] at this; exact this
  have hall : ∀ o ∈ outs, ∀ d, 0 ≤ o.coins.amt d := by
    intro o ho
    unfold validateInputsOutputs at hv
    simp only [Bool.and_eq_true, List.all_eq_true] at hv
    have := hv.1.2 o ho
    unfold InOut.ok at this
    rw [Bool.and_eq_true] at this
    exact (Coins.valid_iff _).1 this.1
  have hadd : ∀ (l : List InOut) (s : Bank.State), NonNeg s → (∀ o ∈ l, ∀ d, 0 ≤ o.coins.amt d) →
      ∃ t, M.forEach l (fun x => addCoins e x.addr x.coins) s = (.ok (), t) := by
    intro l
    induction l with
    | nil => intro s _ _; exact ⟨s, rfl⟩
    | cons o l ih =>
      intro s hs hl
      obtain ⟨t, ht⟩ := addCoins_succ he (a := o.addr) hs (hl o (by simp))
      have nt : NonNeg t := by have := addCoins_nonneg e o.addr o.coins s hs; rw [ht] at this; exact this
      obtain ⟨t2, ht2⟩ := ih t nt (fun o' ho' => hl o' (by simp [ho']))
      exact ⟨t2, by rw [M.forEach_cons, M.bind_ok ht]; exact ht2⟩
  obtain ⟨b2, h2⟩ := hadd outs b1 n1 hall
  have hrun : inputOutputCoins e [i] outs b = (.ok (), b2) := by
    unfold inputOutputCoins
    rw [hv]
    show (M.errIf false >>= _) b = _
    rw [M.bind_ok (M.errIf_false b), M.bind_ok (a := ()) (s' := b1)]
    · exact h2
    · rw [M.forEach_cons, M.bind_ok h1]; rfl
  obtain ⟨m, tt, -⟩ := inputOutputCoins_moved hrun
  have nb := inputOutputCoins_nonneg e [i] outs b hb.nonneg
  rw [hrun] at nb ⊢
  exact ⟨nb, fun d => by rw [m.supply, tt]; exact hb.supply d, by rw [m.params]; exact hb.fee⟩

theorem burnAccCoins_pres {e : Bank.Env} (he : HooksOk e) (x : Addr) (c : Coins) : M.Preserves Money (burnAccCoins e x c) := by
  intro b hb
  by_cases h : (∀ d, 0 ≤ c.amt d) ∧ ∀ d, c.amt d ≤ (balance b x).amt d
  swap
  · have : burnAccCoins e x c b = (.err, b) := M.bind_err (subtractCoins_fail h)
    rw [this]; exact hb
  obtain ⟨b1, h1⟩ := subtractCoins_succ he h.1 h.2
  obtain ⟨f1, -, -⟩ := subtractCoins_shift h1
  obtain ⟨b2, h2⟩ := deflate_succ (c := c) (s := b1) (by
    intro d
    rw [f1.supply]
    have := balance_le_total hb.nonneg x d
    have h3 := h.2 d
    have h4 := hb.supply d
    omega)
  have f2 := deflate_shift h2
  have h12 : burnAccCoins e x c b = (.ok (), b2) := by unfold burnAccCoins; rw [M.bind_ok h1]; exact h2
  have hp := burnAccCoins_nonneg e x c b hb.nonneg
  rw [h12] at hp ⊢
  exact shift_money hb hp ((f1.trans f2).congr (d2 := fun w d => _) (u2 := fun d => - c.amt d) (t2 := fun d => - c.amt d) (fun _ _ => rfl)
    (by intro d; simp) (by intro d; simp))

theorem sendMain_pres {e : Bank.Env} (he : HooksOk e) (x y : Addr) (v : Int) : M.Preserves Money (Noding.sendMain e x y v) := by
  refine .bind (.panicIf _) fun _ => ?_
  split
  · exact .pure _
  · exact sendCoins_pres he _ _ _

theorem burnMain_pres {e : Bank.Env} (he : HooksOk e) (x : Addr) (v : Int) : M.Preserves Money (Noding.burnMain e x v) := by
  refine .bind (.panicIf _) fun _ => ?_
  split
  · exact .pure _
  · exact burnAccCoins_pres he _ _

theorem payReward_pres {e : Bank.Env} (he : HooksOk e) (a : Addr) : M.Preserves Money (Noding.payReward e a) := by
  refine .bind (.bind .get fun b => ?_) fun _ => .bind .get fun b => ?_
  · split
    · exact .pure _
    · exact sendCoins_pres he _ _ _
  · exact .bind (.orPanic _) fun p => .bind (sendMain_pres he _ _ _) fun _ => .bind (sendMain_pres he _ _ _) fun _ => burnMain_pres he _ _

/-- No bank operation changes the parameters. -/
def SameParams (p : Bank.Params) (b : Bank.State) : Prop := b.params = p

theorem setBalance_params (e : Bank.Env) (p : Bank.Params) (a : Addr) (c : Coins) : M.Preserves (SameParams p) (setBalance e a c) :=
  .bind (.errIf _) fun _ => .bind (.modify fun _ h => h) fun _ => fun _ h => h

theorem subtractCoins_params (e : Bank.Env) (p : Bank.Params) (a : Addr) (c : Coins) : M.Preserves (SameParams p) (subtractCoins e a c) :=
  .bind (.errIf _) fun _ => .bind .get fun _ => .bind (.errIf _) fun _ => setBalance_params e p a _

theorem addCoins_params (e : Bank.Env) (p : Bank.Params) (a : Addr) (c : Coins) : M.Preserves (SameParams p) (addCoins e a c) :=
  .bind (.errIf _) fun _ => .bind .get fun _ => .bind (.panicIf _) fun _ => setBalance_params e p a _

theorem sendCoins_params (e : Bank.Env) (p : Bank.Params) (a b : Addr) (c : Coins) : M.Preserves (SameParams p) (sendCoins e a b c) :=
  .bind (subtractCoins_params e p a c) fun _ => addCoins_params e p b c

theorem payTxFee_params (e : Bank.Env) (p : Bank.Params) (a : Addr) (c : Coins) : M.Preserves (SameParams p) (payTxFee e a c) := by
  refine .bind .get fun b => .bind (.orPanic _) fun fee => ?_
  split
  · exact .pure _
  · exact .bind (sendCoins_params e p a _ _) fun _ => .pure _

theorem deflate_params (p : Bank.Params) (c : Coins) : M.Preserves (SameParams p) (deflate c) := by
  intro s hs
  unfold deflate
  simp only [M.bind_apply, M.get_apply]
  cases h : (s.supply.sub c).valid <;> simp <;> exact hs

theorem burnAccCoins_params (e : Bank.Env) (p : Bank.Params) (a : Addr) (c : Coins) : M.Preserves (SameParams p) (burnAccCoins e a c) :=
  .bind (subtractCoins_params e p a c) fun _ => deflate_params p c

theorem op_params (e : Bank.Env) (p : Bank.Params) (op : Bank.Op) : M.Preserves (SameParams p) (op.run e) := by
  cases op with
  | send m =>
    exact .bind (.errIf _) fun _ => .bind (.errIf _) fun _ => .bind (.errIf _) fun _ => .bind (.errIf _) fun _ =>
      .bind (.errIf _) fun _ => .bind .get fun _ => .bind (.panicIf _) fun _ => .bind (.errIf _) fun _ =>
      .bind (.errIf _) fun _ => .bind (payTxFee_params e p _ _) fun _ => sendCoins_params e p _ _ _
  | burn a n => exact .bind (.errIf _) fun _ => .bind (.panicIf _) fun _ => burnAccCoins_params e p a _
  | multi i o =>
    exact .bind (.errIf _) fun _ => .bind (.forEach fun _ _ => subtractCoins_params e p _ _) fun _ =>
      .forEach fun _ _ => addCoins_params e p _ _
  | payFee a c => exact .bind (payTxFee_params e p a c) fun _ => .pure _
  | mint a mi c => exact .bind (.panicIf _) fun _ => .bind (addCoins_params e p a c) fun _ => .modify fun _ h => h
  | burnModule a bu c => exact .bind (.panicIf _) fun _ => .ignoreErr (burnAccCoins_params e p a c)

/-! ### delegating -/

theorem convert_pres {e : Delegating.Env} (he : HooksOk e.bank) (a : Addr) {minus plus : Coins}
    (hv : (∀ d, 0 ≤ minus.amt d) → ∀ d, 0 ≤ plus.amt d) : M.Preserves Sound (convert e a minus plus) := by
  intro s hs
  by_cases h : (∀ d, 0 ≤ minus.amt d) ∧ ∀ d, minus.amt d ≤ (balance s.bank a).amt d
  swap
  · rw [(convert_refused h).2]; exact hs
  obtain ⟨t, ht⟩ := convert_succ he (plus := plus) hs.core.nonneg hs.core.supply h.1 (hv h.1) h.2
  obtain ⟨sh, te, -, hp, hb⟩ := convert_ok ht
  rw [ht]
  refine ⟨⟨?_, sh.supplyEq hs.core.supply, by rw [sh.params]; exact hs.core.fee⟩, by rw [te]; exact hs.params⟩
  intro x d
  rw [sh.bal]
  have := hs.core.nonneg x d
  split
  · next hx => subst hx; have := hb d; have := hp d; omega
  · omega

theorem onSched_pres (r : Schedule.Req) : M.Preserves Sound (onSched r) := by
  intro s hs
  unfold onSched
  cases r.exec? s.sched with
  | none => exact hs
  | some t => exact ⟨⟨hs.core.nonneg, hs.core.supply, hs.core.fee⟩, hs.params⟩

theorem setRecords_pres (f : Delegating.State → KV Nat Record) :
    M.Preserves Sound (M.modify fun s : Delegating.State => { s with records := f s }) :=
  .modify fun _ hs => ⟨⟨hs.core.nonneg, hs.core.supply, hs.core.fee⟩, hs.params⟩

theorem planAccrue_pres (e : Delegating.Env) (a : Addr) (d : Int) (item : Record) : M.Preserves Sound (planAccrue e a d item) := by
  refine .bind .get fun s => .bind (.orPanic _) fun x => ?_
  split
  · exact .pure _
  · exact .bind (onSched_pres _) fun _ => .pure _

theorem revoke_pres {e : Delegating.Env} (he : EnvOk e) (a : Addr) (u : Int) (x : Bool) : M.Preserves Sound (revoke e a u x) := by
  unfold revoke
  split
  · exact .pure _
  refine get_bind_pres fun s hs => .bind (.errIf _) fun _ => .bind (keeps_pres (accruePart_keeps he _ _ _)) fun item => ?_
  have hrp := revokeParams_valid hs.params x
  dsimp only
  refine orPanic_bind_pres fun ur hur => .bind ?_ fun _ => .bind (planAccrue_pres _ _ _ _) fun item2 =>
    .bind (setRecords_pres _) fun _ => onSched_pres _
  unfold freeze
  split
  · exact .pure _
  refine convert_pres he.hooks a fun h => ?_
  have h0 : 0 ≤ u := h .delegated
  obtain ⟨h1, h2, h3⟩ := afterBurn_spec hrp h0 (afterBurn_some hur)
  unfold revokeParams at h1 h3
  rw [h1] at hur
  have : ur = u - burnt (if x = true then s.params.express else s.params.revoke).burn u := (Option.some.inj hur).symm
  intro d
  cases d <;> simp [Coins.amt, Coins.ofRevoking]
  omega

theorem delegateMsg_pres {e : Delegating.Env} (he : EnvOk e) (a : Addr) (u : Int) : M.Preserves Sound (delegateMsg e a u) := by
  refine .bind .get fun s => .bind (.errIf _) fun _ => .bind (.panicIf _) fun _ => .bind (onBank_pres (payTxFee_pres he.hooks _ _)) fun fee => .bind .get fun s =>
    .bind (keeps_pres (accruePart_keeps he _ _ _)) fun item => .bind ?_ fun _ => .bind .get fun s => .bind (planAccrue_pres _ _ _ _) fun item => setRecords_pres _
  unfold Delegating.delegate
  split
  · exact .pure _
  · refine convert_pres he.hooks a fun h d => ?_
    have := h .main
    cases d <;> simp [Coins.amt, Coins.ofDelegated, Coins.ofMain] at this ⊢
    exact this

theorem payDue_pres {e : Delegating.Env} (he : EnvOk e) (a : Addr) (l : List Request) : M.Preserves Sound (payDue e a l) := by
  induction l with
  | nil => exact .pure _
  | cons r l ih =>
    unfold payDue
    split
    · exact .pure _
    refine .bind ?_ fun _ => ih
    unfold undelegate
    split
    · exact .pure _
    · refine convert_pres he.hooks a fun h d => ?_
      have := h .revoking
      cases d <;> simp [Coins.amt, Coins.ofRevoking, Coins.ofMain] at this ⊢
      exact this

theorem performRevoking_pres {e : Delegating.Env} (he : EnvOk e) (a : Addr) : M.Preserves Sound (performRevoking e a) := by
  refine .bind .get fun s => ?_
  split
  · exact .pure _
  · dsimp only
    refine .bind (payDue_pres he _ _) fun _ => ?_
    split
    · exact .pure _
    · exact setRecords_pres _

theorem onBanished_pres {e : Delegating.Env} (he : EnvOk e) (a : Addr) : M.Preserves Sound (onBanished e a) := by
  refine .bind .get fun s => ?_
  dsimp only
  split
  · exact .pure _
  · exact revoke_pres he _ _ _

/-! ### the chain -/

/-- Everything that touches money, or the parameters money depends on. -/
inductive Act where
  /-- a transaction of the bank module, or one of its keeper functions inside a transaction -/
  | bank (op : Bank.Op)
  /-- gas fee, in any kind of coins: `DeductFees` of the SDK's ante handler (app/app.go:513-520), kept when the transaction fails -/
  | gas (a : Addr) (c : Coins)
  | delegate (a : Addr) (u : Int)
  | revoke (a : Addr) (u : Int) (express : Bool)
  /-- begin-block tasks of the delegating module, not rolled back when they fail -/
  | releaseTask (a : Addr)
  | accrueTask (a : Addr) (time : Int)
  /-- referral's callback when an account is banished -/
  | banished (a : Addr)
  /-- the proposer reward, not rolled back when it fails -/
  | reward (a : Addr)
  /-- payments by other modules (profile, referral), inside transactions or inside begin-block tasks that are not rolled back -/
  | pay (x y : Addr) (c : Coins)
  | fee (x : Addr) (c : Coins)
  | tariff (i : InOut) (outs : List InOut)
  /-- voting sets parameters -/
  | bankParams (p : Bank.Params)
  | params (p : Delegating.Params)
  /-- the schedule changes by other modules' requests or by the clean-up after a block -/
  | sched (f : Schedule.State → Schedule.State)

/-- Effect of an action. -/
def Act.run (e : Delegating.Env) (s : Delegating.State) : Act → Delegating.State
  | .bank op => { s with bank := M.tx (op.run e.bank) s.bank }
  | .gas a c => { s with bank := M.tx (sendCoins e.bank a e.bank.feeCollector c) s.bank }
  | .delegate a u => M.tx (msgDelegate e a u) s
  | .revoke a u x => M.tx (msgRevoke e a u x) s
  | .releaseTask a => (performRevoking e a s).2
  | .accrueTask a time => (performAccrue e a time s).2
  | .banished a => (onBanished e a s).2
  | .reward a => { s with bank := (Noding.payReward e.bank a s.bank).2 }
  | .pay x y c => { s with bank := (sendCoins e.bank x y c s.bank).2 }
  | .fee x c => { s with bank := (payTxFee e.bank x c s.bank).2 }
  | .tariff i outs => { s with bank := (inputOutputCoins e.bank [i] outs s.bank).2 }
  | .bankParams p => { s with bank := { s.bank with params := p } }
  | .params p => { s with params := p }
  | .sched f => { s with sched := f s.sched }

/-- Parameters are accepted ones (for the fee rate additionally a non-zero denominator and a value of at most one, which validation
does not ensure, see `C05_accepted_rate_can_abort` and `C03_negative_fee`). -/
def Act.Ok : Act → Prop
  | .bankParams p => validateFeeParams? p.fee = some true ∧ p.fee.rate.denom ≠ 0 ∧ p.fee.rate.toRat ≤ 1
  | .params p => p.validate? = some true
  | _ => True

theorem act_sound {e : Delegating.Env} (he : EnvOk e) {x : Act} (hx : x.Ok) {s : Delegating.State} (hs : Sound s) : Sound (x.run e s) := by
  have hm := Core.money hs.core
  have hb : ∀ {b : Bank.State}, Money b → Sound { s with bank := b } := fun h => ⟨⟨h.nonneg, h.supply, h.fee⟩, hs.params⟩
  cases x with
  | bank op =>
    refine hb ⟨(C07_never_negative e.bank op s.bank hm.nonneg).2, C06_bank_step e.bank op s.bank (fun _ _ _ _ => ⟨he.hooks, hm.nonneg⟩) hm.supply, ?_⟩
    have : (M.tx (op.run e.bank) s.bank).params = s.bank.params := (op_params e.bank s.bank.params op).tx (rfl : SameParams s.bank.params s.bank)
    rw [this]; exact hm.fee
  | gas a c => exact hb ((sendCoins_pres he.hooks _ _ _).tx hm)
  | delegate a u => exact (M.Preserves.bind (.errIf _) fun _ => delegateMsg_pres he a u).tx hs
  | revoke a u x => exact (M.Preserves.bind (.errIf _) fun _ => revoke_pres he a u x).tx hs
  | releaseTask a => exact performRevoking_pres he a s hs
  | accrueTask a time =>
    have := performAccrue_quiet he a time hs.core
    exact ⟨this.core, by show (performAccrue e a time s).2.params.validate? = _; rw [this.params]; exact hs.params⟩
  | banished a => exact onBanished_pres he a s hs
  | reward a => exact hb (payReward_pres he.hooks a _ hm)
  | pay x y c => exact hb (sendCoins_pres he.hooks _ _ _ _ hm)
  | fee x c => exact hb (payTxFee_pres he.hooks _ _ _ hm)
  | tariff i outs => exact hb (single_pres he.hooks _ _ _ hm)
  | bankParams p => exact hb ⟨hm.nonneg, hm.supply, ⟨hx.1, hx.2.1, hx.2.2⟩⟩
  | params p => exact ⟨⟨hm.nonneg, hm.supply, hm.fee⟩, hx⟩
  | sched f => exact ⟨⟨hm.nonneg, hm.supply, hm.fee⟩, hs.params⟩

/-- A whole history. -/
def history (l : List (Delegating.Env × Act)) (s : Delegating.State) : Delegating.State := l.foldl (fun s x => x.2.run x.1 s) s

/-- C06: from a state with consistent money (for instance one imported from a genesis file that leaves the supply to be computed, see
`C06_genesis`), in every state reached by any interleaving of actions the recorded supply of every denomination equals the sum of
all balances – and no balance is negative. -/
theorem C06_supply_is_sum_partial (s : Delegating.State) (hn : ∀ a d, 0 ≤ (balance s.bank a).amt d)
    (hs : ∀ d, s.bank.supply.amt d = s.bank.balances.sum (fun _ c => c.amt d))
    (hf : validateFeeParams? s.bank.params.fee = some true ∧ s.bank.params.fee.rate.denom ≠ 0 ∧ s.bank.params.fee.rate.toRat ≤ 1)
    (hp : s.params.validate? = some true) (l : List (Delegating.Env × Act)) (hl : ∀ x ∈ l, EnvOk x.1 ∧ x.2.Ok) :
    (∀ d, (history l s).bank.supply.amt d = (history l s).bank.balances.sum (fun _ c => c.amt d)) ∧
    (∀ a d, 0 ≤ (balance (history l s).bank a).amt d) := by
  have h0 : Sound s := ⟨⟨hn, hs, ⟨hf.1, hf.2.1, hf.2.2⟩⟩, hp⟩
  have key : Sound (history l s) := by
    clear hn hs hf hp
    induction l generalizing s with
    | nil => exact h0
    | cons x l ih =>
      exact ih (x.2.run x.1 s) (fun y hy => hl y (by simp [hy])) (act_sound (hl x (by simp)).1 (hl x (by simp)).2 h0)
  exact ⟨key.core.supply, key.core.nonneg⟩

/-- From a genesis file. -/
theorem C06_from_genesis_partial (eb : Bank.Env) (pb : Bank.Params) (bals : List InOut) (b0 b : Bank.State) (recs : KV Nat Record)
    (sched : Schedule.State) (p : Delegating.Params) (hnd : (bals.map InOut.addr).Nodup)
    (hf : validateFeeParams? pb.fee = some true ∧ pb.fee.rate.denom ≠ 0 ∧ pb.fee.rate.toRat ≤ 1) (hp : p.validate? = some true)
    (h : initGenesis eb pb bals {} b0 = (.ok (), b)) (l : List (Delegating.Env × Act)) (hl : ∀ x ∈ l, EnvOk x.1 ∧ x.2.Ok) :
    ∀ d, (history l ⟨b, recs, sched, p⟩).bank.supply.amt d = (history l ⟨b, recs, sched, p⟩).bank.balances.sum (fun _ c => c.amt d) := by
  obtain ⟨h1, h2⟩ := C06_genesis eb pb bals b0 b hnd h
  have hpar : b.params = pb := by
    unfold initGenesis at h
    simp only [M.bind_ok_iff, M.set_apply, M.modify_apply, Prod.mk.injEq] at h
    obtain ⟨_, _, ⟨-, rfl⟩, _, s1, h3, -, rfl⟩ := h
    have := (M.Preserves.forEach (P := SameParams pb) (l := bals) fun x _ => setBalance_params eb pb x.addr x.coins) ⟨KV.empty, {}, pb⟩ rfl
    rw [h3] at this
    exact this
  exact (C06_supply_is_sum_partial ⟨b, recs, sched, p⟩ h2 h1 (by show validateFeeParams? b.params.fee = _ ∧ _; rw [hpar]; exact hf) hp l hl).1

/-! ### A concrete history -/

/-- Delegation, interest, express revocation with burning, a fee in an odd denomination, a transfer, the proposer's reward. -/
def exampleHistory : List (Delegating.Env × Act) :=
  [(exampleEnvAt 0, .delegate 5 100000), (exampleEnvAt 1000, .accrueTask 5 1000), (exampleEnvAt 1500, .revoke 5 40000 true),
   (exampleEnvAt 1600, .gas 5 ⟨10, 3, 0, 0⟩), (exampleEnvAt 1700, .bank (.send ⟨5, 6, ⟨2000, 0, 0, 0⟩⟩)), (exampleEnvAt 1800, .reward 6),
   (exampleEnvAt 1900, .tariff ⟨5, ⟨300, 0, 0, 0⟩⟩ [⟨7, ⟨100, 0, 0, 0⟩⟩, ⟨8, ⟨200, 0, 0, 0⟩⟩]), (exampleEnvAt 4500, .releaseTask 5)]

example : ∀ x ∈ exampleHistory, EnvOk x.1 ∧ x.2.Ok := by
  intro x hx
  simp only [exampleHistory, List.mem_cons, List.not_mem_nil, or_false] at hx
  rcases hx with rfl | rfl | rfl | rfl | rfl | rfl | rfl | rfl <;> exact ⟨(exampleEnv_ok _ (by decide) (by decide)).toEnvOk, trivial⟩

example : (history exampleHistory exampleStart).bank.supply = ⟨139838, 59700, 0, 0⟩ ∧
    (history exampleHistory exampleStart).bank.balances.entries =
      [(5, ⟨137185, 59697, 0, 0⟩), (6, ⟨2239, 3, 0, 0⟩), (7, ⟨124, 0, 0, 0⟩), (8, ⟨200, 0, 0, 0⟩), (9, ⟨90, 0, 0, 0⟩)] := by decide +kernel

/-- Gas fees can be paid in coins that are being revoked (`sendCoins` to the fee collector, of any denomination): then the frozen
balance no longer covers the account's requests.  C18 speaks of this module's operations and of transfers of the bank module, which
refuse such coins; gas fees are outside it. -/
theorem C18_gas_fee_breaks : ∃ (e : Delegating.Env) (s : Delegating.State) (c : Coins), Reachable 100 s ∧ EnvOk e ∧
    (balance ((Act.gas 5 c).run e s).bank 5).revoking < ((getRecord ((Act.gas 5 c).run e s) 5).requests.map Request.amount).sum :=
  ⟨exampleEnvAt 1600, exampleRun, ⟨0, 0, 1, 0⟩, exampleRun_reachable, (exampleEnv_ok _ (by decide) (by decide)).toEnvOk, by decide +kernel⟩

/-- A fee rate of two, which validation accepts (compare C03). -/
def doubleRate : Bank.Params := ⟨1000, 10, ⟨⟨2, 1⟩, 10000000, ⟨1, 2⟩, ⟨3, 10⟩⟩, 9, []⟩

/-- What the hypothesis on the fee rate is for: with an accepted rate above one an accrual in a begin-block task raises the supply,
then panics on the fee and is not rolled back, so the supply is higher than the sum of the balances from then on. -/
theorem C06_accepted_rate_breaks : ∃ (e1 e2 : Delegating.Env) (s : Delegating.State) (l : List Act), Sound s ∧ EnvOk e1 ∧ EnvOk e2 ∧
    validateFeeParams? doubleRate.fee = some true ∧
    s.bank.supply.main = s.bank.balances.sum (fun _ c => c.main) ∧
    l = [.bankParams doubleRate, .accrueTask 5 1000] ∧
    (history (l.map fun x => (e2, x)) s).bank.supply.main =
      (history (l.map fun x => (e2, x)) s).bank.balances.sum (fun _ c => c.main) + 997 := by
  have hs : Sound (M.tx (msgDelegate (exampleEnvAt 0) 5 100000) exampleStart) :=
    act_sound (x := .delegate 5 100000) (exampleEnv_ok 0 (by decide) (by decide)).toEnvOk trivial
      ⟨⟨exampleStart_ok.nonneg, exampleStart_ok.supply, ⟨exampleStart_ok.fee.1, exampleStart_ok.fee.2.1, exampleStart_ok.fee.2.2⟩⟩, exampleStart_ok.params⟩
  exact ⟨exampleEnvAt 0, exampleEnvAt 1000, _, _, hs, (exampleEnv_ok _ (by decide) (by decide)).toEnvOk,
    (exampleEnv_ok _ (by decide) (by decide)).toEnvOk, by decide +kernel, hs.core.supply .main, rfl, by decide +kernel⟩

end Verif.Chain
