import Verif.Bank.Spare
import Verif.Chain.Money

/-! Property C100, first part: whose coins an action can take (bank, delegating and noding modules; payments of other modules). -/
namespace Verif.Chain
open Verif.Util Verif.Bank
open Verif.Delegating hiding Addr

/-- Where the bank is. -/
abbrev bankOf : Delegating.State → Bank.State := Delegating.State.bank

variable {W : Addr → Denom → Prop}

theorem onBank_harmless {α : Type} {m : M Bank.State α} (h : Harmless id W m) : Harmless bankOf W (onBank m) := fun s => h s.bank

theorem mustBank_harmless {m : M Bank.State Unit} (h : Harmless id W m) : Harmless bankOf W (mustBank m) := fun s => h s.bank

theorem onSched_harmless (r : Schedule.Req) : Harmless bankOf W (onSched r) := by
  refine .of_same fun s => ?_
  unfold onSched
  cases r.exec? s.sched <;> rfl

theorem convert_harmless (e : Delegating.Env) {a : Addr} {minus : Coins} (h : ∀ d, minus.amt d ≠ 0 → W a d) (plus : Coins) :
    Harmless bankOf W (convert e a minus plus) :=
  .bind (.panicIf _) fun _ => .bind (onBank_harmless (subtractCoins_harmless _ h)) fun _ => .bind (.panicIf _) fun _ =>
    .bind (onBank_harmless (addCoins_harmless _ _ _)) fun _ => .bind (onBank_harmless (deflate_harmless _)) fun _ =>
    onBank_harmless (inflate_harmless _)

theorem ofDelegated_only {x : Int} {a : Addr} (h : W a .delegated) : ∀ d, (Coins.ofDelegated x).amt d ≠ 0 → W a d := by
  intro d hd
  cases d with
  | delegated => exact h
  | _ => exact absurd rfl hd

theorem ofRevoking_only {x : Int} {a : Addr} (h : W a .revoking) : ∀ d, (Coins.ofRevoking x).amt d ≠ 0 → W a d := by
  intro d hd
  cases d with
  | revoking => exact h
  | _ => exact absurd rfl hd

theorem delegate_harmless (e : Delegating.Env) {a : Addr} (h : W a .main) (u : Int) : Harmless bankOf W (delegate e a u) := by
  unfold delegate
  split
  · exact .pure _
  · exact convert_harmless e (ofMain_only h) _

theorem freeze_harmless (e : Delegating.Env) {a : Addr} (h : W a .delegated) (u v : Int) : Harmless bankOf W (freeze e a u v) := by
  unfold freeze
  split
  · exact .pure _
  · exact convert_harmless e (ofDelegated_only h) _

theorem undelegate_harmless (e : Delegating.Env) {a : Addr} (h : W a .revoking) (u : Int) : Harmless bankOf W (undelegate e a u) := by
  unfold undelegate
  split
  · exact .pure _
  · exact convert_harmless e (ofRevoking_only h) _

theorem accrue_harmless (e : Delegating.Env) (a : Addr) (u : Int) : Harmless bankOf W (accrue e a u) := by
  unfold accrue
  split
  · exact .pure _
  · split
    · exact .pure _
    · refine .bind (.panicIf _) fun _ => .bind (onBank_harmless (inflate_harmless _)) fun _ => .bind .get fun _ => .bind (.orPanic _) fun _ => ?_
      split
      · exact mustBank_harmless (addCoins_harmless _ _ _)
      · exact .bind (.panicIf _) fun _ => .bind (.panicIf _) fun _ => .bind (mustBank_harmless (addCoins_harmless _ _ _)) fun _ =>
          mustBank_harmless (addCoins_harmless _ _ _)

theorem accrueToValidator_harmless (e : Delegating.Env) (a : Addr) (u : Int) : Harmless bankOf W (accrueToValidator e a u) := by
  unfold accrueToValidator
  split
  · exact .pure _
  · split
    · exact .pure _
    · refine .bind (.orPanic _) fun _ => .bind (.orPanic _) fun q => ?_
      obtain ⟨outs, total⟩ := q
      dsimp only
      split
      · exact .pure _
      · exact .bind (.forEach fun _ _ => mustBank_harmless (addCoins_harmless _ _ _)) fun _ => .bind (.panicIf _) fun _ =>
          onBank_harmless (inflate_harmless _)

theorem accruePart_harmless (e : Delegating.Env) (a : Addr) (item : Record) (n : Int) : Harmless bankOf W (accruePart e a item n) := by
  unfold accruePart
  split
  · exact .pure _
  · refine .bind .get fun _ => .bind (.orPanic _) fun _ => .bind ?_ fun _ => .bind (onSched_harmless _) fun _ => .pure _
    unfold payInterest
    split
    · exact .bind (accrue_harmless e a _) fun _ => accrueToValidator_harmless e a _
    · exact .pure _

theorem planAccrue_harmless (e : Delegating.Env) (a : Addr) (d : Int) (item : Record) : Harmless bankOf W (planAccrue e a d item) := by
  refine .bind .get fun _ => .bind (.orPanic _) fun _ => ?_
  split
  · exact .pure _
  · exact .bind (onSched_harmless _) fun _ => .pure _

theorem revoke_harmless (e : Delegating.Env) {a : Addr} (h : W a .delegated) (u : Int) (x : Bool) : Harmless bankOf W (revoke e a u x) := by
  unfold revoke
  split
  · exact .pure _
  · exact .bind .get fun _ => .bind (.errIf _) fun _ => .bind (accruePart_harmless e a _ _) fun _ => .bind (.orPanic _) fun _ =>
      .bind (freeze_harmless e h _ _) fun _ => .bind (planAccrue_harmless e a _ _) fun _ => .bind (.modify fun _ => rfl) fun _ =>
      onSched_harmless _

theorem delegateMsg_harmless (e : Delegating.Env) {a : Addr} (h : W a .main) (u : Int) : Harmless bankOf W (delegateMsg e a u) :=
  .bind .get fun _ => .bind (.errIf _) fun _ => .bind (.panicIf _) fun _ => .bind (onBank_harmless (payTxFee_harmless _ h _)) fun _ =>
    .bind .get fun _ => .bind (accruePart_harmless e a _ _) fun _ => .bind (delegate_harmless e h _) fun _ => .bind .get fun _ =>
    .bind (planAccrue_harmless e a _ _) fun _ => .modify fun _ => rfl

theorem payDue_harmless (e : Delegating.Env) {a : Addr} (h : W a .revoking) (l : List Request) : Harmless bankOf W (payDue e a l) := by
  induction l with
  | nil => exact .pure _
  | cons r l ih =>
    rw [payDue]
    split
    · exact .pure _
    · exact .bind (undelegate_harmless e h _) fun _ => ih

theorem performRevoking_harmless (e : Delegating.Env) {a : Addr} (h : W a .revoking) : Harmless bankOf W (performRevoking e a) := by
  refine .bind .get fun s => ?_
  split
  · exact .pure _
  · dsimp only
    refine .bind (payDue_harmless e h _) fun _ => ?_
    split
    · exact .pure _
    · exact .modify fun _ => rfl

theorem performAccrue_harmless (e : Delegating.Env) (a : Addr) (t : Int) : Harmless bankOf W (performAccrue e a t) := by
  refine .bind .get fun s => .bind (.panicIf _) fun _ => .bind (.orPanic _) fun _ => .bind (.orPanic _) fun _ => ?_
  split
  · exact .modify fun _ => rfl
  · exact .bind (.orPanic _) fun _ => .bind (accrue_harmless e a _) fun _ => .bind (accrueToValidator_harmless e a _) fun _ =>
      .bind (onSched_harmless _) fun _ => .modify fun _ => rfl

theorem onBanished_harmless (e : Delegating.Env) {a : Addr} (h : W a .delegated) : Harmless bankOf W (onBanished e a) := by
  refine .bind .get fun s => ?_
  dsimp only
  split
  · exact .pure _
  · exact revoke_harmless e h _ _

theorem sendMain_harmless (e : Bank.Env) {a : Addr} (h : W a .main) (b : Addr) (x : Int) : Harmless id W (Noding.sendMain e a b x) := by
  refine .bind (.panicIf _) fun _ => ?_
  split
  · exact .pure _
  · exact sendCoins_harmless e (ofMain_only h) _

theorem burnMain_harmless (e : Bank.Env) {a : Addr} (h : W a .main) (x : Int) : Harmless id W (Noding.burnMain e a x) := by
  refine .bind (.panicIf _) fun _ => ?_
  split
  · exact .pure _
  · exact burnAccCoins_harmless e (ofMain_only h)

theorem payReward_harmless (e : Bank.Env) (a : Addr) (hf : ∀ d, W e.feeCollector d) (hs : W e.splitCollector .main) :
    Harmless id W (Noding.payReward e a) := by
  refine .bind (.bind .get fun b => ?_) fun _ => .bind .get fun b => ?_
  · split
    · exact .pure _
    · exact sendCoins_harmless e (fun d _ => hf d) _
  · exact .bind (.orPanic _) fun p => .bind (sendMain_harmless e hs _ _) fun _ => .bind (sendMain_harmless e hs _ _) fun _ =>
      burnMain_harmless e hs _

/-! ### C100 -/

/-- Which coins an action may take, and from whom: a payment takes the main coins (a multi-party payment and a gas fee: the coins named)
of the one who makes it, a delegation takes main coins, a revocation and a banishment take delegated coins, the end of a revocation
takes coins being revoked, the proposer's reward takes the collected fees.  Interest takes nothing. -/
inductive Takes (e : Delegating.Env) : Act → Addr → Denom → Prop
  | send (m) : Takes e (.bank (.send m)) m.src .main
  | burn (a n) : Takes e (.bank (.burn a n)) a .main
  | multi (i : InOut) (ins outs d) : i ∈ ins → i.coins.amt d ≠ 0 → Takes e (.bank (.multi ins outs)) i.addr d
  | payFee (a c) : Takes e (.bank (.payFee a c)) a .main
  | burnModule (a b) (c : Coins) (d) : c.amt d ≠ 0 → Takes e (.bank (.burnModule a b c)) a d
  | gas (a) (c : Coins) (d) : c.amt d ≠ 0 → Takes e (.gas a c) a d
  | delegate (a u) : Takes e (.delegate a u) a .main
  | revoke (a u x) : Takes e (.revoke a u x) a .delegated
  | release (a) : Takes e (.releaseTask a) a .revoking
  | banished (a) : Takes e (.banished a) a .delegated
  | reward (a d) : Takes e (.reward a) e.bank.feeCollector d
  | rewardSplit (a) : Takes e (.reward a) e.bank.splitCollector .main
  | pay (x y) (c : Coins) (d) : c.amt d ≠ 0 → Takes e (.pay x y c) x d
  | fee (x c) : Takes e (.fee x c) x .main
  | tariff (i : InOut) (outs d) : i.coins.amt d ≠ 0 → Takes e (.tariff i outs) i.addr d

/-- C100: whatever an action does – succeed, be rolled back, fail half-way inside a begin-block task that is not rolled back –, in
whatever state and with whatever hooks: nobody has fewer coins of any kind afterwards but those the action takes from. -/
theorem C100_nobody_else (e : Delegating.Env) (x : Act) (s : Delegating.State) (a : Addr) (d : Denom) (h : ¬ Takes e x a d) :
    (balance s.bank a).amt d ≤ (balance (x.run e s).bank a).amt d := by
  suffices Unharmed (Takes e x) s.bank (x.run e s).bank from this a d h
  clear h
  cases x with
  | bank op =>
    refine Harmless.tx (π := id) (m := op.run e.bank) ?_ s.bank
    cases op with
    | send m => exact send_harmless _ m (.send m)
    | burn a n => exact burn_harmless _ (.burn a n) n
    | multi i o => exact inputOutputCoins_harmless _ (fun x hx d hd => .multi x i o d hx hd) o
    | payFee a c => exact .bind (payTxFee_harmless _ (.payFee a c) c) fun _ => .pure _
    | mint a mi c => exact mintCoins_harmless _ a mi c
    | burnModule a bu c => exact burnCoins_harmless _ (fun d hd => .burnModule a bu c d hd) bu
  | gas a c => exact (sendCoins_harmless e.bank (fun d hd => .gas a c d hd) _).tx s.bank
  | delegate a u => exact (Harmless.bind (.errIf _) fun _ => delegateMsg_harmless e (.delegate a u) u).tx s
  | revoke a u x => exact (Harmless.bind (.errIf _) fun _ => revoke_harmless e (.revoke a u x) u x).tx s
  | releaseTask a => exact performRevoking_harmless e (.release a) s
  | accrueTask a time => exact performAccrue_harmless e a time s
  | banished a => exact onBanished_harmless e (.banished a) s
  | reward a => exact payReward_harmless e.bank a (fun d => .reward a d) (.rewardSplit a) s.bank
  | pay x y c => exact sendCoins_harmless e.bank (fun d hd => .pay x y c d hd) y s.bank
  | fee x c => exact payTxFee_harmless e.bank (.fee x c) c s.bank
  | tariff i outs =>
    refine inputOutputCoins_harmless e.bank (ins := [i]) (fun x hx d hd => ?_) outs s.bank
    obtain rfl := List.mem_singleton.1 hx
    exact .tariff x outs d hd
  | bankParams p => exact .refl _ _
  | params p => exact .refl _ _
  | sched f => exact .refl _ _

/-- C100: over a whole history, the coins of a kind that nothing took from an account are all still there. -/
theorem C100_history (l : List (Delegating.Env × Act)) (s : Delegating.State) (a : Addr) (d : Denom) (h : ∀ x ∈ l, ¬ Takes x.1 x.2 a d) :
    (balance s.bank a).amt d ≤ (balance (history l s).bank a).amt d := by
  induction l generalizing s with
  | nil => exact Int.le_refl _
  | cons x l ih =>
    exact Int.le_trans (C100_nobody_else x.1 x.2 s a d (h x (by simp))) (ih (x.2.run x.1 s) fun y hy => h y (by simp [hy]))

/-- Main coins and coins being revoked of an account. -/
def liquid (s : Delegating.State) (a : Addr) : Int := (balance s.bank a).main + (balance s.bank a).revoking

theorem undelegate_liquid {e : Delegating.Env} (he : EnvOk e) (a : Addr) (u K : Int) :
    M.Preserves (fun s => Sound s ∧ liquid s a = K) (undelegate e a u) := by
  unfold undelegate
  split
  · exact .pure _
  intro s ⟨hs, hk⟩
  have hv : (∀ d, 0 ≤ (Coins.ofRevoking u).amt d) → ∀ d, 0 ≤ (Coins.ofMain u).amt d := by
    intro h d
    have := h .revoking
    cases d <;> simp_all [Coins.amt_ofRevoking, Coins.amt_ofMain]
  refine ⟨convert_pres he.hooks a hv s hs, ?_⟩
  by_cases h : (∀ d, 0 ≤ (Coins.ofRevoking u).amt d) ∧ ∀ d, (Coins.ofRevoking u).amt d ≤ (balance s.bank a).amt d
  swap
  · rw [(convert_refused h).2]; exact hk
  obtain ⟨t, ht⟩ := convert_succ he.hooks (plus := Coins.ofMain u) hs.core.nonneg hs.core.supply h.1 (hv h.1) h.2
  obtain ⟨sh, -, -, -, -⟩ := convert_ok ht
  rw [ht]
  have h1 := sh.bal a .main
  have h2 := sh.bal a .revoking
  simp only [if_true, Coins.amt_ofRevoking, Coins.amt_ofMain, reduceCtorEq, if_false] at h1 h2
  unfold liquid at hk ⊢
  simp only [Coins.amt] at h1 h2 ⊢
  omega

theorem payDue_liquid {e : Delegating.Env} (he : EnvOk e) (a : Addr) (K : Int) (l : List Request) :
    M.Preserves (fun s => Sound s ∧ liquid s a = K) (payDue e a l) := by
  induction l with
  | nil => exact .pure _
  | cons r l ih =>
    rw [payDue]
    split
    · exact .pure _
    · exact .bind (undelegate_liquid he a _ K) fun _ => ih

/-- C100: what the end of a revocation takes from the coins being revoked it adds to the main coins of the same account – even if the
task fails half-way. -/
theorem C100_release_exact {e : Delegating.Env} (he : EnvOk e) {s : Delegating.State} (hs : Sound s) (a : Addr) :
    (balance ((Act.releaseTask a).run e s).bank a).main + (balance ((Act.releaseTask a).run e s).bank a).revoking =
      (balance s.bank a).main + (balance s.bank a).revoking := by
  have : M.Preserves (fun t => Sound t ∧ liquid t a = liquid s a) (performRevoking e a) := by
    refine .bind .get fun s => ?_
    split
    · exact .pure _
    · dsimp only
      refine .bind (payDue_liquid he a _ _) fun _ => ?_
      split
      · exact .pure _
      · exact fun t ht => ⟨setRecords_pres _ t ht.1, ht.2⟩
  exact (this s ⟨hs, rfl⟩).2

/-- C100: a concrete history with delegation, interest, revocation, fees, a transfer and a reward in which nothing takes the main coins
of account 6, and at whose end the coins being revoked become main coins. -/
theorem C100_history_example : (∀ x ∈ exampleHistory, ¬ Takes x.1 x.2 6 .main) ∧
    (balance (history exampleHistory exampleStart).bank 6).main = 2239 ∧
    (balance (history (exampleHistory.take 7) exampleStart).bank 5).revoking = 38000 ∧
    (balance (history exampleHistory exampleStart).bank 5).revoking = 0 := by
  refine ⟨?_, by decide +kernel, by decide +kernel, by decide +kernel⟩
  intro x hx
  simp only [exampleHistory, List.mem_cons, List.not_mem_nil, or_false] at hx
  rcases hx with rfl | rfl | rfl | rfl | rfl | rfl | rfl | rfl <;> intro h <;> cases h

end Verif.Chain
