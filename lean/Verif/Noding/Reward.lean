import Verif.Noding.Lottery
import Verif.Bank.Shift

/-! The money part of `PayProposerReward` and property C12. -/
namespace Verif.Noding
open Verif.Util Verif.Bank

/-- `SendCoinsFromModuleToAccount` of an amount of main coins unless it is zero, keeper/keeper.go:778-783, 790-799 (`sdk.NewCoin`
panics on a negative amount). -/
def sendMain (e : Bank.Env) (src dst : Addr) (x : Int) : M Bank.State Unit := do
  M.panicIf (decide (x < 0))
  if x = 0 then pure () else sendCoins e src dst (Coins.ofMain x)

/-- `BurnAccCoins` of an amount of main coins unless it is zero, keeper/keeper.go:809-820. -/
def burnMain (e : Bank.Env) (a : Addr) (x : Int) : M Bank.State Unit := do
  M.panicIf (decide (x < 0))
  if x = 0 then pure () else burnAccCoins e a (Coins.ofMain x)

/-- The plain fee pool goes to the proposer, keeper/keeper.go:762-767. -/
def payPlain (e : Bank.Env) (a : Addr) : M Bank.State Unit := do
  let b ← M.get
  if (balance b e.feeCollector).isEmpty then pure () else sendCoins e e.feeCollector a (balance b e.feeCollector)

/-- The splittable pool, keeper/keeper.go:768-822.  The company account is an address here; the code keeps its text form and
returns an error if that cannot be parsed (parameter validation parses it, x/bank/types/params.go). -/
def paySplit (e : Bank.Env) (a : Addr) : M Bank.State Unit := do
  let b ← M.get
  let pool := (balance b e.splitCollector).main
  let parts ← M.orPanic (splitFee? pool b.params.fee.forProposer b.params.fee.forCompany)
  let forProposer := if pool < parts.1 then pool else parts.1
  sendMain e e.splitCollector a forProposer
  let rest := pool - forProposer
  let forCompany := if rest < parts.2.1 then rest else parts.2.1
  sendMain e e.splitCollector b.params.companyAccount forCompany
  let rest := rest - forCompany
  let forBurning := if rest < parts.2.2 then rest else if rest > parts.2.2 then rest else parts.2.2
  burnMain e e.splitCollector forBurning

/-- Both payments, keeper/keeper.go:762-822. -/
def payReward (e : Bank.Env) (a : Addr) : M Bank.State Unit := do
  payPlain e a
  paySplit e a

/-- `PayProposerReward`, keeper/keeper.go:748-822: first the statistics and the queue, then the money. -/
def payProposerReward (en : Env) (eb : Bank.Env) (a : Addr) (s : State × Bank.State) : Res Unit × (State × Bank.State) :=
  match markProposed en s.1 a with
  | none => (.err, s)
  | some t => ((payReward eb a s.2).1, (t, (payReward eb a s.2).2))

/-- The first part of `BeginBlocker`, abci.go:13-20, 92-104: an error is logged and the block goes on; nothing is rolled back. -/
def rewardStep (en : Env) (eb : Bank.Env) (proposer : PubKey) (s : State × Bank.State) : Res Unit × (State × Bank.State) :=
  match findValidator s.1 proposer with
  | none => (.err, s)
  | some a => payProposerReward en eb a s

/-- The statistics part is the one used in `beginBlock`. -/
theorem rewardStep_noding (en : Env) (eb : Bank.Env) (k : PubKey) (s : State × Bank.State) :
    (rewardStep en eb k s).2.1 = creditProposer en k s.1 := by
  unfold rewardStep creditProposer
  cases findValidator s.1 k with
  | none => rfl
  | some a =>
    dsimp only
    unfold payProposerReward
    cases markProposed en s.1 a <;> rfl

/-! ### effects -/

theorem sendMain_spec {e : Bank.Env} (he : HooksOk e) {src dst : Addr} {x : Int} {s : Bank.State} (hn : NonNeg s) (h0 : 0 ≤ x)
    (hx : x ≤ (balance s src).main) : ∃ t, sendMain e src dst x s = (.ok (), t) ∧ NonNeg t ∧
      Shift (fun y d => (if y = src then - (Coins.ofMain x).amt d else 0) + (if y = dst then (Coins.ofMain x).amt d else 0))
        (fun _ => 0) (fun _ => 0) s t := by
  have hm : sendMain e src dst x s = (if x = 0 then pure () else sendCoins e src dst (Coins.ofMain x) : M Bank.State Unit) s := by
    unfold sendMain
    have : decide (x < 0) = false := by simpa using h0
    rw [this, M.bind_ok (M.panicIf_false s)]
  rw [hm]
  by_cases hz : x = 0
  · subst hz
    rw [if_pos rfl]
    refine ⟨s, rfl, hn, (Shift.refl s).congr ?_ (fun _ => rfl) (fun _ => rfl)⟩
    intro y d; simp [Coins.amt_ofMain]
  · rw [if_neg hz]
    have hok := (sendCoins_succeeds he (src := src) (dst := dst) (c := Coins.ofMain x) hn).2 (by
      intro d
      rw [Coins.amt_ofMain]
      split
      · next h => subst h; exact ⟨h0, hx⟩
      · exact ⟨le_refl _, hn src d⟩)
    obtain ⟨u, hu⟩ := Res.isOk_iff.1 hok
    have he2 : sendCoins e src dst (Coins.ofMain x) s = (.ok (), (sendCoins e src dst (Coins.ofMain x) s).2) := Prod.ext hu rfl
    have hp := sendCoins_nonneg e src dst (Coins.ofMain x) s hn
    exact ⟨_, he2, hp, (sendCoins_shift he2).1⟩

theorem burnMain_spec {e : Bank.Env} (he : HooksOk e) {a : Addr} {x : Int} {s : Bank.State} (hn : NonNeg s) (hs : SupplyEq s)
    (h0 : 0 ≤ x) (hx : x ≤ (balance s a).main) : ∃ t, burnMain e a x s = (.ok (), t) ∧ NonNeg t ∧
      Shift (fun y d => if y = a then - (Coins.ofMain x).amt d else 0) (fun d => - (Coins.ofMain x).amt d)
        (fun d => - (Coins.ofMain x).amt d) s t := by
  have hm : burnMain e a x s = (if x = 0 then pure () else burnAccCoins e a (Coins.ofMain x) : M Bank.State Unit) s := by
    unfold burnMain
    have : decide (x < 0) = false := by simpa using h0
    rw [this, M.bind_ok (M.panicIf_false s)]
  rw [hm]
  by_cases hz : x = 0
  · subst hz
    rw [if_pos rfl]
    refine ⟨s, rfl, hn, (Shift.refl s).congr ?_ ?_ ?_⟩ <;> intros <;> simp [Coins.amt_ofMain]
  · rw [if_neg hz]
    have hc : ∀ d, 0 ≤ (Coins.ofMain x).amt d := by intro d; rw [Coins.amt_ofMain]; split <;> omega
    have hb : ∀ d, (Coins.ofMain x).amt d ≤ (balance s a).amt d := by
      intro d
      rw [Coins.amt_ofMain]
      split
      · next h => subst h; exact hx
      · exact hn a d
    obtain ⟨s1, h1⟩ := subtractCoins_succ he hc hb
    obtain ⟨f1, -, -⟩ := subtractCoins_shift h1
    obtain ⟨s2, h2⟩ := deflate_succ (c := Coins.ofMain x) (s := s1) (by
      intro d
      rw [f1.supply]
      have := balance_le_total hn a d
      have h3 := hb d
      have h4 := hs d
      omega)
    have f2 := deflate_shift h2
    have h12 : burnAccCoins e a (Coins.ofMain x) s = (.ok (), s2) := by
      unfold burnAccCoins; rw [M.bind_ok h1]; exact h2
    have hp := burnAccCoins_nonneg e a (Coins.ofMain x) s hn
    rw [h12] at hp
    refine ⟨s2, h12, hp, (f1.trans f2).congr ?_ ?_ ?_⟩ <;> intros <;> simp

theorem payPlain_spec {e : Bank.Env} (he : HooksOk e) {a : Addr} {s : Bank.State} (hn : NonNeg s) :
    ∃ t, payPlain e a s = (.ok (), t) ∧ NonNeg t ∧
      Shift (fun y d => (if y = e.feeCollector then - (balance s e.feeCollector).amt d else 0) +
        (if y = a then (balance s e.feeCollector).amt d else 0)) (fun _ => 0) (fun _ => 0) s t := by
  have hm : payPlain e a s = (if (balance s e.feeCollector).isEmpty then pure () else
      sendCoins e e.feeCollector a (balance s e.feeCollector) : M Bank.State Unit) s := rfl
  rw [hm]
  split
  · next h =>
    rw [Coins.isEmpty_iff] at h
    refine ⟨s, rfl, hn, (Shift.refl s).congr ?_ (fun _ => rfl) (fun _ => rfl)⟩
    intro y d
    rw [h]
    cases d <;> simp [Coins.amt]
  · have hok := (sendCoins_succeeds he (src := e.feeCollector) (dst := a) (c := balance s e.feeCollector) hn).2
      (fun d => ⟨hn _ d, le_refl _⟩)
    obtain ⟨u, hu⟩ := Res.isOk_iff.1 hok
    have he2 : sendCoins e e.feeCollector a (balance s e.feeCollector) s =
        (.ok (), (sendCoins e e.feeCollector a (balance s e.feeCollector) s).2) := Prod.ext hu rfl
    exact ⟨_, he2, sendCoins_nonneg _ _ _ _ s hn, (sendCoins_shift he2).1⟩

/-- Effect of dividing the splittable pool, whichever accounts coincide. -/
theorem paySplit_spec {e : Bank.Env} (he : HooksOk e) {a : Addr} {s : Bank.State} (hn : NonNeg s) (hs : SupplyEq s)
    (hv : validateFeeParams? s.params.fee = some true) (h63 : (balance s e.splitCollector).main < 2 ^ 63) :
    ∃ t x y z, paySplit e a s = (.ok (), t) ∧ NonNeg t ∧
      x = ⌊s.params.fee.forProposer.toRat * (balance s e.splitCollector).main⌋ ∧
      y = ⌊s.params.fee.forCompany.toRat * (balance s e.splitCollector).main⌋ ∧
      0 ≤ x ∧ 0 ≤ y ∧ 0 ≤ z ∧ x + y + z = (balance s e.splitCollector).main ∧
      Shift (fun w d => (if w = e.splitCollector then - (Coins.ofMain (x + y + z)).amt d else 0) +
        (if w = a then (Coins.ofMain x).amt d else 0) + (if w = s.params.companyAccount then (Coins.ofMain y).amt d else 0))
        (fun d => - (Coins.ofMain z).amt d) (fun d => - (Coins.ofMain z).amt d) s t := by
  have hp0 : 0 ≤ (balance s e.splitCollector).main := hn e.splitCollector .main
  obtain ⟨x, y, c, hsplit, hx, hy, x0, y0, c0, hle, -⟩ := C04_split_never_creates s.params.fee _ hv hp0 h63
  generalize hpool : (balance s e.splitCollector).main = pool at *
  have e1 : (if pool < x then pool else x) = x := by rw [if_neg (by omega)]
  have e2 : (if pool - x < y then pool - x else y) = y := by rw [if_neg (by omega)]
  have e3 : (if pool - x - y < c then pool - x - y else if pool - x - y > c then pool - x - y else c) = pool - x - y := by
    split
    · rfl
    · split <;> omega
  have hrun : paySplit e a s = (sendMain e e.splitCollector a x >>= fun _ =>
      sendMain e e.splitCollector s.params.companyAccount y >>= fun _ => burnMain e e.splitCollector (pool - x - y)) s := by
    unfold paySplit
    rw [M.bind_ok (M.get_apply s)]
    dsimp only
    rw [hpool, hsplit, M.bind_ok (M.orPanic_some _ _)]
    dsimp only
    rw [e1, e2, e3]
  obtain ⟨s1, h1, n1, f1⟩ := sendMain_spec he (src := e.splitCollector) (dst := a) (x := x) hn x0 (by omega)
  have b1 : pool - x ≤ (balance s1 e.splitCollector).main := by
    have := f1.bal e.splitCollector .main
    simp only [Coins.amt, Coins.ofMain, hpool] at this
    rw [this]
    simp only [if_true]
    split <;> omega
  obtain ⟨s2, h2, n2, f2⟩ := sendMain_spec he (src := e.splitCollector) (dst := s.params.companyAccount) (x := y) n1 y0 (by omega)
  have b2 : pool - x - y ≤ (balance s2 e.splitCollector).main := by
    have := f2.bal e.splitCollector .main
    simp only [Coins.amt, Coins.ofMain] at this
    rw [this]
    simp only [if_true]
    split <;> omega
  have q2 : SupplyEq s2 := (f1.trans f2).congr (d2 := fun w d => _) (fun _ _ => rfl) (u2 := fun _ => 0) (t2 := fun _ => 0) (by simp) (by simp)
    |>.supplyEq hs
  obtain ⟨s3, h3, n3, f3⟩ := burnMain_spec he (a := e.splitCollector) (x := pool - x - y) n2 q2 (by omega) b2
  refine ⟨s3, x, y, pool - x - y, ?_, n3, hx, hy, x0, y0, by omega, by omega, ?_⟩
  · rw [hrun, M.bind_ok h1, M.bind_ok h2]; exact h3
  · refine ((f1.trans f2).trans f3).congr ?_ ?_ ?_
    · intro w d
      simp only [Coins.amt_ofMain]
      by_cases hd : d = .main
      · simp only [hd, if_true]
        split <;> omega
      · simp [hd]
    · intro d; simp
    · intro d; simp

/-! ### C12 -/

/-- C12: when the proposer is a registered validator the reward step succeeds, leaves the plain pool empty and no main coins (the
only kind that gets there) in the splittable pool.  The proposer gets the whole plain pool, of the splittable pool the proposer and
the company get their ratios rounded down and the rest is burned; nobody else's balance changes and the supply falls by exactly
the burned part. -/
theorem C12 (en : Env) (eb : Bank.Env) (he : HooksOk eb) (k : PubKey) (a : Addr) (s : State × Bank.State)
    (hk : s.1.operators.get k = some a) (hr : ∃ i, s.1.records.get a = some i ∧ (i.isActive = true → i.pubKey ≠ 0))
    (hn : ∀ x d, 0 ≤ (balance s.2 x).amt d) (hs : ∀ d, s.2.supply.amt d = s.2.balances.sum (fun _ c => c.amt d))
    (hv : validateFeeParams? s.2.params.fee = some true) (h63 : (balance s.2 eb.splitCollector).main < 2 ^ 63)
    (hpools : eb.feeCollector ≠ eb.splitCollector) (ha : a ≠ eb.feeCollector ∧ a ≠ eb.splitCollector)
    (hc : s.2.params.companyAccount ≠ eb.feeCollector ∧ s.2.params.companyAccount ≠ eb.splitCollector) :
    ∃ t forProposer forCompany burned, rewardStep en eb k s = (.ok (), t) ∧
      forProposer = ⌊s.2.params.fee.forProposer.toRat * (balance s.2 eb.splitCollector).main⌋ ∧
      forCompany = ⌊s.2.params.fee.forCompany.toRat * (balance s.2 eb.splitCollector).main⌋ ∧
      0 ≤ forProposer ∧ 0 ≤ forCompany ∧ 0 ≤ burned ∧
      forProposer + forCompany + burned = (balance s.2 eb.splitCollector).main ∧
      (∀ d, (balance t.2 eb.feeCollector).amt d = 0) ∧
      (balance t.2 eb.splitCollector).main = 0 ∧
      (∀ d, d ≠ .main → (balance t.2 eb.splitCollector).amt d = (balance s.2 eb.splitCollector).amt d) ∧
      (∀ x, x ≠ eb.feeCollector → x ≠ eb.splitCollector → ∀ d, (balance t.2 x).amt d = (balance s.2 x).amt d +
        (if x = a then (balance s.2 eb.feeCollector).amt d + (if d = .main then forProposer else 0) else 0) +
        (if x = s.2.params.companyAccount then (if d = .main then forCompany else 0) else 0)) ∧
      (∀ d, t.2.supply.amt d = s.2.supply.amt d - if d = .main then burned else 0) ∧
      (∀ d, t.2.supply.amt d = t.2.balances.sum (fun _ c => c.amt d)) ∧ t.2.params = s.2.params := by
  obtain ⟨i, hi, hkey⟩ := hr
  obtain ⟨b1, h1, n1, f1⟩ := payPlain_spec he (a := a) (s := s.2) hn
  have hpool : balance b1 eb.splitCollector = balance s.2 eb.splitCollector := by
    have : ∀ d, (balance b1 eb.splitCollector).amt d = (balance s.2 eb.splitCollector).amt d := by
      intro d
      rw [f1.bal, if_neg (Ne.symm hpools), if_neg (Ne.symm ha.2)]; omega
    have h2 := this .main; have h3 := this .delegated; have h4 := this .revoking; have h5 := this .other
    simp only [Coins.amt] at h2 h3 h4 h5
    revert h2 h3 h4 h5
    cases balance b1 eb.splitCollector; cases balance s.2 eb.splitCollector
    simp only
    rintro rfl rfl rfl rfl; rfl
  obtain ⟨b2, x, y, z, h2, n2, hx, hy, x0, y0, z0, hsum, f2⟩ := paySplit_spec he (a := a) n1 (f1.supplyEq hs)
    (by rw [f1.params]; exact hv) (by rw [hpool]; exact h63)
  rw [hpool, f1.params] at hx hy
  rw [hpool] at hsum
  have hpay : payReward eb a s.2 = (.ok (), b2) := by unfold payReward; rw [M.bind_ok h1]; exact h2
  obtain ⟨n1', hu⟩ : ∃ n', markProposed en s.1 a = some n' := ⟨_, update_eq.2 ⟨i, hi, rfl⟩⟩
  have hfind : findValidator s.1 k = some a := by
    unfold findValidator validatorByKey
    simp only [hk, hi]
    by_cases h : i.isActive = true
    · rw [if_pos h, if_neg (hkey h)]; rfl
    · rw [if_neg h]; rfl
  have hstep : rewardStep en eb k s = (.ok (), (n1', b2)) := by
    unfold rewardStep
    rw [hfind]
    dsimp only
    unfold payProposerReward
    rw [hu, hpay]
  have f := f1.trans f2
  refine ⟨_, x, y, z, hstep, hx, hy, x0, y0, z0, hsum, ?_, ?_, ?_, ?_, ?_, ?_, f.params⟩
  · intro d
    show (balance b2 eb.feeCollector).amt d = 0
    rw [f.bal, f1.params]
    rw [if_pos rfl, if_neg ha.1.symm, if_neg hpools, if_neg hc.1.symm, if_neg ha.1.symm]; omega
  · have := f.bal eb.splitCollector .main
    rw [f1.params, if_neg hpools.symm, if_neg ha.2.symm, if_pos rfl, if_neg hc.2.symm, if_neg ha.2.symm] at this
    simp only [Coins.amt, Coins.ofMain] at this
    show (balance b2 eb.splitCollector).main = 0
    omega
  · intro d hd
    have := f.bal eb.splitCollector d
    rw [f1.params, if_neg hpools.symm, if_neg ha.2.symm, if_pos rfl, if_neg hc.2.symm, if_neg ha.2.symm, Coins.amt_ofMain, if_neg hd] at this
    show (balance b2 eb.splitCollector).amt d = _
    omega
  · intro w h3 h4 d
    have := f.bal w d
    rw [f1.params, if_neg h3, if_neg h4] at this
    simp only [Coins.amt_ofMain] at this
    show (balance b2 w).amt d = _
    rw [this]
    split <;> split <;> omega
  · intro d
    have := f.supply d
    rw [Coins.amt_ofMain] at this
    show b2.supply.amt d = _
    rw [this]; omega
  · exact (f.congr (d2 := fun w d => _) (fun _ _ => rfl) (u2 := fun d => - (Coins.ofMain z).amt d) (t2 := fun d => - (Coins.ofMain z).amt d)
      (by simp) (by simp)).supplyEq hs

/-- The proposer 5 with a company account 9, 7 coins in the plain pool (and 2 of another kind) and 101 in the splittable one, halves
and three tenths: 50 and 30 are paid, 21 burned. -/
example : ∃ t, rewardStep (Ex.env 4) ⟨fun _ _ => .ok (), fun _ => true, fun _ => false, 1, 2⟩ 71
      ((Op.switchOn 5 71).run (Ex.env 3) (Ex.start 3 0), ⟨((KV.empty.set 1 ⟨7, 0, 0, 2⟩).set 2 ⟨101, 0, 0, 0⟩).set 5 ⟨1000, 3, 0, 0⟩, ⟨1108, 3, 0, 2⟩,
        ⟨1000, 10, ⟨⟨3, 1000⟩, 10000000, ⟨1, 2⟩, ⟨3, 10⟩⟩, 9, []⟩⟩) = (.ok (), t) ∧
    t.2.balances.entries = [(5, ⟨1057, 3, 0, 2⟩), (9, ⟨30, 0, 0, 0⟩)] ∧ t.2.supply = ⟨1087, 3, 0, 2⟩ := by
  refine ⟨_, Prod.ext (by decide +kernel) rfl, by decide +kernel, by decide +kernel⟩

/-- A company account that is itself the splittable pool keeps its share in the pool: the hypothesis on the company account in C12
is needed. -/
theorem C12_company_is_pool : ∃ (en : Env) (eb : Bank.Env) (s : State × Bank.State), HooksOk eb ∧
    validateFeeParams? s.2.params.fee = some true ∧ (rewardStep en eb 71 s).1 = .ok () ∧
    (balance (rewardStep en eb 71 s).2.2 eb.splitCollector).main = 30 := by
  refine ⟨Ex.env 4, ⟨fun _ _ => .ok (), fun _ => true, fun _ => false, 1, 2⟩,
    ((Op.switchOn 5 71).run (Ex.env 3) (Ex.start 3 0), ⟨KV.empty.set 2 ⟨101, 0, 0, 0⟩, ⟨101, 0, 0, 0⟩,
      ⟨1000, 10, ⟨⟨3, 1000⟩, 10000000, ⟨1, 2⟩, ⟨3, 10⟩⟩, 2, []⟩⟩), fun _ _ => rfl, by decide +kernel, by decide +kernel, by decide +kernel⟩

end Verif.Noding
