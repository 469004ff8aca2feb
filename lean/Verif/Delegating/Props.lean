import Verif.Delegating.Chain

/-! Properties C18–C22: delegation, revocation, interest. -/
namespace Verif.Delegating
open Verif.Util Verif.Bank

/-! ### Executions -/

/-- Executions: any number of steps, each in its own environment (block time, flags, beneficiaries, hooks …) satisfying
`Limits` and `Q`. -/
inductive Steps (P : Int) (Q : Env → Prop) : State → State → Prop
  | refl (s : State) : Steps P Q s s
  | step {s t u : State} {e : Env} : Steps P Q s t → Limits P e → Q e → Step P e t u → Steps P Q s u

/-- A start of the chain without open revocations: money consistent, accepted parameters. -/
structure Start (P : Int) (s : State) : Prop where
  nonneg : ∀ a d, 0 ≤ (balance s.bank a).amt d
  supply : ∀ d, s.bank.supply.amt d = s.bank.balances.sum (fun _ c => c.amt d)
  fee : validateFeeParams? s.bank.params.fee = some true ∧ s.bank.params.fee.rate.denom ≠ 0 ∧ s.bank.params.fee.rate.toRat ≤ 1
  params : s.params.validate? = some true
  period : s.params.revoke.period ≤ P
  sched : s.sched = Schedule.State.empty
  records : s.records = KV.empty
  revoking : ∀ a, (balance s.bank a).revoking = 0

theorem Start.good {P : Int} {s : State} (h : Start P s) : Good P s := by
  have hr : ∀ a, reqs s a = [] := by intro a; simp [reqs, getRecord, h.records]
  refine ⟨⟨⟨h.nonneg, h.supply, h.fee.1, h.fee.2.1, h.fee.2.2⟩, h.params, h.period, by rw [h.sched]; exact .empty, ?_, ?_⟩, ?_⟩
  · intro a; rw [hr, h.revoking]; rfl
  · intro a r hh; rw [hr] at hh; cases hh
  · intro a r hh; rw [hr] at hh; cases hh

theorem Steps.good {P : Int} {Q : Env → Prop} {s t : State} (hg : Good P s) (h : Steps P Q s t) : Good P t := by
  induction h with
  | refl => exact hg
  | step _ he _ hs ih => exact (hs.evolves he ih).1

/-- Reachable states. -/
def Reachable (P : Int) (t : State) : Prop := ∃ s, Start P s ∧ Steps P (fun _ => True) s t

theorem Reachable.good {P : Int} {t : State} (h : Reachable P t) : Good P t := by
  obtain ⟨s, h1, h2⟩ := h
  exact h2.good h1.good

/-! ### C18 -/

/-- C18: in every reachable state the coins being revoked are the sum of the open requests. -/
theorem C18_revoking_matches_requests (P : Int) (s : State) (h : Reachable P s) (a : Addr) :
    (balance s.bank a).revoking = ((getRecord s a).requests.map Request.amount).sum :=
  h.good.ledger a

/-- C18: … and it stays so from any state in which it is so and every request has its task (for instance one imported
by a genesis file), together with the money invariants. -/
theorem C18_invariant (P : Int) (Q : Env → Prop) (s t : State) (hg : Good P s) (h : Steps P Q s t) :
    (∀ a, (balance t.bank a).revoking = ((getRecord t a).requests.map Request.amount).sum) ∧
    (∀ a, ∀ r ∈ (getRecord t a).requests, 0 ≤ r.amount) ∧
    (∀ a d, 0 ≤ (balance t.bank a).amt d) ∧
    (∀ d, t.bank.supply.amt d = t.bank.balances.sum (fun _ c => c.amt d)) :=
  let g := h.good hg
  ⟨g.ledger, g.amounts, g.core.nonneg, g.core.supply⟩

/-! ### C22 -/

/-- The effect of paying interest `i` for the account `a` and the validator bonuses computed from `j`: the account gets
the interest less the fee, the fee pool the fee, every beneficiary `⌊ratio / 30 · j⌋`, and the supply grows by exactly
what was credited. -/
structure Paid (e : Env) (a : Addr) (i j : Int) (s t : State) : Prop where
  paid : ∃ (fee : Int) (outs : List (Addr × Int)), 0 ≤ fee ∧ fee ≤ i ∧
    (0 < i → calculateFee? i s.bank.params.fee.rate s.bank.params.fee.maxFee s.bank.params.fee.forProposer
      s.bank.params.fee.forCompany = some fee) ∧
    (0 < j → ∃ l, e.fees a = some l ∧
      outs = (l.map (fun x => (x.1, ⌊x.2.toRat / 30 * (j : ℚ)⌋))).filter (fun x => decide (x.2 ≠ 0))) ∧
    (j ≤ 0 → outs = []) ∧ (∀ o ∈ outs, 0 < o.2) ∧
    (∀ x, (balance t.bank x).main = (balance s.bank x).main + (if x = a then i - fee else 0)
      + (if x = e.bank.splitCollector then fee else 0) + (outs.map (fun o => if x = o.1 then o.2 else 0)).sum) ∧
    t.bank.supply.main = s.bank.supply.main + i + (outs.map Prod.snd).sum
  rest : ∀ x, (balance t.bank x).delegated = (balance s.bank x).delegated ∧
    (balance t.bank x).revoking = (balance s.bank x).revoking ∧ (balance t.bank x).other = (balance s.bank x).other
  supply : t.bank.supply.delegated = s.bank.supply.delegated ∧ t.bank.supply.revoking = s.bank.supply.revoking ∧
    t.bank.supply.other = s.bank.supply.other
  same : t = { s with bank := t.bank }

theorem pay_exact {e : Env} (he : EnvOk e) {a : Addr} {i j : Int} {s s1 t : State} (hc : Core s) (hi : 0 ≤ i)
    (hi2 : i < 2 ^ 63) (hj : -(2 ^ 63) ≤ j ∧ j < 2 ^ 63) {p : Bool} (hp : e.profile a = some p) {w v : Unit}
    (h1 : accrue e a i s = (.ok w, s1)) (h2 : accrueToValidator e a j s1 = (.ok v, t)) : Paid e a i j s t := by
  obtain ⟨s1', fee, k1, k2, f0, f1, k3, sh1⟩ := accrue_spec he.hooks hc.nonneg hc.fee hi hi2 hp
  rw [k1] at h1
  simp only [Prod.mk.injEq, true_and] at h1
  obtain ⟨-, rfl⟩ := h1
  have hfee : 0 < i → calculateFee? i s.bank.params.fee.rate s.bank.params.fee.maxFee s.bank.params.fee.forProposer
      s.bank.params.fee.forCompany = some fee := by
    intro hpos
    rcases k3 with ⟨h, -⟩ | h
    · omega
    · exact h
  have n1 : NonNeg s1.bank := hc.nonneg.shift sh1 (fun x d => by
    have := onMain_nonneg (show 0 ≤ i - fee by omega) d
    have := onMain_nonneg f0 d
    split_ifs <;> omega)
  have key : ∃ outs : List (Addr × Int), (0 < j → ∃ l, e.fees a = some l ∧ outs = dueShares j l) ∧ (j ≤ 0 → outs = []) ∧
      (∀ o ∈ outs, 0 < o.2) ∧ t = { s1 with bank := t.bank } ∧
      Shift (fun x d => onMain (received outs x) d) (onMain (outs.map Prod.snd).sum) (onMain (outs.map Prod.snd).sum)
        s1.bank t.bank := by
    by_cases hj0 : j ≤ 0
    · have ht : t = s1 := by
        rcases eq_or_lt_of_le hj0 with h0 | h0
        · subst h0
          simp [accrueToValidator] at h2
          exact h2.symm
        · have := accrueToValidator_other (e := e) (a := a) (u := j) (s := s1) hj.1 (he.ratios a) (Or.inl h0)
          rw [h2] at this; exact this
      subst ht
      exact ⟨[], fun h => by omega, fun _ => rfl, by simp, rfl,
        (Shift.refl _).congr (fun x d => by simp [received]) (fun d => by simp) (fun d => by simp)⟩
    · cases hf : e.fees a with
      | none =>
        exfalso
        have h0 : j ≠ 0 := by omega
        simp only [accrueToValidator, if_neg h0, hp, hf] at h2
        rw [M.bind_panic (s' := s1) (by simp)] at h2
        simp at h2
      | some l =>
        obtain ⟨t', g1, g2, sh⟩ := accrueToValidator_spec he.hooks n1 (show 0 ≤ j by omega) hj.2 hp hf (he.ratios a l hf)
        rw [g1] at h2
        simp only [Prod.mk.injEq, true_and] at h2
        obtain ⟨-, rfl⟩ := h2
        exact ⟨_, fun _ => ⟨l, rfl, rfl⟩, fun h => absurd h hj0, (dueShares_bound (by omega) (he.ratios a l hf)).1, g2, sh⟩
  obtain ⟨outs, o1, o2, o3, o4, sh2⟩ := key
  have sh := sh1.trans sh2
  refine ⟨⟨fee, outs, f0, f1, hfee, o1, o2, o3, ?_, ?_⟩, ?_, ?_, ?_⟩
  · intro x
    have := sh.bal x .main
    simp only [Coins.amt, onMain_main] at this
    rw [this]; unfold received; omega
  · have := sh.supply .main
    simp only [Coins.amt, onMain_main] at this
    rw [this]; omega
  · intro x
    have h1 := sh.bal x .delegated
    have h2 := sh.bal x .revoking
    have h3 := sh.bal x .other
    simp [Coins.amt, onMain] at h1 h2 h3
    exact ⟨h1, h2, h3⟩
  · have h1 := sh.supply .delegated
    have h2 := sh.supply .revoking
    have h3 := sh.supply .other
    simp [Coins.amt, onMain] at h1 h2 h3
    exact ⟨h1, h2, h3⟩
  · rw [o4, k2]

theorem flags_profile {e : Env} {a : Addr} {f : Bool × Bool × Bool × Bool} (h : flags? e a = some f) :
    e.profile a = some f.1 := by
  unfold flags? at h
  simp only [Option.bind_eq_bind, Option.bind_eq_some_iff] at h
  obtain ⟨p, hp, v, -, ⟨n, st⟩, -, h⟩ := h
  injection h with h
  subst h
  exact hp

/-- C22, daily accrual: when the accrual task of an account succeeds, `i` being the interest of the full day and `j`
the base of the validator bonuses, exactly that is paid, unless the rate is zero, when nothing is paid. -/
theorem C22_daily_accrual_exact_partial (e : Env) (he : EnvOk e) (a : Addr) (time : Int) (s t : State) (hc : Core s)
    (h : performAccrue e a time s = (.ok (), t)) :
    t.bank = s.bank ∨ ∃ f pc i j, flags? e a = some f ∧
      percent? s.bank.params.dustDelegation s.params.table (balance s.bank a).delegated f.1 f.2.1 f.2.2.1 f.2.2.2 = some pc ∧
      fullInterest? pc (balance s.bank a).delegated (getRecord s a).missedPart = some (i, j) ∧
      0 ≤ i ∧ ∃ t', t'.bank = t.bank ∧ Paid e a i j s t' := by
  unfold performAccrue at h
  obtain ⟨-, g1⟩ := M.panicIf_bind_ok.1 (M.get_bind_ok.1 h)
  obtain ⟨f, hf, g2⟩ := M.orPanic_bind_ok.1 g1
  obtain ⟨pc, hpc, g3⟩ := M.orPanic_bind_ok.1 g2
  split at g3
  · left
    simp only [M.modify_apply, Prod.mk.injEq] at g3
    rw [← g3.2]
  · right
    obtain ⟨⟨i, j⟩, hij, g4⟩ := M.orPanic_bind_ok.1 g3
    obtain ⟨_, s1, h1, g5⟩ := M.bind_ok_iff.1 g4
    have hi : 0 ≤ i := by
      by_contra hneg
      simp only [accrue, if_neg (show i ≠ 0 by omega), flags_profile hf] at h1
      have := (M.panicIf_bind_ok.1 h1).1
      simp at this
      exact hneg this
    obtain ⟨_, s2, h2, g6⟩ := M.bind_ok_iff.1 g5
    obtain ⟨_, s3, h3, g7⟩ := M.bind_ok_iff.1 g6
    simp only [M.modify_apply, Prod.mk.injEq] at g7
    obtain ⟨-, rfl⟩ := g7
    obtain ⟨ri, rj⟩ := fullInterest_range hij
    have hp := pay_exact he hc hi ri.2 rj (flags_profile hf) h1 h2
    refine ⟨f, pc, i, j, hf, hpc, hij, hi, s2, ?_, hp⟩
    unfold onSched at h3
    split at h3
    · simp only [Prod.mk.injEq] at h3
      rw [← h3.2]
    · cases h3

/-- C22, accrual for a part of a day (before a delegation or a revocation): exactly the interest `i` and the bonuses on
`j` are paid, or nothing when no interest is due. -/
theorem C22_part_day_accrual_exact_partial (e : Env) (he : EnvOk e) (a : Addr) (item item' : Record) (np : Int) (s t : State)
    (hc : Core s) (h : accruePart e a item np s = (.ok item', t)) :
    (item.nextAccrue = none ∧ t = s) ∨ ∃ next i j, item.nextAccrue = some next ∧ interest? e s a item next = some (i, j) ∧
      ((i ≤ 0 ∧ t.bank = s.bank) ∨ (0 < i ∧ ∃ t', t'.bank = t.bank ∧ Paid e a i j s t')) := by
  unfold accruePart at h
  cases hn : item.nextAccrue with
  | none =>
    rw [hn] at h
    simp only [M.pure_apply, Prod.mk.injEq] at h
    exact Or.inl ⟨rfl, h.2.symm⟩
  | some next =>
    right
    rw [hn] at h
    obtain ⟨⟨i, j⟩, hij, g1⟩ := M.orPanic_bind_ok.1 (M.get_bind_ok.1 h)
    refine ⟨next, i, j, rfl, hij, ?_⟩
    obtain ⟨_, s2, h2, g2⟩ := M.bind_ok_iff.1 g1
    obtain ⟨_, s3, h3, g3⟩ := M.bind_ok_iff.1 g2
    simp only [M.pure_apply, Prod.mk.injEq] at g3
    obtain ⟨-, rfl⟩ := g3
    have hb : s3.bank = s2.bank := by
      unfold onSched at h3
      split at h3
      · simp only [Prod.mk.injEq] at h3
        rw [← h3.2]
      · cases h3
    have hfl : ∃ f, flags? e a = some f := by
      unfold interest? at hij
      simp only [Option.bind_eq_bind, Option.bind_eq_some_iff] at hij
      obtain ⟨_, -, f, hf, -⟩ := hij
      exact ⟨f, hf⟩
    obtain ⟨f, hf⟩ := hfl
    obtain ⟨ri, rj⟩ := interest_range hij
    unfold payInterest at h2
    split at h2
    · next hi =>
      obtain ⟨_, s1, k1, k2⟩ := M.bind_ok_iff.1 h2
      exact Or.inr ⟨hi, s2, hb.symm, pay_exact he hc hi.le ri.2 rj (flags_profile hf) k1 k2⟩
    · next hi =>
      simp only [M.pure_apply, Prod.mk.injEq] at h2
      exact Or.inl ⟨not_lt.1 hi, by rw [hb, ← h2.2]⟩

/-! ### C19 -/

/-- C19: what a successful delegation does when no interest is running for the account. -/
theorem C19_delegate_exact (e : Env) (he : EnvOk e) (a : Addr) (u : Int) (s t : State) (hc : Core s)
    (hn : (getRecord s a).nextAccrue = none) (h : msgDelegate e a u s = (.ok (), t)) :
    ∃ fee, txFeeOf? s.bank.params ⟨u, 0, 0, 0⟩ = some fee ∧ 0 ≤ fee ∧ fee ≤ u ∧
      (∀ x, (balance t.bank x).main =
        (balance s.bank x).main - (if x = a then u else 0) + (if x = e.bank.splitCollector then fee else 0)) ∧
      (∀ x, (balance t.bank x).delegated = (balance s.bank x).delegated + (if x = a then u - fee else 0)) ∧
      (∀ x, (balance t.bank x).revoking = (balance s.bank x).revoking ∧ (balance t.bank x).other = (balance s.bank x).other) ∧
      (∀ x, x ≠ a → t.records.get x = s.records.get x) ∧ (getRecord t a).requests = (getRecord s a).requests ∧
      t.bank.params = s.bank.params ∧ t.params = s.params := by
  obtain ⟨hpos, g⟩ := M.errIf_bind_ok.1 h
  obtain ⟨fee, s1, s2, hd⟩ := delegate_ok he hc g
  obtain ⟨item, hi⟩ := hd.accrued
  have h21 : s2 = s1 := by
    unfold accruePart at hi
    rw [hn] at hi
    simp only [M.pure_apply, Prod.mk.injEq] at hi
    exact hi.2.symm
  subst h21
  obtain ⟨item', r1, r2, -⟩ := hd.record
  have hm := fun x => hd.money.bal x .main
  have hp := fun x => hd.paid.bal x .main
  have hm2 := fun x => hd.money.bal x .delegated
  have hp2 := fun x => hd.paid.bal x .delegated
  have hm3 := fun x => hd.money.bal x .revoking
  have hp3 := fun x => hd.paid.bal x .revoking
  have hm4 := fun x => hd.money.bal x .other
  have hp4 := fun x => hd.paid.bal x .other
  have hfee : fee ≤ u := by
    -- a negative amount cannot be delegated
    by_contra hlt
    obtain ⟨_, s1', h1, g3⟩ := M.bind_ok_iff.1 (M.panicIf_bind_ok.1 (M.errIf_bind_ok.1 (M.get_bind_ok.1 ‹delegateMsg e a u s = _›)).2).2
    obtain ⟨it, s2', h2, g5⟩ := M.bind_ok_iff.1 (M.get_bind_ok.1 g3)
    obtain ⟨_, s3', h3, -⟩ := M.bind_ok_iff.1 g5
    obtain ⟨h1', -⟩ := onBank_ok_iff.1 h1
    obtain ⟨-, -, hf, -⟩ := payTxFee_moved h1'
    rw [hd.rate] at hf
    injection hf with hf
    subst hf
    unfold delegate at h3
    rw [if_neg (by omega)] at h3
    obtain ⟨-, -, v1, -⟩ := convert_ok h3
    have := v1 .main
    simp [Coins.amt, Coins.ofMain] at this
    omega
  refine ⟨fee, hd.rate, hd.fee0, hfee, ?_, ?_, ?_, ?_, ?_, ?_, hd.params⟩
  · intro x
    have h1 := hm x; have h2 := hp x
    simp only [Coins.amt, delegated, feePaid, onMain_main, if_true] at h1 h2
    split_ifs at h1 h2 ⊢ <;> omega
  · intro x
    have h1 := hm2 x; have h2 := hp2 x
    simp [Coins.amt, delegated, feePaid, onMain] at h1 h2
    omega
  · intro x
    have h1 := hm3 x; have h2 := hp3 x; have h3 := hm4 x; have h4 := hp4 x
    simp [Coins.amt, delegated, feePaid, onMain] at h1 h2 h3 h4
    omega
  · intro x hx; rw [r1, KV.get_set_ne _ _ hx]
  · unfold getRecord; rw [r1, KV.get_set_self]; exact r2
  · rw [hd.money.params, hd.paid.params]

/-- C19 in general: the account pays `u` from its spendable coins – `fee` to the pool, the rest becomes delegated – and
in between the interest accrued so far is paid out (`C22_part_day_accrual_exact_partial` tells exactly what; `gain x` is what it
brings to `x` in main coins). -/
theorem C19_delegate_with_interest (e : Env) (he : EnvOk e) (a : Addr) (u : Int) (s t : State) (hc : Core s)
    (h : msgDelegate e a u s = (.ok (), t)) :
    ∃ (fee : Int) (item : Record) (s1 s2 : State) (gain : Addr → Int), txFeeOf? s.bank.params ⟨u, 0, 0, 0⟩ = some fee ∧ 0 ≤ fee ∧
      s1 = { s with bank := s1.bank } ∧ accruePart e a (getRecord s a) (e.now + e.day) s1 = (.ok item, s2) ∧
      (∀ x, (balance s1.bank x).main =
        (balance s.bank x).main - (if x = a then fee else 0) + (if x = e.bank.splitCollector then fee else 0)) ∧
      (∀ x, gain x = (balance s2.bank x).main - (balance s1.bank x).main) ∧
      (∀ x, (balance t.bank x).main = (balance s.bank x).main + gain x
        - (if x = a then u else 0) + (if x = e.bank.splitCollector then fee else 0)) ∧
      (∀ x, (balance t.bank x).delegated = (balance s.bank x).delegated + (if x = a then u - fee else 0)) ∧
      (∀ x, (balance t.bank x).revoking = (balance s.bank x).revoking ∧ (balance t.bank x).other = (balance s.bank x).other) ∧
      (∀ x, x ≠ a → t.records.get x = s.records.get x) ∧ (getRecord t a).requests = (getRecord s a).requests ∧
      t.bank.params = s.bank.params ∧ t.params = s.params := by
  obtain ⟨hpos, g⟩ := M.errIf_bind_ok.1 h
  obtain ⟨fee, s1, s2, hd⟩ := delegate_ok he hc g
  obtain ⟨item, hi⟩ := hd.accrued
  obtain ⟨item', r1, r2, -⟩ := hd.record
  refine ⟨fee, item, s1, s2, fun x => (balance s2.bank x).main - (balance s1.bank x).main, hd.rate, hd.fee0, hd.s1eq, hi,
    ?_, fun _ => rfl, ?_, ?_, ?_, ?_, ?_, ?_, hd.params⟩
  · intro x
    have h2 := hd.paid.bal x .main
    simp only [Coins.amt, feePaid, onMain_main] at h2
    split_ifs at h2 ⊢ <;> omega
  · intro x
    have h1 := hd.money.bal x .main; have h2 := hd.paid.bal x .main
    simp only [Coins.amt, delegated, feePaid, onMain_main, if_true] at h1 h2 ⊢
    split_ifs at h1 h2 ⊢ <;> omega
  · intro x
    have h1 := hd.money.bal x .delegated; have h2 := hd.paid.bal x .delegated
    have h3 := hd.interest.bal x .delegated (by decide)
    simp [Coins.amt, delegated, feePaid, onMain] at h1 h2 h3
    omega
  · intro x
    have h1 := hd.money.bal x .revoking; have h2 := hd.paid.bal x .revoking
    have h3 := hd.interest.bal x .revoking (by decide)
    have h4 := hd.money.bal x .other; have h5 := hd.paid.bal x .other
    have h6 := hd.interest.bal x .other (by decide)
    simp [Coins.amt, delegated, feePaid, onMain] at h1 h2 h3 h4 h5 h6
    omega
  · intro x hx; rw [r1, KV.get_set_ne _ _ hx]
  · unfold getRecord; rw [r1, KV.get_set_self]; exact r2
  · rw [hd.money.params, hd.interest.bparams, hd.paid.params]

/-! ### C20 -/

/-- C20, the revocation itself: `u` delegated coins disappear, `⌊burn · u⌋` of them for good, the rest is frozen and a
request for exactly the rest, due after the waiting period, is added, with a task for it.  Main coins change only by the
interest due so far (paid between `s` and `si`, see `C22_part_day_accrual_exact_partial`). -/
theorem C20_revoke_exact (e : Env) (he : EnvOk e) (a : Addr) (u : Int) (express : Bool) (s t : State) (hc : Core s)
    (hp : s.params.validate? = some true) (h : msgRevoke e a u express s = (.ok (), t)) :
    ∃ burnt, burnt = ⌊(if express then s.params.express else s.params.revoke).burn.toRat * (u : ℚ)⌋ ∧ 0 ≤ burnt ∧ burnt ≤ u ∧
      (balance t.bank a).delegated = (balance s.bank a).delegated - u ∧
      (balance t.bank a).revoking = (balance s.bank a).revoking + (u - burnt) ∧
      (∀ x, x ≠ a → (balance t.bank x).delegated = (balance s.bank x).delegated ∧
        (balance t.bank x).revoking = (balance s.bank x).revoking) ∧
      t.bank.supply.delegated = s.bank.supply.delegated - u ∧
      t.bank.supply.revoking = s.bank.supply.revoking + (u - burnt) ∧
      (getRecord t a).requests = (getRecord s a).requests ++
        [⟨e.now + (if express then s.params.express else s.params.revoke).period * e.day, u - burnt⟩] ∧
      (∀ x, x ≠ a → t.records.get x = s.records.get x) ∧
      (∃ id, Schedule.Pending t.sched
        ⟨e.now + (if express then s.params.express else s.params.revoke).period * e.day, revokeHook, [a], id⟩) ∧
      (∃ item si, accruePart e a (getRecord s a) (e.now + e.day) s = (.ok item, si) ∧
        (∀ x, (balance t.bank x).main = (balance si.bank x).main) ∧ t.bank.supply.main = si.bank.supply.main) := by
  obtain ⟨hpos, g⟩ := M.errIf_bind_ok.1 h
  have hu : 0 < u := by simpa using hpos
  obtain ⟨si, hd⟩ := revoke_ok he hc hp hu g
  obtain ⟨item, r1, r2, -⟩ := hd.record
  have hrp := revokeParams_valid hp express
  obtain ⟨-, hb0, hb1⟩ := afterBurn_spec hrp hu.le hd.small
  have key : ∀ x d, d ≠ .main → (balance t.bank x).amt d = (balance s.bank x).amt d +
      frozen a u (u - Delegating.burnt (revokeParams s.params express).burn u) x d := by
    intro x d hdm
    rw [hd.money.bal, hd.interest.bal x d hdm]
  refine ⟨Delegating.burnt (revokeParams s.params express).burn u, ?_, by omega, by omega, ?_, ?_, ?_, ?_, ?_, ?_, ?_, hd.task, ?_⟩
  · rfl
  · have := key a .delegated (by decide)
    simp [Coins.amt, frozen] at this; omega
  · have := key a .revoking (by decide)
    simp [Coins.amt, frozen] at this; omega
  · intro x hx
    have h1 := key x .delegated (by decide)
    have h2 := key x .revoking (by decide)
    simp [Coins.amt, frozen, hx] at h1 h2
    exact ⟨h1, h2⟩
  · have h1 := hd.money.supply .delegated
    have h2 := hd.interest.sup .delegated (by decide)
    simp [Coins.amt, frozen] at h1 h2; omega
  · have h1 := hd.money.supply .revoking
    have h2 := hd.interest.sup .revoking (by decide)
    simp [Coins.amt, frozen] at h1 h2; omega
  · unfold getRecord; rw [r1, KV.get_set_self]; exact r2
  · intro x hx; rw [r1, KV.get_set_ne _ _ hx]
  · obtain ⟨item, hi⟩ := hd.accrued
    refine ⟨item, si, hi, fun x => ?_, ?_⟩
    · have := hd.money.bal x .main
      simpa [Coins.amt, frozen] using this
    · have := hd.money.supply .main
      simpa [Coins.amt, frozen] using this

/-- C20: as long as no block reaches the end of the waiting period, a request stays open, whatever else happens (other
requests of the same account, accruals, banishment, parameter changes, transfers). -/
theorem C20_waits (P : Int) (s t : State) (hg : Good P s) (a : Addr) (r : Request)
    (h : Steps P (fun e => e.now < r.time) s t) :
    (getRecord s a).requests.count r ≤ (getRecord t a).requests.count r := by
  induction h with
  | refl => exact Nat.le_refl _
  | step hs he hq hst ih => exact ih.trans ((hst.evolves he (hs.good hg)).2 a r hq)

/-- C20: the first block that reaches the end of the waiting period releases the frozen coins.  Exactly once in the
block – in the first revocation task of the account, all later ones finding nothing due – the sum of all due requests of
the account moves from the frozen to the spendable balance; no balance of anyone else changes in this task; after the
block no due request is left. -/
theorem C20_released_in_due_block (P : Int) (e : Env) (he : Limits P e) (others : Schedule.Task → State → State)
    (ho : ∀ t x, Other P e x (others t x)) (s : State) (hg : Good P s) (a : Addr) (r : Request)
    (hr : r ∈ (getRecord s a).requests) (hd : r.time ≤ e.now) :
    (∃ before t after w, dueTasks e.now s.sched = before ++ t :: after ∧ t.handler = revokeHook ∧ t.data = [a] ∧
      (runTask e others t (runTasks e others before s)) = w ∧
      (balance w.bank a).main = (balance (runTasks e others before s).bank a).main
        + (((getRecord s a).requests.filter (fun q => decide (q.time ≤ e.now))).map Request.amount).sum ∧
      (balance w.bank a).revoking = (balance (runTasks e others before s).bank a).revoking
        - (((getRecord s a).requests.filter (fun q => decide (q.time ≤ e.now))).map Request.amount).sum ∧
      (∀ x, x ≠ a → balance w.bank x = balance (runTasks e others before s).bank x) ∧
      (∀ q, (getRecord s a).requests.count q ≤ (getRecord (runTasks e others before s) a).requests.count q) ∧
      (∀ q ∈ (getRecord w a).requests, e.now < q.time) ∧
      (∀ l, ∀ q ∈ (getRecord (runTasks e others l w) a).requests, e.now < q.time)) ∧
    (∀ x, ∀ q ∈ (getRecord (block e others s) x).requests, e.now < q.time) := by
  refine ⟨?_, (block_evolves he ho hg).2.1⟩
  obtain ⟨id, hp⟩ := hg.linked a r hr
  obtain ⟨l1, t, l2, e1, e2, e3, hb, e5, e6⟩ := block_releases he ho (a := a) (dueTasks e.now s.sched) hg.toBase
    ⟨_, (mem_dueTasks hg.sched).2 ⟨hd, hp⟩, rfl, rfl⟩
  generalize hx : runTasks e others l1 s = x at hb e5 e6
  obtain ⟨w, hw, c, hpp, hs, sh, hper, hoth, -⟩ := performRevoking_spec he.hooks (a := a) hb.core (hb.amounts a) (by rw [hb.ledger a])
  have hrun : runTask e others t x = w := by
    unfold runTask
    rw [e3]
    simp only [e2, if_true, hw]
  have hperm : ((reqs x a).filter (fun q => decide (q.time ≤ e.now))).Perm ((reqs s a).filter (fun q => decide (q.time ≤ e.now))) := by
    rw [List.perm_iff_count]
    intro q
    by_cases hq : q.time ≤ e.now
    · rw [List.count_filter (by simpa using hq), List.count_filter (by simpa using hq)]
      exact Nat.le_antisymm (e6 q hq) (e5 q)
    · rw [List.count_eq_zero.2, List.count_eq_zero.2] <;> simp [hq]
  have hsum : amounts ((reqs x a).filter (fun q => decide (q.time ≤ e.now))) =
      (((getRecord s a).requests.filter (fun q => decide (q.time ≤ e.now))).map Request.amount).sum := (hperm.map _).sum_eq
  have hnone : ∀ q ∈ reqs w a, e.now < q.time := by
    intro q hq
    simpa using (List.mem_filter.1 (hper.mem_iff.1 hq)).2
  have hbw : Base P w := by
    have := (performRevoking_evolves he.toEnvOk (a := a) hb).1.base
    rwa [hw] at this
  refine ⟨l1, t, l2, w, e1, e2, e3, hx ▸ hrun, ?_, ?_, ?_, ?_, hnone, ?_⟩
  · have := sh.bal a .main
    simp only [Coins.amt, released, if_true] at this
    rw [hx, this, hsum]
  · have := sh.bal a .revoking
    simp [Coins.amt, released] at this
    rw [hx, this, hsum]; omega
  · intro y hy
    have h1 := sh.bal y .main; have h2 := sh.bal y .delegated; have h3 := sh.bal y .revoking; have h4 := sh.bal y .other
    simp [Coins.amt, released, hy] at h1 h2 h3 h4
    rw [hx]
    generalize balance w.bank y = b1 at *
    generalize balance x.bank y = b2 at *
    cases b1; cases b2; simp_all
  · rw [hx]; exact e5
  · intro l q hq
    obtain ⟨h1, -⟩ := runTasks_evolves he ho l hbw
    rcases h1.fresh a q hq with h | ⟨h, -⟩
    · exact hnone q h
    · exact h

/-! ### C21 -/

/-- C21: the daily rate.  The full claim is for every accepted table; missing is the case of a table with a zero
denominator, which is accepted too (`C21_zero_denominator_accepted`). -/
theorem C21_rate_from_table_partial (dust d : Int) (table : List Row) (hv : validateTable table = true)
    (hden : ∀ r ∈ table, ∀ b ∈ r.list, b.denom ≠ 0) (h0 : 0 ≤ d) (h1 : d < 2 ^ 63)
    (profile validator vpn storage : Bool) :
    ∃ q r base bv bp bn bs, percent? dust table d profile validator vpn storage = some q ∧
      (r ∈ table ∧ (r.start : Int) ≤ d ∧ ∀ r' ∈ table, (r'.start : Int) ≤ d → r'.start ≤ r.start) ∧
      r.list = [base, bv, bp, bn, bs] ∧
      q.toRat = if d ≤ dust then 0 else
        (base.toRat + (if validator then bv.toRat else 0) + (if profile then bp.toRat else 0)
          + (if vpn then bn.toRat else 0) + (if storage then bs.toRat else 0)) / 30 := by
  obtain ⟨q, r, h1, -, h3, h4⟩ := percent_spec (dust := dust) hv hden h0 h1 profile validator vpn storage
  have hlen : r.list.length = 5 := by
    unfold validateTable at hv
    rw [Bool.and_eq_true] at hv
    exact (rows_len hv.2 r h3.1).1
  match hl : r.list, hlen with
  | [b1, b2, b3, b4, b5], _ =>
    refine ⟨q, r, b1, b2, b3, b4, b5, h1, h3, hl, ?_⟩
    rw [h4, hl]
    simp only [flagSum, if_true]
    split
    · rfl
    · ring

/-- C21: every accepted table has exactly one row for every non-negative amount. -/
theorem C21_every_amount_has_a_row (table : List Row) (hv : validateTable table = true) (d : Int) (h0 : 0 ≤ d) :
    ∃ r, Applies table d r ∧ ∀ r', Applies table d r' → r' = r := by
  obtain ⟨r, hr, -⟩ := table_bonus hv h0
  refine ⟨r, hr, fun r' hr' => ?_⟩
  have he : r'.start = r.start := Nat.le_antisymm (hr.2.2 r' hr'.1 hr'.2.1) (hr'.2.2 r hr.1 hr.2.1)
  unfold validateTable at hv
  rw [Bool.and_eq_true] at hv
  have aux : ∀ (prev : Option Nat) (rows : List Row), validateRows prev rows = true → r ∈ rows → r' ∈ rows → r' = r := by
    intro prev rows
    induction rows generalizing prev with
    | nil => intro _ h; cases h
    | cons x xs ih =>
      intro hx hm hm'
      simp only [validateRows, Bool.and_eq_true] at hx
      have hgt := rows_start_gt hx.2
      rcases List.mem_cons.1 hm with h1 | h1 <;> rcases List.mem_cons.1 hm' with h2 | h2
      · rw [h1, h2]
      · have := hgt _ h2; rw [he, h1] at this; omega
      · have := hgt _ h1; rw [← he, h2] at this; omega
      · exact ih _ hx.2 h1 h2
  exact aux none table hv.2 hr.1 hr'.1

/-- C21, where the code falls short: a table with a zero denominator is accepted, and then the rate of every account
above dust is a panic. -/
theorem C21_zero_denominator_accepted :
    ∃ p : Params, p.validate? = some true ∧ percent? 0 p.table 1000 false false false false = none :=
  ⟨⟨1000, ⟨14, ⟨0, 1⟩⟩, ⟨3, ⟨5, 100⟩⟩, [⟨0, [⟨1, 0⟩, ⟨1, 1⟩, ⟨1, 1⟩, ⟨1, 1⟩, ⟨1, 1⟩]⟩]⟩, by decide +kernel, by decide +kernel⟩

/-! ### A concrete execution -/

def exampleParams : Params :=
  ⟨1000, ⟨14, ⟨0, 1⟩⟩, ⟨3, ⟨5, 100⟩⟩,
   [⟨0, [⟨21, 100⟩, ⟨1, 100⟩, ⟨2, 100⟩, ⟨3, 100⟩, ⟨4, 100⟩]⟩, ⟨10000, [⟨24, 100⟩, ⟨1, 100⟩, ⟨2, 100⟩, ⟨3, 100⟩, ⟨4, 100⟩]⟩]⟩

/-- Account 5 has 200000 coins, account 6 has 30. -/
def exampleStart : State :=
  ⟨⟨(KV.empty.set 5 ⟨200000, 0, 0, 0⟩).set 6 ⟨30, 0, 0, 0⟩, ⟨200030, 0, 0, 0⟩,
    ⟨1000, 10, ⟨⟨3, 1000⟩, 10000000, ⟨1, 2⟩, ⟨3, 10⟩⟩, 9, []⟩⟩, KV.empty, Schedule.State.empty, exampleParams⟩

def exampleEnvAt (now : Int) : Env :=
  ⟨⟨fun _ _ => .ok (), fun _ => true, fun _ => false, 1, 2⟩, now, 1000, fun _ => some true, fun _ => some false,
   fun _ => some (false, true), fun _ => some [(6, ⟨1, 100⟩), (7, ⟨5, 1000⟩)]⟩

theorem exampleEnv_ok (now : Int) (h : 0 ≤ now) (h' : now < 1000000) : Limits 100 (exampleEnvAt now) := by
  have hte : (1000000000 : Int) < Schedule.timeEnd := by decide
  refine ⟨⟨fun _ _ => rfl, ?_, by simp [exampleEnvAt], h, ?_⟩, ?_⟩
  · intro a l hl
    injection hl with hl
    subst hl
    refine ⟨?_, ?_⟩
    · simp [Frac.toRat]; norm_num
    · simp [Frac.toRat]; norm_num
  · simp only [exampleEnvAt]; omega
  · simp only [exampleEnvAt]; omega

theorem exampleStart_ok : Start 100 exampleStart := by
  have hb : ∀ a, balance exampleStart.bank a = if a = 6 then ⟨30, 0, 0, 0⟩ else if a = 5 then ⟨200000, 0, 0, 0⟩ else {} := by
    intro a
    simp only [balance, exampleStart, KV.get_set]
    split_ifs <;> simp
  refine ⟨?_, ?_, ⟨by decide +kernel, by decide, by norm_num [exampleStart, Frac.toRat]⟩, by decide +kernel, by decide, rfl, rfl, ?_⟩
  · intro a d
    rw [hb]
    split_ifs <;> cases d <;> simp [Coins.amt]
  · intro d; cases d <;> decide +kernel
  · intro a
    rw [hb]
    split_ifs <;> rfl

/-- Delegate 100000 at time 0; one day later the accrual task runs; at time 1500 revoke 40000 expressly (5 % burnt); the
block at time 4500 releases. -/
def exampleRun : State :=
  let s1 := M.tx (msgDelegate (exampleEnvAt 0) 5 100000) exampleStart
  let s2 := block (exampleEnvAt 1000) (fun _ s => s) s1
  let s3 := M.tx (msgRevoke (exampleEnvAt 1500) 5 40000 true) s2
  s3

theorem exampleRun_reachable : Reachable 100 exampleRun := by
  refine ⟨_, exampleStart_ok, ?_⟩
  refine .step (e := exampleEnvAt 1500) (.step (e := exampleEnvAt 1000) (.step (e := exampleEnvAt 0) (.refl _) ?_ trivial
    (.delegate _ 5 100000)) ?_ trivial (.block _ (fun _ s => s) (fun _ x => .refl x))) ?_ trivial (.revoke _ 5 40000 true)
  all_goals exact exampleEnv_ok _ (by omega) (by omega)

-- delegation with fee 300; full day's interest (24+2+4)% / 30 of 99700; half a day's interest before the revocation
example : balance (M.tx (msgDelegate (exampleEnvAt 0) 5 100000) exampleStart).bank 5 = ⟨100000, 99700, 0, 0⟩ := by decide +kernel
example : balance exampleRun.bank 5 = ⟨101495, 59700, 38000, 0⟩ ∧ balance exampleRun.bank 6 = ⟨79, 0, 0, 0⟩ ∧
    balance exampleRun.bank 2 = ⟨300, 0, 0, 0⟩ ∧
    (getRecord exampleRun 5).requests = [⟨4500, 38000⟩] := by decide +kernel
example : balance (block (exampleEnvAt 4500) (fun _ s => s) exampleRun).bank 5 = ⟨140092, 59700, 0, 0⟩ := by decide +kernel

/-! ### What the assumptions are for -/

/-- C18 needs the bank hook to succeed: in a begin-block task nothing is rolled back, so a failing hook leaves the coins
taken out of the frozen balance but the request still open. -/
theorem C18_failing_hook_breaks :
    ∃ (e : Env) (s : State), Reachable 100 s ∧
      (balance (block e (fun _ s => s) s).bank 5).revoking ≠
        ((getRecord (block e (fun _ s => s) s) 5).requests.map Request.amount).sum :=
  ⟨{ exampleEnvAt 4500 with bank := { (exampleEnvAt 4500).bank with hook := fun _ _ => .err } }, exampleRun,
    exampleRun_reachable, by decide +kernel⟩

/-- The import of a genesis file does not compare the requests with the frozen balances (keeper/genesis.go:11-28), so a
chain can start with C18 violated. -/
theorem C18_genesis_unchecked :
    ∃ (l : List (Addr × Option Int × List Request)),
      ((((initAccounts l).get 5).getD {}).requests.map Request.amount).sum ≠ (balance exampleStart.bank 5).revoking :=
  ⟨[(5, none, [⟨100, 7⟩])], by decide +kernel⟩

end Verif.Delegating
