import Verif.Delegating.Interest

/-! Property C78: which requests about delegations are accepted. -/
namespace Verif.Delegating
open Verif.Util Verif.Bank

/-! ### Specification -/

/-- The fee on `amount`: the greatest allowed one (see C03). -/
def IsFee (q : FeeParams) (amount fee : Int) : Prop :=
  ∃ l, IsGranularity q.forProposer q.forCompany l ∧ AllowedFee q l amount fee ∧ ∀ f, AllowedFee q l amount f → f ≤ fee

/-- What the account gets at once, in spendable coins, when it delegates or revokes: nothing unless interest is running, otherwise the
interest for the part of the day that has passed, less the fee. -/
def Due (e : Env) (s : State) (a : Addr) (g : Int) : Prop :=
  ((getRecord s a).nextAccrue = none ∧ g = 0) ∨
  ∃ next q fee, (getRecord s a).nextAccrue = some next ∧ RateOf e s a q ∧
    IsFee s.bank.params.fee ⌊q * passed e.now e.day next * (balance s.bank a).delegated⌋ fee ∧
    g = ⌊q * passed e.now e.day next * (balance s.bank a).delegated⌋ - fee

/-- Circumstances: the hooks and clock are in order, the table of percentages has no zero denominators, amounts fit in 64 bits, the
account is not the pool of fees; and while interest is running, the account has a profile, the other modules answer, the account is no
beneficiary of itself, and the time is within the running day. -/
structure Ready (e : Env) (s : State) (a : Addr) : Prop where
  env : EnvOk e
  own : a ≠ e.bank.splitCollector
  table : ∀ r ∈ s.params.table, ∀ b ∈ r.list, b.denom ≠ 0
  small : (balance s.bank a).delegated < 2 ^ 63
  flags : ∀ next, (getRecord s a).nextAccrue = some next →
    e.profile a ≠ none ∧ e.validator a ≠ none ∧ e.earner a ≠ none ∧ ∃ l, e.fees a = some l ∧ ∀ x ∈ l, x.1 ≠ a
  time : ∀ next, (getRecord s a).nextAccrue = some next → next - e.day ≤ e.now ∧ e.now ≤ next
  rate : ∀ q, RateOf e s a q → q * (balance s.bank a).delegated < 2 ^ 63

/-! ### Proofs -/

theorem interest_some {e : Env} {s : State} {a : Addr} (h : Ready e s a) (hd0 : 0 ≤ (balance s.bank a).delegated)
    (hv : validateTable s.params.table = true) (hm : (getRecord s a).missedPart = none) {next : Int}
    (hn : (getRecord s a).nextAccrue = some next) :
    ∃ q i j, interest? e s a (getRecord s a) next = some (i, j) ∧ RateOf e s a q ∧ 0 ≤ q ∧
      i = ⌊q * passed e.now e.day next * (balance s.bank a).delegated⌋ ∧
      j = ⌊passed e.now e.day next * (balance s.bank a).delegated⌋ ∧ 0 ≤ i ∧ 0 ≤ j ∧ i < 2 ^ 63 ∧ j < 2 ^ 63 := by
  obtain ⟨f1, f2, f3, -⟩ := h.flags next hn
  obtain ⟨p, hp⟩ := Option.ne_none_iff_exists'.1 f1
  obtain ⟨v, hvv⟩ := Option.ne_none_iff_exists'.1 f2
  obtain ⟨⟨n, st⟩, he⟩ := Option.ne_none_iff_exists'.1 f3
  have hday := h.env.day
  have hdayq : (0 : ℚ) < e.day := by exact_mod_cast hday
  obtain ⟨pc, r, hpc, hpd, -, -⟩ := percent_spec (dust := s.bank.params.dustDelegation) hv h.table hd0 h.small p v n st
  obtain ⟨w, w1, w2, -, -⟩ := Frac.reduce?_spec ⟨next - e.now, e.day⟩ hday.ne'
  obtain ⟨dp, s1, s2, -⟩ := Frac.sub?_spec (Frac.ofInt 1) w (by simp [Frac.ofInt]) w2.ne'
  obtain ⟨x, x1, x2, -⟩ := Frac.mul?_spec pc dp hpd.ne' s2.ne'
  obtain ⟨x', y1, y2, -⟩ := Frac.reduce?_spec x x2.ne'
  obtain ⟨z, z1, z2, -⟩ := Frac.mul?_spec x' (Frac.ofInt (delegatedOf s a)) y2.ne' (by simp [Frac.ofInt])
  obtain ⟨d', d1, d2, -⟩ := Frac.reduce?_spec dp s2.ne'
  obtain ⟨u, u1, u2, -⟩ := Frac.mul?_spec d' (Frac.ofInt (delegatedOf s a)) d2.ne' (by simp [Frac.ofInt])
  have hint : ∀ f : Frac, 0 < f.denom → ∃ k, f.int64? = some k := by
    intro f hf
    unfold Frac.int64? Frac.bigInt?
    cases hq : quo? f.num f.denom with
    | none => exact absurd hq (by unfold quo?; simp [hf.ne'])
    | some b => exact ⟨_, rfl⟩
  obtain ⟨i, hi⟩ := hint z z2
  obtain ⟨j, hj⟩ := hint u u2
  have hij : interest? e s a (getRecord s a) next = some (i, j) := by
    have hdp : paidPart? e (getRecord s a) next = some dp := by
      unfold paidPart? dayPart?
      rw [w1, hm]
      simp [s1]
    have hfl : flags? e a = some (p, v, n, st) := by unfold flags?; rw [hp, hvv, he]; rfl
    have hd64 : sdkInt64? (delegatedOf s a) = some (delegatedOf s a) := sdkInt64?_eq ⟨by unfold delegatedOf; omega, h.small⟩
    unfold interest?
    simp only [hdp, hfl, Option.bind_eq_bind, Option.bind_some]
    show (percent? _ _ (delegatedOf s a) p v n st).bind _ = _
    unfold delegatedOf at *
    rw [hpc]
    simp only [Option.bind_some, hd64, x1, y1, d1]
    unfold Frac.mulInt?
    rw [z1, u1]
    simp only [Option.bind_some, hi, hj]
    rfl
  obtain ⟨t1, t2⟩ := h.time next hn
  have p0 : 0 ≤ passed e.now e.day next := div_nonneg (by
    have : (0 : ℤ) ≤ e.now - (next - e.day) := by omega
    exact_mod_cast this) hdayq.le
  have p1 : passed e.now e.day next ≤ 1 := by
    unfold passed
    rw [div_le_one hdayq]
    have : (e.now - (next - e.day) : ℤ) ≤ e.day := by omega
    exact_mod_cast this
  have hdq : (0 : ℚ) ≤ ((balance s.bank a).delegated : ℤ) := by exact_mod_cast hd0
  have hdu : (((balance s.bank a).delegated : ℤ) : ℚ) < 2 ^ 63 := by exact_mod_cast h.small
  obtain ⟨q, k1, k2, k3⟩ := interest_value hday hv hd0 (by rw [hm]; intro m h; cases h) hij
  have l1 := part_lt k2 hdq p1 (h.rate q k1)
  have l2 : passed e.now e.day next * ((balance s.bank a).delegated : ℤ) < 2 ^ 63 := by nlinarith
  obtain ⟨r1, r2⟩ := k3 _ (by rw [hm]; simp) p0 l1 l2
  refine ⟨q, i, j, hij, k1, k2, r1, r2, ?_, ?_, ?_, ?_⟩
  · rw [r1]; exact Int.floor_nonneg.2 (mul_nonneg (mul_nonneg k2 p0) hdq)
  · rw [r2]; exact Int.floor_nonneg.2 (mul_nonneg p0 hdq)
  · rw [r1, Int.floor_lt]; push_cast; exact l1
  · rw [r2, Int.floor_lt]; push_cast; exact l2

theorem isFee_of {q : FeeParams} (hq : FeeOk q) {i fee : Int} (h0 : 0 ≤ i) (h1 : i < 2 ^ 63)
    (h : calculateFee? i q.rate q.maxFee q.forProposer q.forCompany = some fee) : IsFee q i fee := by
  obtain ⟨f, l, k1, k2, k3, k4, -, -⟩ := C03_fee_within_amount_partial q i hq.valid hq.denom hq.le_one h0 h1
  rw [h] at k2
  injection k2 with k2
  subst k2
  exact ⟨l, k1, k3, k4⟩

theorem isFee_zero {q : FeeParams} (hq : FeeOk q) : IsFee q 0 0 := by
  obtain ⟨f, l, k1, k2, k3, k4, k5, k6⟩ := C03_fee_within_amount_partial q 0 hq.valid hq.denom hq.le_one le_rfl (by norm_num)
  obtain rfl : f = 0 := by omega
  exact ⟨l, k1, k3, k4⟩

theorem received_none {j : Int} {l : List (Addr × Frac)} {a : Addr} (h : ∀ x ∈ l, x.1 ≠ a) : received (dueShares j l) a = 0 := by
  unfold received dueShares
  apply List.sum_eq_zero
  intro y hy
  obtain ⟨o, ho, rfl⟩ := List.mem_map.1 hy
  obtain ⟨x, hx, rfl⟩ := List.mem_map.1 (List.mem_of_mem_filter ho)
  rw [if_neg (fun e => h x hx e.symm)]

theorem accruePart_some {e : Env} {s : State} {a : Addr} (h : Ready e s a) (hc : Core s)
    (hv : validateTable s.params.table = true) (hm : (getRecord s a).missedPart = none) :
    ∃ item t g, accruePart e a (getRecord s a) (e.now + e.day) s = (.ok item, t) ∧ Due e s a g ∧ 0 ≤ g ∧
      (balance t.bank a).main = (balance s.bank a).main + g := by
  cases hn : (getRecord s a).nextAccrue with
  | none =>
    refine ⟨{ getRecord s a with nextAccrue := some (e.now + e.day) }, s, 0, ?_, .inl ⟨hn, rfl⟩, le_rfl, by omega⟩
    unfold accruePart
    rw [hn]
    rfl
  | some next =>
    have hd0 : 0 ≤ (balance s.bank a).delegated := hc.nonneg a .delegated
    obtain ⟨q, i, j, hij, k1, k2, k3, k4, i0, j0, i1, j1⟩ := interest_some h hd0 hv hm hn
    obtain ⟨f1, -, -, l, hl, hla⟩ := h.flags next hn
    obtain ⟨p, hp⟩ := Option.ne_none_iff_exists'.1 f1
    obtain ⟨t1, t2⟩ := h.time next hn
    have hr : Schedule.inRange next = true := by
      have := h.env.now; have := h.env.next
      simp [Schedule.inRange]; omega
    have hpay : ∃ t g, payInterest e a i j s = (.ok (), t) ∧ Due e s a g ∧ 0 ≤ g ∧ (balance t.bank a).main = (balance s.bank a).main + g := by
      unfold payInterest
      by_cases hi : 0 < i
      · rw [if_pos hi]
        obtain ⟨u1, fee, r1, -, r3, r4, r5, r6⟩ := accrue_spec h.env.hooks hc.nonneg hc.fee i0 i1 hp
        have n1 : NonNeg u1.bank := hc.nonneg.shift r6 (fun x d => by
          have := onMain_nonneg (show 0 ≤ i - fee by omega) d
          have := onMain_nonneg r3 d
          split_ifs <;> omega)
        obtain ⟨u2, v1, -, v3⟩ := accrueToValidator_spec h.env.hooks n1 j0 j1 hp hl (h.env.ratios a l hl)
        refine ⟨u2, i - fee, by rw [M.bind_ok r1]; exact v1, .inr ⟨next, q, fee, hn, k1, ?_, by rw [← k3]⟩, by omega, ?_⟩
        · rw [← k3]
          rcases r5 with ⟨e1, -⟩ | r5
          · omega
          · exact isFee_of hc.fee i0 i1 r5
        · have b1 := r6.bal a .main
          have b2 := v3.bal a .main
          rw [received_none hla] at b2
          simp only [Coins.amt, onMain_main, if_neg h.own, if_true] at b1 b2
          omega
      · rw [if_neg hi]
        obtain rfl : i = 0 := by omega
        refine ⟨s, 0, rfl, .inr ⟨next, q, 0, hn, k1, ?_, by rw [← k3]; rfl⟩, le_rfl, by omega⟩
        rw [← k3]
        exact isFee_zero hc.fee
    obtain ⟨t, g, r1, r2, r3, r4⟩ := hpay
    have hdel : ∃ y, (Schedule.Req.delete next accrueHook [a]).exec? t.sched = some y := by
      unfold Schedule.Req.exec? Schedule.delete?
      simp only [hr, if_true]
      split <;> exact ⟨_, rfl⟩
    obtain ⟨y, hy⟩ := hdel
    refine ⟨{ getRecord s a with nextAccrue := some (e.now + e.day), missedPart := none }, { t with sched := y }, g, ?_, r2, r3, r4⟩
    unfold accruePart
    rw [hn]
    simp only
    rw [M.bind_ok (M.get_apply s), M.bind_ok (M.orPanic_ok_iff.2 ⟨hij, rfl⟩), M.bind_ok r1]
    have : onSched (.delete next accrueHook [a]) t = (.ok (), { t with sched := y }) := by unfold onSched; rw [hy]
    rw [M.bind_ok this]
    rfl

/-! ### C78 -/

/-- C78, revocations: accepted iff the amount is positive and not more than what is delegated. -/
theorem C78_revoke_partial (P : Int) (e : Env) (a : Addr) (s : State) (hs : Reachable P s) (h : Ready e s a)
    (express : Bool) (hr : e.now + (if express then s.params.express else s.params.revoke).period * e.day < Schedule.timeEnd) (u : Int) :
    M.succeeds (msgRevoke e a u express) s = true ↔ 0 < u ∧ u ≤ (balance s.bank a).delegated := by
  have hg := hs.good
  have hc := hg.core
  have hday := h.env.day
  have hnow := h.env.now
  constructor
  · intro hk
    obtain ⟨⟨⟩, ht⟩ := Res.isOk_iff.1 hk
    have hrun : msgRevoke e a u express s = (.ok (), (msgRevoke e a u express s).2) := Prod.ext ht rfl
    obtain ⟨hpos, g⟩ := M.errIf_bind_ok.1 hrun
    have hu : 0 < u := by simpa using hpos
    obtain ⟨si, hd⟩ := revoke_ok h.env hc hg.params hu g
    exact ⟨hu, hd.enough⟩
  · rintro ⟨h1, h2⟩
    obtain ⟨item, t, g, r1, -⟩ := accruePart_some h hc (validate_table hg.params) (C52_nothing_missed P s hs a)
    have q1 := accruePart_keeps h.env a (getRecord s a) (e.now + e.day) s hc
    rw [r1] at q1
    have hsm := h.small
    obtain ⟨hb, b0, b1⟩ := afterBurn_spec (revokeParams_valid hg.params express) h1.le (show u < 2 ^ 63 by omega)
    obtain ⟨t2, r2⟩ := convert_succ (e := e) h.env.hooks (a := a) (minus := Coins.ofDelegated u)
      (plus := Coins.ofRevoking (u - burnt (revokeParams s.params express).burn u)) q1.core.nonneg q1.core.supply
      (fun d => by cases d <;> simp [Coins.amt, Coins.ofDelegated]; omega)
      (fun d => by cases d <;> simp [Coins.amt, Coins.ofRevoking]; omega)
      (fun d => by
        cases d with
        | delegated =>
          have := q1.bal a .delegated (by decide)
          simp only [Coins.amt, Coins.ofDelegated] at this ⊢
          rw [this]; exact h2
        | main => have := q1.core.nonneg a .main; simpa [Coins.amt, Coins.ofDelegated] using this
        | revoking => have := q1.core.nonneg a .revoking; simpa [Coins.amt, Coins.ofDelegated] using this
        | other => have := q1.core.nonneg a .other; simpa [Coins.amt, Coins.ofDelegated] using this)
    obtain ⟨item', t3, r3⟩ := planAccrue_succ h.env a (d := delegatedOf s a - u) (by unfold delegatedOf; omega) item t2
    have hper := (revokeParams_accept (revokeParams_valid hg.params express)).1
    have hrr : Schedule.inRange (e.now + (revokeParams s.params express).period * e.day) = true := by
      have hp : 0 ≤ (revokeParams s.params express).period * e.day := by positivity
      have hr : e.now + (revokeParams s.params express).period * e.day < Schedule.timeEnd := hr
      simp [Schedule.inRange]; omega
    unfold M.succeeds msgRevoke
    rw [show decide (u ≤ 0) = false by simpa using h1, M.bind_ok (M.errIf_false _)]
    unfold revoke
    rw [if_neg (by omega), M.bind_ok (M.get_apply s), show decide (u > delegatedOf s a) = false from decide_eq_false (not_lt.2 h2), M.bind_ok (M.errIf_false _),
      M.bind_ok r1]
    have hif : (if express = true then s.params.express else s.params.revoke) = revokeParams s.params express := rfl
    dsimp only
    rw [hif, M.bind_ok (M.orPanic_ok_iff.2 ⟨hb, rfl⟩)]
    have hf : freeze e a u (u - burnt (revokeParams s.params express).burn u) t = (.ok (), t2) := by
      unfold freeze; rw [if_neg (by omega)]; exact r2
    rw [M.bind_ok hf, M.bind_ok r3, M.bind_ok (M.modify_apply _ _)]
    unfold onSched Schedule.Req.exec? Schedule.schedule?
    dsimp only
    rw [hrr]
    rfl

theorem IsFee.unique {q : FeeParams} {i f g : Int} (h : IsFee q i f) (k : IsFee q i g) : f = g := by
  obtain ⟨l, h1, h2, h3⟩ := h
  obtain ⟨m, k1, k2, k3⟩ := k
  obtain rfl : l = m := le_antisymm (h1.2.2.2 m k1.1 k1.2.1 k1.2.2.1) (k1.2.2.2 l h1.1 h1.2.1 h1.2.2.1)
  exact le_antisymm (k3 f h2) (h3 g k2)

theorem Due.unique {e : Env} {s : State} {a : Addr} {g k : Int} (hv : validateTable s.params.table = true)
    (h0 : 0 ≤ (balance s.bank a).delegated) (h : Due e s a g) (h' : Due e s a k) : g = k := by
  rcases h with ⟨h1, rfl⟩ | ⟨n, q, f, h1, h2, h3, rfl⟩ <;> rcases h' with ⟨k1, rfl⟩ | ⟨n', q', f', k1, k2, k3, rfl⟩
  · rfl
  · rw [h1] at k1; cases k1
  · rw [h1] at k1; cases k1
  · rw [h1] at k1
    injection k1 with k1
    subst k1
    obtain rfl := RateOf.unique hv h0 h2 k2
    rw [h3.unique k3]

/-- Nothing that decides about interest differs. -/
structure SameDue (s s1 : State) (a : Addr) : Prop where
  records : s1.records = s.records
  params : s1.params = s.params
  bparams : s1.bank.params = s.bank.params
  del : (balance s1.bank a).delegated = (balance s.bank a).delegated

theorem SameDue.record {s s1 : State} {a : Addr} (h : SameDue s s1 a) : getRecord s1 a = getRecord s a := by
  unfold getRecord; rw [h.records]

theorem SameDue.rateOf {e : Env} {s s1 : State} {a : Addr} (h : SameDue s s1 a) (q : ℚ) : RateOf e s1 a q ↔ RateOf e s a q := by
  unfold RateOf; rw [h.params, h.bparams, h.del]

theorem SameDue.due {e : Env} {s s1 : State} {a : Addr} (h : SameDue s s1 a) (g : Int) : Due e s1 a g ↔ Due e s a g := by
  unfold Due; simp only [h.record, h.rateOf, h.bparams, h.del]

theorem SameDue.ready {e : Env} {s s1 : State} {a : Addr} (h : SameDue s s1 a) (r : Ready e s a) : Ready e s1 a :=
  ⟨r.env, r.own, by rw [h.params]; exact r.table, by rw [h.del]; exact r.small, by rw [h.record]; exact r.flags,
    by rw [h.record]; exact r.time, by intro q hq; rw [h.del]; exact r.rate q ((h.rateOf q).1 hq)⟩

/-- C78, delegations: whatever part-day interest `g` is due, a delegation is accepted iff its amount is positive and at least the
minimum, the account can pay the fee from what it has, and the rest from what it has together with the interest. -/
theorem C78_delegate_partial (P : Int) (e : Env) (a : Addr) (s : State) (hs : Reachable P s) (h : Ready e s a)
    (hb : ∀ g, Due e s a g → (balance s.bank a).main + g + (balance s.bank a).delegated < 2 ^ 63) :
    ∃ g, Due e s a g ∧ 0 ≤ g ∧ ∀ u, M.succeeds (msgDelegate e a u) s = true ↔
      0 < u ∧ s.params.minDelegate ≤ u ∧ u ≤ (balance s.bank a).main + g ∧
        ∃ fee, IsFee s.bank.params.fee u fee ∧ fee ≤ (balance s.bank a).main := by
  have hg := hs.good
  have hc := hg.core
  have hv := validate_table hg.params
  have hmiss := C52_nothing_missed P s hs a
  have hd0 : 0 ≤ (balance s.bank a).delegated := hc.nonneg a .delegated
  have hm0 : 0 ≤ (balance s.bank a).main := hc.nonneg a .main
  obtain ⟨-, -, g, -, hdue, hg0, -⟩ := accruePart_some h hc hv hmiss
  have hsum := hb g hdue
  refine ⟨g, hdue, hg0, fun u => ?_⟩
  -- the interest after the fee has been paid
  have after : ∀ s1, SameDue s s1 a → Core s1 → ∃ item t, accruePart e a (getRecord s a) (e.now + e.day) s1 = (.ok item, t) ∧
      (balance t.bank a).main = (balance s1.bank a).main + g := by
    intro s1 hsd hc1
    obtain ⟨item, t, g', r1, r2, -, r4⟩ := accruePart_some (hsd.ready h) hc1 (by rw [hsd.params]; exact hv)
      (by rw [hsd.record]; exact hmiss)
    obtain rfl := hdue.unique hv hd0 ((hsd.due g').1 r2)
    rw [hsd.record] at r1
    exact ⟨item, t, r1, r4⟩
  constructor
  · intro hk
    obtain ⟨⟨⟩, ht⟩ := Res.isOk_iff.1 hk
    have hrun : msgDelegate e a u s = (.ok (), (msgDelegate e a u s).2) := Prod.ext ht rfl
    obtain ⟨hpos, k⟩ := M.errIf_bind_ok.1 hrun
    have hu : 0 < u := by simpa using hpos
    obtain ⟨fee, s1, s2, hd⟩ := delegate_ok h.env hc k
    have hrate := hd.rate
    have hfee : calculateFee? u s.bank.params.fee.rate s.bank.params.fee.maxFee s.bank.params.fee.forProposer
        s.bank.params.fee.forCompany = some fee := by
      unfold txFeeOf? at hrate
      simp only [Coins.ofMain, ne_eq, not_true_eq_false, or_self, if_false, hu.ne', Option.bind_eq_bind,
        Option.bind_eq_some_iff] at hrate
      obtain ⟨f, hf, hlt⟩ := hrate
      split at hlt
      · cases hlt
      · injection hlt with hlt; rw [hf, hlt]
    have hu63 : u < 2 ^ 63 := by
      by_contra hh
      rw [C03_huge_amount_refused _ _ (not_lt.1 hh)] at hfee
      cases hfee
    have hsd : SameDue s s1 a := ⟨by rw [hd.s1eq], by rw [hd.s1eq], hd.paid.params, by
      have := hd.paid.bal a .delegated
      simpa [feePaid, Coins.amt, onMain] using this⟩
    obtain ⟨item, t, r1, r2⟩ := after s1 hsd hd.core1
    obtain ⟨item', r3⟩ := hd.accrued
    rw [r1] at r3
    simp only [Prod.mk.injEq, Res.ok.injEq] at r3
    obtain ⟨-, rfl⟩ := r3
    have m1 : (balance s1.bank a).main = (balance s.bank a).main - fee := by
      have := hd.paid.bal a .main
      simp only [feePaid, Coins.amt, if_neg h.own, if_true, onMain_main] at this
      omega
    have m2 := hd.money.bal a .main
    simp only [delegated, Coins.amt, if_true] at m2
    have n1 := hd.core1.nonneg a .main
    have n2 := hd.core.nonneg a .main
    simp only [Coins.amt] at n1 n2
    exact ⟨hu, hd.min, by omega, fee, isFee_of hc.fee hu.le hu63 hfee, by omega⟩
  · rintro ⟨hu, hmin, hle, fee, hfee, hfm⟩
    have hu63 : u < 2 ^ 63 := by omega
    obtain ⟨f, l, k1, k2, k3, k4, k5, k6⟩ := C03_fee_within_amount_partial s.bank.params.fee u hc.fee.valid hc.fee.denom
      hc.fee.le_one hu.le hu63
    obtain rfl := hfee.unique (isFee_of hc.fee hu.le hu63 k2)
    have htx : txFeeOf? s.bank.params (Coins.ofMain u) = some fee := by
      unfold txFeeOf?
      simp [Coins.ofMain, hu.ne', k2]
      omega
    have hpay : ∃ b, payTxFee e.bank a (Coins.ofMain u) s.bank = (.ok fee, b) := by
      rw [payTxFee_run htx]
      by_cases hz : fee = 0
      · rw [if_pos hz, hz]; exact ⟨_, rfl⟩
      · rw [if_neg hz]
        have := (sendCoins_succeeds h.env.hooks (src := a) (dst := e.bank.splitCollector) (c := Coins.ofMain fee) hc.nonneg).2
          (fun d => by
            have := hc.nonneg a d
            cases d <;> simp [Coins.amt, Coins.ofMain] at this ⊢ <;> omega)
        obtain ⟨⟨⟩, hx⟩ := Res.isOk_iff.1 this
        rw [M.bind_ok (Prod.ext hx rfl)]
        exact ⟨_, rfl⟩
    obtain ⟨b, hpay⟩ := hpay
    obtain ⟨mv, tot, -, -, -⟩ := payTxFee_moved hpay
    have paid : Shift (feePaid e a fee) (fun _ => 0) (fun _ => 0) s.bank b := by
      refine ⟨fun x d => ?_, fun d => by simp [mv.supply], fun d => by simp [tot], mv.params⟩
      rw [mv.bal]; simp only [feePaid, amt_main]
    have c1 : Core { s with bank := b } := by
      refine ⟨?_, paid.supplyEq hc.supply, by simp only; rw [paid.params]; exact hc.fee⟩
      have := payTxFee_nonneg e.bank a (Coins.ofMain u) s.bank hc.nonneg
      rw [hpay] at this; exact this
    have hsd : SameDue s { s with bank := b } a := ⟨rfl, rfl, paid.params, by
      have := paid.bal a .delegated
      simpa [feePaid, Coins.amt, onMain] using this⟩
    obtain ⟨item, t, r1, r2⟩ := after _ hsd c1
    simp only at r2
    have q1 := accruePart_keeps h.env a (getRecord s a) (e.now + e.day) _ c1
    rw [r1] at q1
    have m1 : (balance b a).main = (balance s.bank a).main - fee := by
      have := paid.bal a .main
      simp only [feePaid, Coins.amt, if_neg h.own, if_true, onMain_main] at this
      omega
    have dt : (balance t.bank a).delegated = (balance s.bank a).delegated := by
      have := q1.bal a .delegated (by decide)
      simp only [Coins.amt] at this
      rw [this]; exact hsd.del
    have hdel : ∃ t2, delegate e a (u - fee) t = (.ok (), t2) ∧
        (balance t2.bank a).delegated = (balance s.bank a).delegated + (u - fee) := by
      unfold delegate
      by_cases hz : u - fee = 0
      · rw [if_pos hz]; exact ⟨t, rfl, by omega⟩
      · rw [if_neg hz]
        obtain ⟨t2, r3⟩ := convert_succ (e := e) h.env.hooks (a := a) (minus := Coins.ofMain (u - fee))
          (plus := Coins.ofDelegated (u - fee)) q1.core.nonneg q1.core.supply
          (fun d => by cases d <;> simp [Coins.amt, Coins.ofMain]; omega)
          (fun d => by cases d <;> simp [Coins.amt, Coins.ofDelegated]; omega)
          (fun d => by
            have := q1.core.nonneg a d
            cases d <;> simp [Coins.amt, Coins.ofMain] at this ⊢ <;> omega)
        obtain ⟨sh, -⟩ := convert_ok r3
        have := sh.bal a .delegated
        simp only [Coins.amt, Coins.ofMain, Coins.ofDelegated, if_true] at this
        exact ⟨t2, r3, by omega⟩
    obtain ⟨t2, r3, r4⟩ := hdel
    obtain ⟨item', t3, r5⟩ := planAccrue_succ h.env a (d := delegatedOf t2 a) (by unfold delegatedOf; omega) item t2
    unfold M.succeeds msgDelegate
    rw [show decide (u ≤ 0) = false by simpa using hu, M.bind_ok (M.errIf_false _)]
    unfold delegateMsg
    have hpb : onBank (payTxFee e.bank a (Coins.ofMain u)) s = (.ok fee, { s with bank := b }) := onBank_ok_iff.2 ⟨hpay, rfl⟩
    rw [M.bind_ok (M.get_apply s), show decide (u < s.params.minDelegate) = false by simpa using hmin,
      M.bind_ok (M.errIf_false _), M.bind_ok (M.panicIf_ok_iff (u := ()).2 ⟨by simpa using hu.le, rfl⟩), M.bind_ok hpb,
      M.bind_ok (M.get_apply _)]
    have hr : getRecord { s with bank := b } a = getRecord s a := rfl
    rw [hr, M.bind_ok r1, M.bind_ok r3, M.bind_ok (M.get_apply _), M.bind_ok r5]
    rfl

/-- C78, what happens without a profile: while interest is running, nothing can be delegated or revoked. -/
theorem C78_stuck (e : Env) (a : Addr) (s : State) (hp : e.profile a = none) (hn : (getRecord s a).nextAccrue ≠ none) (u : Int)
    (express : Bool) : M.succeeds (msgDelegate e a u) s = false ∧ M.succeeds (msgRevoke e a u express) s = false := by
  obtain ⟨next, hn⟩ := Option.ne_none_iff_exists'.1 hn
  have key : ∀ (s1 : State) (item : Record) (t : State),
      accruePart e a (getRecord s a) (e.now + e.day) s1 ≠ (.ok item, t) := by
    intro s1 item t hh
    unfold accruePart at hh
    rw [hn] at hh
    simp only at hh
    obtain ⟨x, hx, -⟩ := M.orPanic_bind_ok.1 (M.get_bind_ok.1 hh)
    unfold interest? flags? at hx
    simp [hp] at hx
  constructor
  · by_contra hh
    obtain ⟨⟨⟩, ht⟩ := Res.isOk_iff.1 (eq_true_of_ne_false hh)
    have hrun : msgDelegate e a u s = (.ok (), (msgDelegate e a u s).2) := Prod.ext ht rfl
    obtain ⟨-, k⟩ := M.errIf_bind_ok.1 hrun
    unfold delegateMsg at k
    obtain ⟨-, g1⟩ := M.errIf_bind_ok.1 (M.get_bind_ok.1 k)
    obtain ⟨-, g2⟩ := M.panicIf_bind_ok.1 g1
    obtain ⟨fee, s1, h1, g3⟩ := M.bind_ok_iff.1 g2
    obtain ⟨item, s2, h2, -⟩ := M.bind_ok_iff.1 (M.get_bind_ok.1 g3)
    obtain ⟨-, e1⟩ := onBank_ok_iff.1 h1
    have : getRecord s1 a = getRecord s a := by rw [e1]; rfl
    rw [this] at h2
    exact key _ _ _ h2
  · by_contra hh
    obtain ⟨⟨⟩, ht⟩ := Res.isOk_iff.1 (eq_true_of_ne_false hh)
    have hrun : msgRevoke e a u express s = (.ok (), (msgRevoke e a u express s).2) := Prod.ext ht rfl
    obtain ⟨hpos, k⟩ := M.errIf_bind_ok.1 hrun
    have hu : 0 < u := by simpa using hpos
    unfold revoke at k
    rw [if_neg hu.ne'] at k
    obtain ⟨-, g1⟩ := M.errIf_bind_ok.1 (M.get_bind_ok.1 k)
    obtain ⟨item, s2, h2, -⟩ := M.bind_ok_iff.1 g1
    exact key _ _ _ h2

/-! ### Cases -/

theorem exampleDay1_rate : RateOf (exampleEnvAt 1500) exampleDay1 5 (1 / 100) := by
  have h1 : (balance exampleDay1.bank 5).delegated = 99700 := by decide +kernel
  have h2 : exampleDay1.bank.params.dustDelegation = 10 := by decide +kernel
  have h3 : exampleDay1.params.table = [⟨0, [⟨21, 100⟩, ⟨1, 100⟩, ⟨2, 100⟩, ⟨3, 100⟩, ⟨4, 100⟩]⟩,
    ⟨10000, [⟨24, 100⟩, ⟨1, 100⟩, ⟨2, 100⟩, ⟨3, 100⟩, ⟨4, 100⟩]⟩] := by decide +kernel
  refine ⟨true, false, false, true, rfl, rfl, rfl, ?_⟩
  rw [h1, h2, h3]
  refine ⟨⟨10000, [⟨24, 100⟩, ⟨1, 100⟩, ⟨2, 100⟩, ⟨3, 100⟩, ⟨4, 100⟩]⟩, _, _, _, _, _, ⟨by simp, by norm_num, ?_⟩, rfl, ?_⟩
  · intro r' hr' _
    simp only [List.mem_cons, List.not_mem_nil, or_false] at hr'
    rcases hr' with rfl | rfl <;> norm_num
  · norm_num [Frac.toRat]

-- account 5 has 100997 spendable and 99700 delegated coins; half a day's interest is due
theorem exampleDay1_ready : Ready (exampleEnvAt 1500) exampleDay1 5 := by
  have h1 : (balance exampleDay1.bank 5).delegated = 99700 := by decide +kernel
  have h2 : (getRecord exampleDay1 5).nextAccrue = some 2000 := by decide +kernel
  have hv : validateTable exampleDay1.params.table = true := by decide +kernel
  refine ⟨(exampleEnv_ok 1500 (by norm_num) (by norm_num)).toEnvOk, by decide, by decide +kernel, by rw [h1]; norm_num, ?_, ?_, ?_⟩
  · intro next _
    exact ⟨by simp [exampleEnvAt], by simp [exampleEnvAt], by simp [exampleEnvAt], _, rfl, by decide⟩
  · intro next hn
    rw [h2] at hn
    injection hn with hn
    subst hn
    simp [exampleEnvAt]
  · intro q hq
    obtain rfl := hq.unique hv (by rw [h1]; norm_num) exampleDay1_rate
    rw [h1]; norm_num

example : ∃ g, Due (exampleEnvAt 1500) exampleDay1 5 g ∧ ∀ u,
    M.succeeds (msgDelegate (exampleEnvAt 1500) 5 u) exampleDay1 = true ↔
      0 < u ∧ 1000 ≤ u ∧ u ≤ 100997 + g ∧ ∃ fee, IsFee exampleDay1.bank.params.fee u fee ∧ fee ≤ 100997 := by
  have h1 : balance exampleDay1.bank 5 = ⟨100997, 99700, 0, 0⟩ := by decide +kernel
  have h2 : exampleDay1.params.minDelegate = 1000 := by decide +kernel
  have hv : validateTable exampleDay1.params.table = true := by decide +kernel
  obtain ⟨g, k1, -, k3⟩ := C78_delegate_partial 100 _ 5 _ exampleDay1_reachable exampleDay1_ready (by
    intro g hg
    rcases hg with ⟨-, rfl⟩ | ⟨n, q, f, hn, hq, hf, rfl⟩
    · rw [h1]; norm_num
    · obtain rfl := hq.unique hv (by rw [h1]; norm_num) exampleDay1_rate
      obtain ⟨l, -, hf, hmax⟩ := hf
      have h2 : (getRecord exampleDay1 5).nextAccrue = some 2000 := by decide +kernel
      rw [h2] at hn
      injection hn with hn
      subst hn
      have hfl : ⌊(1 / 100 : ℚ) * passed (exampleEnvAt 1500).now (exampleEnvAt 1500).day 2000 *
          ((balance exampleDay1.bank 5).delegated : ℤ)⌋ = 498 := by
        rw [h1, Int.floor_eq_iff]; norm_num [passed, exampleEnvAt]
      rw [hfl] at hmax ⊢
      have := hmax 0 ⟨by simp, by
        have : exampleDay1.bank.params.fee = ⟨⟨3, 1000⟩, 10000000, ⟨1, 2⟩, ⟨3, 10⟩⟩ := by decide +kernel
        rw [this]; norm_num [Frac.toRat], by
        have : exampleDay1.bank.params.fee.maxFee = 10000000 := by decide +kernel
        rw [this]; norm_num⟩
      rw [h1]; norm_num; omega)
  rw [h1, h2] at k3
  exact ⟨g, k1, k3⟩

-- with 498 coins of interest, 101495 coins can be delegated although only 100997 are there; one more cannot
example : M.succeeds (msgDelegate (exampleEnvAt 1500) 5 101495) exampleDay1 = true ∧
    M.succeeds (msgDelegate (exampleEnvAt 1500) 5 101496) exampleDay1 = false ∧
    M.succeeds (msgRevoke (exampleEnvAt 1500) 5 99700 true) exampleDay1 = true ∧
    M.succeeds (msgRevoke (exampleEnvAt 1500) 5 99701 true) exampleDay1 = false := by decide +kernel

/-- Account 5 has no profile. -/
def noProfileEnvAt (now : Int) : Env := { exampleEnvAt now with profile := fun _ => none }

/-- C78 fails for accounts without a profile: the first delegation is accepted, and from then on neither a revocation nor another
delegation succeeds while there is no profile. -/
theorem C78_no_profile_violation : ∃ s, Reachable 100 s ∧ (balance s.bank 5).delegated = 99700 ∧ (balance s.bank 5).main = 100000 ∧
    ∀ e : Env, e.profile 5 = none → ∀ u express, M.succeeds (msgRevoke e 5 u express) s = false ∧
      M.succeeds (msgDelegate e 5 u) s = false := by
  refine ⟨M.tx (msgDelegate (noProfileEnvAt 0) 5 100000) exampleStart, ?_, by decide +kernel, by decide +kernel, ?_⟩
  · refine ⟨_, exampleStart_ok, .step (e := noProfileEnvAt 0) (.refl _) ?_ trivial (.delegate _ 5 100000)⟩
    have h := exampleEnv_ok 0 (by omega) (by omega)
    exact ⟨⟨h.hooks, h.ratios, h.day, h.now, h.next⟩, h.horizon⟩
  · intro e he u express
    obtain ⟨h1, h2⟩ := C78_stuck e 5 (M.tx (msgDelegate (noProfileEnvAt 0) 5 100000) exampleStart) he (by decide +kernel) u express
    exact ⟨h2, h1⟩

end Verif.Delegating
