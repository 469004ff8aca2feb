import Verif.Chain.UpgradeLemmas

/-! C79: what the upgrades that move money do. -/
namespace Verif.Upgrade
open Verif.Util Verif.Bank Verif.Delegating

/-! ### Specification -/

/-- The upgrade turns the coins of account `a` into delegated ones: some record of the account is not banished and shows coins that are not
delegated. -/
def Joins (s : State) (a : Nat) : Prop :=
  ∃ k r, s.ref.get k = some r ∧ Referral.addrOf k = a ∧ r.banished = false ∧ r.tot .coins 0 ≠ r.tot .delegated 0

/-- Number of coins, whatever their kind. -/
def worth (c : Coins) : Int := c.main + c.delegated + c.revoking + c.other

/-! ### More about the loop -/

theorem joined_iff (s : State) (a : Nat) : Joined s.ref.entries a ↔ Joins s a := by
  constructor
  · rintro ⟨⟨k, r⟩, hx, ha, hm⟩
    exact ⟨k, r, KV.mem_entries.1 hx, ha, hm⟩
  · rintro ⟨k, r, hx, ha, hm⟩
    exact ⟨(k, r), KV.mem_entries.2 hx, ha, hm⟩

theorem Next.next_some {plan day dust : Int} {dq : Frac} {v w : Vars} {a : Nat} {total joined : Int}
    (h : Next plan day dust dq v w a total joined) {x : Nat} {n : Int} (hn : (recOf v x).nextAccrue = some n) :
    (recOf w x).nextAccrue = some n := by
  by_cases hx : x = a
  · subst hx
    unfold recOf at hn
    cases h with
    | running next p h1 _ _ h2 =>
      rw [h1] at hn
      unfold recOf
      rw [h2, KV.get_set_self]
      exact hn
    | starts _ h1 => rw [h1] at hn; cases hn
    | dust h1 => rw [h1] at hn; cases hn
  · rw [h.other hx]
    exact hn

/-- What the loop does to the record under key `k` in the referral store. -/
def RefDone (w : Vars) (k : Nat) (r r' : Referral.Info) : Prop :=
  if r.banished then r' = r
  else r' = delegateAll r ∨ r' = { delegateAll r with banishmentAt := none } ∧ ((recOf w (Referral.addrOf k)).nextAccrue).isSome

theorem loop_next {plan day dust : Int} {dq : Frac} {l : List (Nat × Referral.Info)} {v w : Vars}
    (h : forceLoop? plan day dust dq l v = some w) {x : Nat} {n : Int} (hn : (recOf v x).nextAccrue = some n) :
    (recOf w x).nextAccrue = some n := by
  induction l generalizing v with
  | nil => injection h with h; subst h; exact hn
  | cons y l ih =>
    unfold forceLoop? at h
    rw [Option.bind_eq_some_iff] at h
    obtain ⟨u, h1, h2⟩ := h
    refine ih h2 ?_
    by_cases hm : Moves y.2
    · exact (forceOne_moves h1 hm).next.next_some hn
    · rw [forceOne_still h1 hm]; exact hn

theorem loop_ref {plan day dust : Int} {dq : Frac} {l : List (Nat × Referral.Info)} {v w : Vars}
    (hk : (l.map Prod.fst).Nodup) (h : forceLoop? plan day dust dq l v = some w) (hv : ∀ x ∈ l, v.ref.get x.1 = some x.2) :
    (∀ k, k ∉ l.map Prod.fst → w.ref.get k = v.ref.get k) ∧ ∀ x ∈ l, ∃ r', w.ref.get x.1 = some r' ∧ RefDone w x.1 x.2 r' := by
  induction l generalizing v with
  | nil => injection h with h; subst h; exact ⟨fun _ _ => rfl, fun x hx => absurd hx (by simp)⟩
  | cons y l ih =>
    unfold forceLoop? at h
    rw [Option.bind_eq_some_iff] at h
    obtain ⟨u, h1, h2⟩ := h
    rw [List.map_cons, List.nodup_cons] at hk
    have step : (∀ k, k ≠ y.1 → u.ref.get k = v.ref.get k) ∧ ∃ r', u.ref.get y.1 = some r' ∧ RefDone w y.1 y.2 r' := by
      by_cases hm : Moves y.2
      · obtain ⟨k, r⟩ := y
        have hr := forceOne_moves h1 hm
        refine ⟨fun x hx => by rw [hr.ref, KV.get_set_ne _ _ hx], _, by rw [hr.ref, KV.get_set_self], ?_⟩
        unfold RefDone
        rw [if_neg (by have := hm.1; simp only at this; simp [this])]
        split
        · next hc =>
          refine .inr ⟨rfl, ?_⟩
          have hn := hr.next
          cases hn with
          | running _ _ h1 => rw [h1] at hc; exact absurd hc.1 (by simp)
          | starts q _ _ _ h1 =>
            rw [loop_next h2 (n := v.t - second) (by unfold recOf; rw [h1, KV.get_set_self]; rfl)]
            rfl
          | dust _ h1 => omega
        · exact .inl rfl
      · rw [forceOne_still h1 hm]
        by_cases hb : y.2.banished
        · simp only [hb, if_true]
          exact ⟨fun _ _ => trivial, _, hv y (by simp), by simp [RefDone, hb]⟩
        · simp only [hb, Bool.false_eq_true, if_false]
          exact ⟨fun x hx => KV.get_set_ne _ _ hx, _, KV.get_set_self _ _ _, by simp [RefDone, hb]⟩
    obtain ⟨i1, i2⟩ := ih hk.2 h2 (fun x hx => by
      rw [step.1 x.1 (fun hh => hk.1 (hh ▸ List.mem_map_of_mem hx))]
      exact hv x (List.mem_cons_of_mem _ hx))
    refine ⟨fun k hk' => ?_, ?_⟩
    · rw [List.map_cons, List.mem_cons, not_or] at hk'
      rw [i1 k hk'.2, step.1 k hk'.1]
    · intro x hx
      rcases List.mem_cons.1 hx with rfl | hx
      · obtain ⟨r', k1, k2⟩ := step.2
        exact ⟨r', by rw [i1 _ hk.1, k1], k2⟩
      · exact i2 x hx

/-- The times and parts given to accounts whose accrual starts. -/
structure Ticks (dq : Frac) (n : Nat) (v w : Vars) : Prop where
  ticks : ∃ j : Nat, j ≤ n ∧ w.t = v.t - j * second ∧ w.q.toRat = v.q.toRat + j * dq.toRat
  denom : 0 < v.q.denom → 0 < w.q.denom

theorem Next.ticks {plan day dust : Int} {dq : Frac} {v w : Vars} {a : Nat} {total joined : Int}
    (h : Next plan day dust dq v w a total joined) : Ticks dq 1 v w := by
  cases h with
  | running _ _ _ _ _ _ h1 h2 => exact ⟨⟨0, by omega, by rw [h1]; simp, by rw [h2]; simp⟩, fun h => by rw [h2]; exact h⟩
  | starts q _ _ hq _ h1 h2 =>
    obtain ⟨d1, d2⟩ := add?_denoms hq
    obtain ⟨z, hz, hz0, -, -, -, hz1⟩ := Frac.add?_spec _ _ d1 d2
    rw [hq] at hz
    injection hz with hz
    subst hz
    exact ⟨⟨1, le_rfl, by rw [h1]; simp, by rw [h2, hz1]; simp⟩, fun _ => by rw [h2]; exact hz0⟩
  | dust _ _ _ h1 h2 => exact ⟨⟨0, by omega, by rw [h1]; simp, by rw [h2]; simp⟩, fun h => by rw [h2]; exact h⟩

theorem Ticks.trans {dq : Frac} {m n : Nat} {u v w : Vars} (h : Ticks dq m u v) (g : Ticks dq n v w) : Ticks dq (m + n) u w := by
  obtain ⟨⟨i, h1, h2, h3⟩, h4⟩ := h
  obtain ⟨⟨j, g1, g2, g3⟩, g4⟩ := g
  refine ⟨⟨i + j, by omega, ?_, ?_⟩, fun h => g4 (h4 h)⟩
  · rw [g2, h2]; push_cast; ring
  · rw [g3, h3]; push_cast; ring

/-- The round of a member of the list, within the loop. -/
theorem loop_split {plan day dust : Int} {dq : Frac} {l : List (Nat × Referral.Info)} {v w : Vars}
    (h : forceLoop? plan day dust dq l v = some w) {k : Nat} {r : Referral.Info} (hx : (k, r) ∈ l) (hm : Moves r)
    (hone : ∀ y ∈ l, Moves y.2 → Referral.addrOf y.1 = Referral.addrOf k → y.1 = k) (hk : (l.map Prod.fst).Nodup) :
    ∃ v1 w1 n, n < l.length ∧ Round plan day dust dq k r v1 w1 ∧ Ticks dq n v v1 ∧
      recOf v1 (Referral.addrOf k) = recOf v (Referral.addrOf k) ∧ recOf w (Referral.addrOf k) = recOf w1 (Referral.addrOf k) ∧
      balance v1.bank (Referral.addrOf k) = balance v.bank (Referral.addrOf k) ∧
      w.ref.get k = w1.ref.get k ∧
      ∀ t, t.handler = accrueHook → Schedule.Pending w1.sched t → Schedule.Pending w.sched t := by
  induction l generalizing v with
  | nil => exact absurd hx (by simp)
  | cons y l ih =>
    have h0 := h
    unfold forceLoop? at h
    rw [Option.bind_eq_some_iff] at h
    obtain ⟨u, h1, h2⟩ := h
    rw [List.map_cons, List.nodup_cons] at hk
    have sw := forceLoop_sweep h2
    rcases List.mem_cons.1 hx with rfl | hx'
    · have hr := forceOne_moves h1 hm
      have hnj : ¬ Joined l (Referral.addrOf k) := by
        rintro ⟨z, hz, hza, hzm⟩
        have : z.1 ∈ l.map Prod.fst := List.mem_map_of_mem hz
        rw [hone z (List.mem_cons_of_mem _ hz) hzm hza] at this
        exact hk.1 this
      refine ⟨v, u, 0, by simp, hr, ⟨⟨0, le_rfl, by simp, by simp⟩, id⟩, rfl, (sw.other _ hnj).2, rfl, ?_, ?_⟩
      · exact loop_key h2 hk.1
      · intro t ht hp
        refine sw.sched.keep t ?_ hp
        rintro (⟨h, -⟩ | h) <;> rw [ht] at h <;> exact absurd h (by decide)
    · obtain ⟨v1, w1, n, i1, i2, i3, i4, i5, i6, i7, i8⟩ := ih h2 hx' (fun z hz => hone z (List.mem_cons_of_mem _ hz)) hk.2
      have step : recOf u (Referral.addrOf k) = recOf v (Referral.addrOf k) ∧
          balance u.bank (Referral.addrOf k) = balance v.bank (Referral.addrOf k) ∧ Ticks dq 1 v u := by
        by_cases hy : Moves y.2
        · have hne : Referral.addrOf k ≠ Referral.addrOf y.1 := fun hh =>
            hk.1 ((hone y (by simp) hy hh.symm) ▸ List.mem_map_of_mem hx')
          obtain ⟨k', r'⟩ := y
          have hr := forceOne_moves h1 hy
          exact ⟨hr.next.other hne, by rw [hr.bank, balance_setRaw, if_neg hne], hr.next.ticks⟩
        · rw [forceOne_still h1 hy]
          exact ⟨rfl, rfl, ⟨0, by omega, by simp, by simp⟩, id⟩
      refine ⟨v1, w1, 1 + n, by simp; omega, i2, step.2.2.trans i3, i4.trans step.1, i5, i6.trans step.2.1, i7, i8⟩
where
  loop_key {l : List (Nat × Referral.Info)} {u w : Vars} {k : Nat} (h : forceLoop? plan day dust dq l u = some w)
      (hk : k ∉ l.map Prod.fst) : w.ref.get k = u.ref.get k := by
    induction l generalizing u with
    | nil => injection h with h; subst h; rfl
    | cons y l ih =>
      unfold forceLoop? at h
      rw [Option.bind_eq_some_iff] at h
      obtain ⟨u', h1, h2⟩ := h
      rw [List.map_cons, List.mem_cons, not_or] at hk
      rw [ih h2 hk.2]
      by_cases hm : Moves y.2
      · obtain ⟨k', r⟩ := y
        rw [(forceOne_moves h1 hm).ref, KV.get_set_ne _ _ hk.1]
      · rw [forceOne_still h1 hm]
        simp only
        split
        · rfl
        · rw [KV.get_set_ne _ _ hk.1]

/-! ### The theorems -/

theorem force_unfold {plan day : Int} {s t : State} (h : forceGlobalDelegation? plan day s = some t) :
    ∃ dq v, Frac.reduce? ⟨second, day⟩ = some dq ∧
      forceLoop? plan day s.del.bank.params.dustDelegation dq s.ref.entries
        ⟨s.del.bank, s.del.records, s.del.sched, s.ref, plan + day, ⟨0, 1⟩, 0, 0⟩ = some v ∧
      t = ⟨⟨{ v.bank with supply := (v.bank.supply.sub ⟨v.dMain, 0, v.dRevoke, 0⟩).add ⟨0, v.dMain + v.dRevoke, 0, 0⟩ }, v.records, v.sched,
        s.del.params⟩, v.ref⟩ := by
  unfold forceGlobalDelegation? at h
  rw [Option.bind_eq_some_iff] at h
  obtain ⟨dq, h1, h⟩ := h
  rw [Option.bind_eq_some_iff] at h
  obtain ⟨v, h2, h⟩ := h
  simp only at h
  split at h
  · injection h with h
    exact ⟨dq, v, h1, h2, h.symm⟩
  · cases h

/-- C79, money: the upgrade turns all coins of the accounts concerned into delegated ones and touches no other account; no account has more
or fewer coins than before, and the supply still is the sum of the balances. -/
theorem C79_money (P plan day : Int) (s t : State) (hg : Good P s.del) (h : forceGlobalDelegation? plan day s = some t) :
    (∀ a, Joins s a → balance t.del.bank a =
      ⟨0, (balance s.del.bank a).main + (balance s.del.bank a).delegated + (balance s.del.bank a).revoking, 0, (balance s.del.bank a).other⟩) ∧
    (∀ a, ¬ Joins s a → balance t.del.bank a = balance s.del.bank a) ∧
    (∀ a, worth (balance t.del.bank a) = worth (balance s.del.bank a)) ∧
    worth t.del.bank.supply = worth s.del.bank.supply ∧
    (∀ d, t.del.bank.supply.amt d = t.del.bank.balances.sum (fun _ c => c.amt d)) := by
  obtain ⟨dq, v, -, hl, rfl⟩ := force_unfold h
  have sw := forceLoop_sweep hl
  have e1 : ∀ a, Joins s a → balance v.bank a = merged (balance s.del.bank a) := fun a ha => (sw.joined a ((joined_iff s a).2 ha)).1
  have e2 : ∀ a, ¬ Joins s a → balance v.bank a = balance s.del.bank a := fun a ha => (sw.other a (fun hh => ha ((joined_iff s a).1 hh))).1
  have hs := hg.core.supply
  have t1 := sw.main; have t2 := sw.revoking; have t3 := sw.delegated; have t4 := sw.others; have t5 := sw.supply
  simp only at t1 t2 t3 t4 t5
  refine ⟨?_, e2, ?_, ?_, ?_⟩
  · intro a ha
    show balance v.bank a = _
    rw [e1 a ha]
    simp only [merged, Coins.mk.injEq, true_and, and_true]
    ring
  · intro a
    show worth (balance v.bank a) = _
    by_cases ha : Joins s a
    · rw [e1 a ha]; simp only [worth, merged]; ring
    · rw [e2 a ha]
  · simp only [worth, Coins.add, Coins.sub, t5]
    ring
  · intro d
    have hd := hs d
    show _ = total v.bank d
    rw [t5]
    cases d <;> simp only [Coins.amt, Coins.add, Coins.sub] at hd ⊢ <;> omega

/-- C79, requests: the accounts concerned have no open requests left, those of other accounts are the same, and everything that C18 to C22
rest on still holds. -/
theorem C79_requests (P plan day : Int) (s t : State) (hg : Good P s.del) (h : forceGlobalDelegation? plan day s = some t) :
    (∀ a, Joins s a → (getRecord t.del a).requests = []) ∧
    (∀ a, ¬ Joins s a → getRecord t.del a = getRecord s.del a) ∧
    t.del.params = s.del.params ∧ t.del.bank.params = s.del.bank.params ∧ Good P t.del := by
  have hm := C79_money P plan day s t hg h
  obtain ⟨dq, v, -, hl, rfl⟩ := force_unfold h
  have sw := forceLoop_sweep hl
  have e1 : ∀ a, Joins s a → (recOf v a).requests = [] := fun a ha => (sw.joined a ((joined_iff s a).2 ha)).2
  have e2 : ∀ a, ¬ Joins s a → recOf v a = getRecord s.del a := fun a ha => (sw.other a (fun hh => ha ((joined_iff s a).1 hh))).2
  refine ⟨e1, e2, rfl, sw.params, ⟨⟨⟨?_, hm.2.2.2.2, ?_⟩, hg.params, hg.period, sw.sched.inv hg.sched, ?_, ?_⟩, ?_⟩⟩
  · intro a d
    have n1 := hg.core.nonneg a .main; have n2 := hg.core.nonneg a .delegated; have n3 := hg.core.nonneg a .revoking
    have n4 := hg.core.nonneg a d
    by_cases ha : Joins s a
    · rw [hm.1 a ha]
      cases d <;> simp only [Coins.amt] at n1 n2 n3 n4 ⊢ <;> omega
    · rw [hm.2.1 a ha]; exact n4
  · show FeeOk v.bank.params.fee
    rw [sw.params]; exact hg.core.fee
  · intro a
    by_cases ha : Joins s a
    · rw [hm.1 a ha]
      show 0 = amounts (recOf v a).requests
      rw [e1 a ha]; rfl
    · rw [hm.2.1 a ha]
      show _ = amounts (recOf v a).requests
      rw [e2 a ha]; exact hg.ledger a
  · intro a r hr
    change r ∈ (recOf v a).requests at hr
    by_cases ha : Joins s a
    · rw [e1 a ha] at hr; exact absurd hr (by simp)
    · rw [e2 a ha] at hr; exact hg.amounts a r hr
  · intro a r hr
    change r ∈ (recOf v a).requests at hr
    by_cases ha : Joins s a
    · rw [e1 a ha] at hr; exact absurd hr (by simp)
    · rw [e2 a ha] at hr
      obtain ⟨id, hp⟩ := hg.linked a r hr
      refine ⟨id, sw.sched.keep _ ?_ hp⟩
      rintro (⟨-, a', hj, hd⟩ | hd)
      · simp only [List.cons.injEq, and_true] at hd
        exact ha (hd ▸ (joined_iff s a').1 hj)
      · simp only at hd
        exact absurd hd (by decide)

/-- C79, the referral structure: no record comes or goes; banished ones are the same; in every other one the delegated totals become equal to
the totals of all coins on all levels, a planned banishment may be called off only if the account now earns interest, and all else is the
same. -/
theorem C79_totals (plan day : Int) (s t : State) (h : forceGlobalDelegation? plan day s = some t) (k : Nat) :
    (s.ref.get k = none → t.ref.get k = none) ∧
    ∀ r, s.ref.get k = some r → ∃ r', t.ref.get k = some r' ∧
      (r.banished = true → r' = r) ∧
      (r.banished = false →
        (∀ l, l ≤ 10 → r'.tot .delegated l = r.tot .coins l) ∧ (∀ l, r'.tot .coins l = r.tot .coins l) ∧
        { r' with tot := r.tot, banishmentAt := r.banishmentAt } = r ∧
        (r'.banishmentAt = r.banishmentAt ∨
          r'.banishmentAt = none ∧ ((getRecord t.del (Referral.addrOf k)).nextAccrue).isSome)) := by
  obtain ⟨dq, v, -, hl, rfl⟩ := force_unfold h
  obtain ⟨r1, r2⟩ := loop_ref (KV.keys_nodup s.ref) hl (fun x hx => KV.mem_entries.1 hx)
  refine ⟨fun hn => ?_, fun r hr => ?_⟩
  · show v.ref.get k = none
    rw [r1 k (by
      intro hk
      obtain ⟨x, hx, rfl⟩ := List.mem_map.1 hk
      rw [KV.mem_entries.1 hx] at hn
      cases hn)]
    exact hn
  · obtain ⟨r', h1, h2⟩ := r2 (k, r) (KV.mem_entries.2 hr)
    refine ⟨r', h1, fun hb => ?_, fun hb => ?_⟩
    · simpa [RefDone, hb] using h2
    · unfold RefDone at h2
      rw [if_neg (by simp [hb])] at h2
      rcases h2 with rfl | ⟨rfl, h2⟩
      · exact ⟨fun l hl => by simp [delegateAll, hl], fun l => by simp [delegateAll], rfl, .inl rfl⟩
      · exact ⟨fun l hl => by simp [delegateAll, hl], fun l => by simp [delegateAll], rfl, .inr ⟨rfl, h2⟩⟩

/-- `0 / 0` is not accepted. -/
theorem mul?_zero (y : Frac) : Frac.mul? ⟨0, 0⟩ y = none := by
  simp [Frac.mul?, Frac.reduce?, goGcd, quo?]

/-- C79, interest: the next accrual of an account whose coins are converted pays for each coin exactly the time it has been delegated.  If
interest was accruing, the time `n` of the next accrual stays, and the part `p` that will be left out makes it count what was delegated
before for the whole day and what has been added from the upgrade on.  Otherwise, if the account now has more than dust, its accrual starts:
at most a second per record less than a day after the upgrade, all coins counting from the upgrade on.  Else it does not earn.  (Provided the
account has only one unbanished record.) -/
theorem C79_interest_partial (P plan day : Int) (s t : State) (hg : Good P s.del) (hday : 0 < day)
    (h : forceGlobalDelegation? plan day s = some t) (k : Nat) (r : Referral.Info) (hr : s.ref.get k = some r) (hb : r.banished = false)
    (hc : r.tot .coins 0 ≠ r.tot .delegated 0)
    (hone : ∀ k' r', s.ref.get k' = some r' → r'.banished = false → r'.tot .coins 0 ≠ r'.tot .delegated 0 →
      Referral.addrOf k' = Referral.addrOf k → k' = k)
    (a : Nat) (ha : a = Referral.addrOf k) (b : Coins) (hbal : b = balance s.del.bank a) :
    (∀ n, (getRecord s.del a).nextAccrue = some n → ∃ p, getRecord t.del a = ⟨some n, [], some p⟩ ∧ 0 < p.denom ∧
      ((b.main + b.delegated + b.revoking : ℤ) : ℚ) * (1 - p.toRat) * day = b.delegated * day + (b.main + b.revoking) * (n - plan)) ∧
    ((getRecord s.del a).nextAccrue = none → s.del.bank.params.dustDelegation < b.main + b.delegated + b.revoking →
      ∃ n p, getRecord t.del a = ⟨some n, [], some p⟩ ∧ 0 < p.denom ∧ (1 - p.toRat) * day = n - plan ∧
        plan + day - s.ref.entries.length * second ≤ n ∧ n < plan + day ∧
        (∃ id, Schedule.Pending t.del.sched ⟨n, accrueHook, [a], id⟩) ∧ ∀ r', t.ref.get k = some r' → r'.banishmentAt = none) ∧
    ((getRecord s.del a).nextAccrue = none → b.main + b.delegated + b.revoking ≤ s.del.bank.params.dustDelegation →
      (getRecord t.del a).nextAccrue = none) := by
  subst ha
  have n1 := hg.core.nonneg (Referral.addrOf k) .main
  have n2 := hg.core.nonneg (Referral.addrOf k) .delegated
  have n3 := hg.core.nonneg (Referral.addrOf k) .revoking
  simp only [Coins.amt, ← hbal] at n1 n2 n3
  obtain ⟨dq, v, hdq, hl, rfl⟩ := force_unfold h
  obtain ⟨v1, w1, n, hn, rd, tk, e1, e2, e3, e4, e5⟩ := loop_split hl (KV.mem_entries.2 hr) ⟨hb, hc⟩
    (fun y hy hm hya => hone y.1 y.2 (KV.mem_entries.1 hy) hm.1 hm.2 hya) (KV.keys_nodup s.ref)
  simp only at e1 e3
  change recOf v1 (Referral.addrOf k) = getRecord s.del (Referral.addrOf k) at e1
  have hrec : getRecord (⟨{ v.bank with supply := (v.bank.supply.sub ⟨v.dMain, 0, v.dRevoke, 0⟩).add ⟨0, v.dMain + v.dRevoke, 0, 0⟩ },
      v.records, v.sched, s.del.params⟩ : Delegating.State) (Referral.addrOf k) = recOf w1 (Referral.addrOf k) := e2
  rw [hrec, ← e1]
  have hnx := rd.next
  have hrf := rd.ref
  rw [e3, ← hbal] at hnx hrf
  have hz : (merged b).delegated = b.main + b.delegated + b.revoking := by simp only [merged]; ring
  rw [hz] at hnx hrf
  have hdayq : (day : ℚ) ≠ 0 := by exact_mod_cast hday.ne'
  obtain ⟨dq', f1, f2, -, f3⟩ := Frac.reduce?_spec ⟨second, day⟩ hday.ne'
  rw [hdq] at f1
  injection f1 with f1
  subst f1
  have f4 : dq.toRat = second / day := f3
  change (∀ n, (recOf v1 _).nextAccrue = _ → _) ∧ ((recOf v1 _).nextAccrue = _ → _) ∧ ((recOf v1 _).nextAccrue = _ → _)
  cases hnx with
  | running next p g1 g2 g3 g4 g5 g6 =>
    change (recOf v1 (Referral.addrOf k)).nextAccrue = _ at g1
    rw [g1]
    refine ⟨fun n hn => ?_, fun hh => (by cases hh), fun hh => (by cases hh)⟩
    injection hn with hn
    subst hn
    have d1 : b.main + b.delegated + b.revoking ≠ 0 := by
      intro hh
      rw [hh, show b.main + b.revoking = 0 by omega, show wrap64 0 = 0 from rfl, mul?_zero] at g3
      cases g3
    obtain ⟨z, z1, z2, -, z3⟩ := Frac.mul?_spec ⟨wrap64 (b.main + b.revoking), b.main + b.delegated + b.revoking⟩ ⟨plan - (next - day), day⟩ d1 hday.ne'
    rw [g3] at z1
    injection z1 with z1
    subst z1
    refine ⟨p, by unfold recOf; rw [g4, KV.get_set_self]; rfl, z2, ?_⟩
    have hlt : b.main + b.delegated + b.revoking < 2 ^ 63 := by
      unfold sdkInt64? at g2
      split at g2
      · next hh => simp only [isInt64, decide_eq_true_eq] at hh; exact hh.2
      · cases g2
    rw [z3, Delegating.wrap64_eq ⟨by norm_num; omega, by omega⟩]
    have hT : ((b.main + b.delegated + b.revoking : ℤ) : ℚ) ≠ 0 := by exact_mod_cast d1
    unfold Frac.toRat
    push_cast at hT ⊢
    field_simp
    ring
  | starts q g1 g2 g3 g4 g5 g6 g7 =>
    change (recOf v1 (Referral.addrOf k)).nextAccrue = _ at g1
    rw [g1]
    refine ⟨fun n hn => (by cases hn), fun _ _ => ?_, fun _ hh => by omega⟩
    obtain ⟨d1, d2⟩ := add?_denoms g3
    obtain ⟨z, z1, z2, -, -, -, z3⟩ := Frac.add?_spec _ _ d1 d2
    rw [g3] at z1
    injection z1 with z1
    subst z1
    obtain ⟨⟨j, j1, j2, j3⟩, -⟩ := tk
    simp only at j2 j3
    have j0 : (⟨0, 1⟩ : Frac).toRat = 0 := by norm_num [Frac.toRat]
    refine ⟨v1.t - second, q, by unfold recOf; rw [g4, KV.get_set_self]; rfl, z2, ?_, ?_, ?_, ?_, ?_⟩
    · rw [z3, j3, j2, f4, j0]
      push_cast
      field_simp
      ring
    · rw [j2]
      have : (j : ℤ) + 1 ≤ s.ref.entries.length := by exact_mod_cast (by omega : j + 1 ≤ s.ref.entries.length)
      have h2 : (0 : ℤ) < second := by decide
      nlinarith
    · rw [j2]
      have h2 : (0 : ℤ) < second := by decide
      have : (0 : ℤ) ≤ j * second := by positivity
      omega
    · obtain ⟨id, hp⟩ := g7
      exact ⟨id, e5 _ rfl hp⟩
    · intro r' hr'
      change v.ref.get k = _ at hr'
      rw [e4, hrf, KV.get_set_self, if_pos ⟨g1, g2⟩] at hr'
      injection hr' with hr'
      rw [← hr']
  | dust g1 g2 g3 g4 g5 =>
    change (recOf v1 (Referral.addrOf k)).nextAccrue = _ at g1
    rw [g1]
    refine ⟨fun n hn => (by cases hn), fun _ hh => (by omega), fun _ _ => ?_⟩
    unfold recOf
    rw [g3]
    split
    · exact g1
    · rw [KV.get_erase_self]; rfl

/-! ### When the upgrade goes through -/

theorem dropTasks_some {a : Nat} {l : List Request} (h : ∀ r ∈ l, Schedule.inRange r.time = true) (s : Schedule.State) :
    (dropTasks? a l s).isSome := by
  induction l generalizing s with
  | nil => rfl
  | cons r l ih =>
    unfold dropTasks?
    simp only [Option.bind_eq_bind, Schedule.Req.exec?, Schedule.delete?, h r (by simp), if_true]
    split <;> exact ih (fun x hx => h x (by simp [hx])) _

/-- What one round needs. -/
structure Fit (v : Vars) (k : Nat) (r : Referral.Info) : Prop where
  nonneg : ∀ d, 0 ≤ (balance v.bank (Referral.addrOf k)).amt d
  small : (merged (balance v.bank (Referral.addrOf k))).delegated < 2 ^ 63
  filled : (merged (balance v.bank (Referral.addrOf k))).delegated ≠ 0
  times : ∀ x ∈ (recOf v (Referral.addrOf k)).requests, Schedule.inRange x.time = true
  banish : ∀ x, r.banishmentAt = some x → Schedule.inRange x = true

theorem forceOne_some {plan day dust : Int} {dq : Frac} {v : Vars} {k : Nat} {r : Referral.Info} (hday : 0 < day) (hdq : 0 < dq.denom)
    (hq : 0 < v.q.denom) (ht : second ≤ v.t ∧ v.t < Schedule.timeEnd) (hf : Moves r → Fit v k r) :
    (forceOne? plan day dust dq v (k, r)).isSome := by
  unfold forceOne?
  simp only
  split
  · rfl
  next hb =>
  split
  · rfl
  next hc =>
  have f := hf ⟨by simpa using hb, hc⟩
  have n1 := f.nonneg .main; have n2 := f.nonneg .delegated; have n3 := f.nonneg .revoking; have n4 := f.small; have n5 := f.filled
  simp only [Coins.amt, merged] at n1 n2 n3 n4 n5
  rw [if_neg (by omega)]
  have i64 : ∀ x : Int, 0 ≤ x → x < 2 ^ 63 → sdkInt64? x = some x := by
    intro x h1 h2
    unfold sdkInt64?
    rw [if_pos (by simp only [isInt64, decide_eq_true_eq]; omega)]
  obtain ⟨sched, hs⟩ := Option.isSome_iff_exists.1 (dropTasks_some (a := Referral.addrOf k) f.times v.sched)
  unfold recOf at hs
  rw [hs, Option.bind_some, i64 _ n1 (by omega), i64 _ n3 (by omega), i64 _ (by omega) n4]
  split
  · next next hn =>
    obtain ⟨z, hz, -⟩ := Frac.mul?_spec ⟨wrap64 ((balance v.bank (Referral.addrOf k)).main + (balance v.bank (Referral.addrOf k)).revoking), _⟩
      ⟨plan - (next - day), day⟩ n5 hday.ne'
    simp only [Option.bind_some, hz]
    rfl
  · rw [Option.bind_some]
    split
    · obtain ⟨z, hz, -⟩ := Frac.add?_spec v.q dq hq.ne' hdq.ne'
      have h2 : (0 : ℤ) < second := by decide
      rw [hz, Option.bind_some]
      simp only [Schedule.Req.exec?, Schedule.schedule?]
      rw [if_pos (by simp only [Schedule.inRange, decide_eq_true_eq]; omega), Option.bind_some]
      split
      · next time ht =>
        simp only [Schedule.delete?, f.banish time ht, if_true]
        split <;> rfl
      · rfl
    · rfl

theorem forceLoop_some {plan day dust : Int} {dq : Frac} {l : List (Nat × Referral.Info)} {v : Vars} (hday : 0 < day) (hdq : 0 < dq.denom)
    (hq : 0 < v.q.denom) (ht : l.length * second ≤ v.t ∧ v.t < Schedule.timeEnd) (hf : ∀ x ∈ l, Moves x.2 → Fit v x.1 x.2)
    (hk : (l.map Prod.fst).Nodup)
    (hone : ∀ x ∈ l, ∀ y ∈ l, Moves x.2 → Moves y.2 → Referral.addrOf y.1 = Referral.addrOf x.1 → y.1 = x.1) :
    (forceLoop? plan day dust dq l v).isSome := by
  induction l generalizing v with
  | nil => rfl
  | cons y l ih =>
    have h2 : (0 : ℤ) < second := by decide
    have hlen : ((y :: l).length : ℤ) = l.length + 1 := by simp
    rw [hlen] at ht
    have hl0 : (0 : ℤ) ≤ l.length * second := by positivity
    obtain ⟨k, r⟩ := y
    obtain ⟨u, hu⟩ := Option.isSome_iff_exists.1 (forceOne_some (plan := plan) (dust := dust) (k := k) (r := r) hday hdq hq
      ⟨by nlinarith, ht.2⟩ (hf (k, r) (by simp)))
    unfold forceLoop?
    rw [hu, Option.bind_some]
    rw [List.map_cons, List.nodup_cons] at hk
    have step : Ticks dq 1 v u ∧ ∀ x ∈ l, Moves x.2 →
        recOf u (Referral.addrOf x.1) = recOf v (Referral.addrOf x.1) ∧
        balance u.bank (Referral.addrOf x.1) = balance v.bank (Referral.addrOf x.1) := by
      by_cases hy : Moves r
      · have hr := forceOne_moves hu hy
        refine ⟨hr.next.ticks, fun x hx hm => ?_⟩
        have hne : Referral.addrOf x.1 ≠ Referral.addrOf k := fun hh => by
          have : x.1 ∈ l.map Prod.fst := List.mem_map_of_mem hx
          rw [hone (k, r) (by simp) x (by simp [hx]) hy hm hh] at this
          exact hk.1 this
        exact ⟨hr.next.other hne, by rw [hr.bank, balance_setRaw, if_neg hne]⟩
      · rw [forceOne_still hu hy]
        exact ⟨⟨⟨0, by omega, by simp, by simp⟩, id⟩, fun x hx hm => ⟨rfl, rfl⟩⟩
    obtain ⟨⟨⟨j, j1, j2, -⟩, j4⟩, hsame⟩ := step
    have hj : (j : ℤ) ≤ 1 := by exact_mod_cast j1
    have hj0 : (0 : ℤ) ≤ j := by positivity
    refine ih (j4 hq) ⟨?_, ?_⟩ ?_ hk.2 (fun x hx z hz => hone x (by simp [hx]) z (by simp [hz]))
    · rw [j2]; nlinarith
    · rw [j2]; nlinarith
    · intro x hx hm
      have f := hf x (by simp [hx]) hm
      obtain ⟨s1, s2⟩ := hsame x hx hm
      exact ⟨by rw [s2]; exact f.nonneg, by rw [s2]; exact f.small, by rw [s2]; exact f.filled, by rw [s1]; exact f.times, f.banish⟩

theorem total_nonneg {b : Bank.State} (h : NonNeg b) (d : Denom) : 0 ≤ total b d := by
  refine KV.sum_nonneg fun a c hc => ?_
  have := h a d
  unfold balance at this
  rw [hc] at this
  exact this

/-- C79: the upgrade does not stop the chain, if the records of the accounts concerned show what the accounts have, no amount exceeds what
fits in 64 bits, and all times are within the range of the schedule. -/
theorem C79_goes_through (P plan day : Int) (s : State) (hg : Good P s.del) (hday : 0 < day)
    (htime : s.ref.entries.length * second ≤ plan + day ∧ plan + day < Schedule.timeEnd)
    (hown : ∀ k r, s.ref.get k = some r → r.banished = false →
      r.tot .coins 0 = (balance s.del.bank (Referral.addrOf k)).main + (balance s.del.bank (Referral.addrOf k)).delegated +
        (balance s.del.bank (Referral.addrOf k)).revoking ∧
      r.tot .delegated 0 = (balance s.del.bank (Referral.addrOf k)).delegated ∧ r.tot .coins 0 < 2 ^ 63)
    (hban : ∀ k r x, s.ref.get k = some r → r.banishmentAt = some x → 0 ≤ x ∧ x < Schedule.timeEnd)
    (hone : ∀ k r k' r', s.ref.get k = some r → s.ref.get k' = some r' → Referral.addrOf k = Referral.addrOf k' → k = k') :
    ∃ t, forceGlobalDelegation? plan day s = some t := by
  obtain ⟨dq, h1, h2, -, -⟩ := Frac.reduce?_spec ⟨second, day⟩ hday.ne'
  obtain ⟨v, hv⟩ := Option.isSome_iff_exists.1 (forceLoop_some (plan := plan) (dust := s.del.bank.params.dustDelegation) (l := s.ref.entries)
    (v := ⟨s.del.bank, s.del.records, s.del.sched, s.ref, plan + day, ⟨0, 1⟩, 0, 0⟩) hday h2 (show (0 : ℤ) < 1 by decide) htime (by
      rintro ⟨k, r⟩ hx ⟨hb, hc⟩
      obtain ⟨o1, o2, o3⟩ := hown k r (KV.mem_entries.1 hx) hb
      simp only at hb hc
      have n1 := hg.core.nonneg (Referral.addrOf k) .main; have n3 := hg.core.nonneg (Referral.addrOf k) .revoking
      have n2 := hg.core.nonneg (Referral.addrOf k) .delegated
      simp only [Coins.amt] at n1 n2 n3
      refine ⟨hg.core.nonneg _, by simp only [merged]; omega, by simp only [merged]; omega, ?_, ?_⟩
      · intro x hx
        obtain ⟨id, l, hl, -⟩ := hg.linked _ x hx
        exact (hg.sched.bucket _ _ hl).2.1
      · intro x hx'
        have := hban k r x (KV.mem_entries.1 hx) hx'
        simp only [Schedule.inRange, decide_eq_true_eq]
        exact this) (KV.keys_nodup s.ref) (by
      rintro x hx y hy - - hxy
      exact hone _ _ _ _ (KV.mem_entries.1 hy) (KV.mem_entries.1 hx) hxy))
  have sw := forceLoop_sweep hv
  have t1 := sw.main; have t2 := sw.revoking; have t3 := sw.delegated; have t4 := sw.others; have t5 := sw.supply
  have t6 := sw.main0; have t7 := sw.rev0
  simp only at t1 t2 t3 t4 t5 t6 t7
  have hs := hg.core.supply
  have s1 := hs .main; have s2 := hs .delegated; have s3 := hs .revoking; have s4 := hs .other
  have hnn : NonNeg v.bank := by
    intro a d
    have n1 := hg.core.nonneg a .main; have n2 := hg.core.nonneg a .delegated; have n3 := hg.core.nonneg a .revoking
    have n4 := hg.core.nonneg a d
    by_cases ha : Joined s.ref.entries a
    · rw [(sw.joined a ha).1]
      cases d <;> simp only [Coins.amt, merged] at n1 n2 n3 n4 ⊢ <;> omega
    · rw [(sw.other a ha).1]; exact n4
  have m1 := total_nonneg hnn .main; have m2 := total_nonneg hg.core.nonneg .delegated; have m3 := total_nonneg hnn .revoking
  have m4 := total_nonneg hg.core.nonneg .other
  simp only [Coins.amt] at s1 s2 s3 s4
  unfold forceGlobalDelegation?
  rw [h1, Option.bind_some, hv, Option.bind_some]
  simp only
  rw [if_pos (by
    simp only [Coins.valid, Coins.sub, decide_eq_true_eq, t5]
    omega)]
  exact ⟨_, rfl⟩

/-! ### Emptying the collectors -/

/-- C79, collectors: if the four accounts are different ones, the company's account gets all coins of the other three, nobody else is
touched and the sum of all balances stays the same. -/
theorem C79_collectors_partial (e : Bank.Env) (company earning vpn storage : Nat) (s t : Bank.State)
    (hne : [company, earning, vpn, storage].Nodup) (h : emptyCollectors e company earning vpn storage s = (.ok (), t)) :
    balance t company = (((balance s company).add (balance s earning)).add (balance s vpn)).add (balance s storage) ∧
    balance t earning = {} ∧ balance t vpn = {} ∧ balance t storage = {} ∧
    (∀ a, a ∉ [company, earning, vpn, storage] → balance t a = balance s a) ∧
    t.supply = s.supply ∧ t.params = s.params ∧
    ∀ d, t.balances.sum (fun _ c => c.amt d) = s.balances.sum (fun _ c => c.amt d) := by
  unfold emptyCollectors at h
  have h := M.get_bind_ok.1 h
  obtain ⟨_, s1, h1, h⟩ := M.bind_ok_iff.1 h
  obtain ⟨_, s2, h2, h⟩ := M.bind_ok_iff.1 h
  obtain ⟨_, s3, h3, h4⟩ := M.bind_ok_iff.1 h
  have inv : ∀ {a c} {x y : Bank.State}, setBalance e a c x = (.ok (), y) → y = withBalance x a c := by
    intro a c x y hh
    rw [setBalance_apply] at hh
    split at hh
    · exact (Prod.mk.inj hh).2.symm
    · cases (Prod.mk.inj hh).1
  have h1 := inv h1
  have h2 := inv h2
  have h3 := inv h3
  have h4 := inv h4
  simp only [List.nodup_cons, List.mem_cons, List.not_mem_nil, or_false, not_or, List.nodup_nil, and_true, not_false_eq_true] at hne
  obtain ⟨⟨a1, a2, a3⟩, ⟨a4, a5⟩, a6⟩ := hne
  have b : ∀ a, balance t a = if a = storage then {} else if a = vpn then {} else if a = earning then {} else if a = company then
      (((balance s company).add (balance s earning)).add (balance s vpn)).add (balance s storage) else balance s a := by
    intro a
    rw [h4, balance_withBalance, h3, balance_withBalance, h2, balance_withBalance, h1, balance_withBalance]
  refine ⟨?_, ?_, ?_, ?_, ?_, ?_, ?_, ?_⟩
  · rw [b, if_neg a3, if_neg a2, if_neg a1, if_pos rfl]
  · rw [b, if_neg a5, if_neg a4, if_pos rfl]
  · rw [b, if_neg a6, if_pos rfl]
  · rw [b, if_pos rfl]
  · intro a ha
    simp only [List.mem_cons, List.not_mem_nil, or_false, not_or] at ha
    rw [b, if_neg ha.2.2.2, if_neg ha.2.2.1, if_neg ha.2.1, if_neg ha.1]
  · rw [h4, h3, h2, h1]; rfl
  · rw [h4, h3, h2, h1]; rfl
  · intro d
    show total t d = total s d
    rw [h4, total_withBalance, h3, total_withBalance, h2, total_withBalance, h1, total_withBalance]
    simp only [balance_withBalance]
    rw [if_neg (Ne.symm a1), if_neg (Ne.symm a4), if_neg (Ne.symm a2), if_neg (Ne.symm a6), if_neg (Ne.symm a5), if_neg (Ne.symm a3)]
    cases d <;> simp only [Coins.add, Coins.amt] <;> ring

end Verif.Upgrade
