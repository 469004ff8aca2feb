import Verif.Referral.Relegate
import Verif.Referral.QueryProps
import Verif.Referral.AnnounceCases
import Verif.Referral.Recount

/-! The requirements of C63, C80, C83, C86 and C88 for executions in order: there the assumption on the numbers (`Tame`) holds. -/
namespace Verif.Referral

/-- No account has a negative delegation, all of them together are less than 2⁶³, and there are less than 2⁶⁴ accounts. -/
structure Modest (S : State) : Prop where
  own : ∀ c, 0 ≤ (infoOf S.store c).tot .delegated 0
  sum : (S.store.keys.map fun c => (infoOf S.store c).tot .delegated 0).sum < 9223372036854775808
  few : S.store.keys.length < 2 ^ 64

theorem tame_in_order {l : List (Env × Op)} {s : State} (h0 : s.start) (hw : s.work = KV.empty) (h : Along acceptOk l s) (hm : Modest (run l s)) (k : Key) :
    Tame (run l s).store (infoOf (run l s).store k) ∧ (infoOf (run l s).store k).status ≤ 9 := by
  obtain ⟨ht, hl, hlow⟩ := accept_inv l s h0 hw h
  exact ⟨ht.tame hl hm.own hm.sum hm.few k, hlow.store k⟩

/-- The requirements of C63 for executions in order: the requirements that are checked are those of the specification. -/
theorem requirements_in_order (l : List (Env × Op)) (s : State) (h0 : s.start) (hw : s.work = KV.empty) (h : Along acceptOk l s) (hm : Modest (run l s))
    (k : Key) (q : Nat) (hq : isStatus q) :
    ∃ b, meets (run l s).store q (infoOf (run l s).store k) = some b ∧ (b = true ↔ Deserves (run l s).store (infoOf (run l s).store k) q) :=
  C63_requirements (tame_in_order h0 hw h hm k).1 hq

/-- C80 for executions in order: the refresh goes through and treats every account as its structure demands. -/
theorem C80_in_order_partial (l : List (Env × Op)) (s : State) (h0 : s.start) (hw : s.work = KV.empty) (h : Along acceptOk l s) (hm : Modest (run l s))
    (e : Env) (he : ∀ c k, e.call c k = true) (hn : Schedule.inRange ((run l s).now + 2 * (run l s).day) = true) :
    let S := run l s
    ∃ t, refresh e S = (.ok (), t) ∧ (∀ k, S.store.get k = none → t.store.get k = none) ∧
      ∀ k r, S.store.get k = some r → ∃ r', t.store.get k = some r' ∧ Checked S.store S.now S.day t.sched k r r' := by
  intro S
  have ht : ∀ k r, S.store.get k = some r → Tame S.store r ∧ r.status ≤ 9 := fun k r hr => by
    have := tame_in_order h0 hw h hm k
    rwa [infoOf_get hr] at this
  obtain ⟨t, hr⟩ := C80_goes_through e he S ht hn
  exact ⟨t, hr, C80_refresh e S t hr ht⟩

/-- C86 for executions in order: version 2.4.5 goes through, every account out of business without a date of banishment gets one that is backed by a
task, and no record comes or goes. -/
theorem C86_in_order_partial (l : List (Env × Op)) (s : State) (h0 : s.start) (hw : s.work = KV.empty) (h : Along acceptOk l s) (hm : Modest (run l s))
    (e : Env) (he : ∀ c k, e.call c k = true) (hn : Schedule.inRange ((run l s).now + 2 * (run l s).day) = true)
    (hd : ∀ i : Nat, i < (run l s).store.keys.length → Schedule.inRange ((run l s).now + (run l s).day.tdiv 24 + (run l s).shift * (i + 1)) = true) :
    let S := run l s
    ∃ t, announce e S = (.ok (), t) ∧ (∀ k, S.store.get k = none → t.store.get k = none) ∧
      ∀ k r, S.store.get k = some r → ∃ r', t.store.get k = some r' ∧
        (Lapsed S k r → ∃ x, r'.banishmentAt = some x ∧ Booked t.sched x banishHook k) := by
  intro S
  have ht : ∀ k r, S.store.get k = some r → Tame S.store r ∧ r.status ≤ 9 := fun k r hr => by
    have := tame_in_order h0 hw h hm k
    rwa [infoOf_get hr] at this
  obtain ⟨t, hr⟩ := C86_goes_through e he S ht hn hd
  obtain ⟨ls, -, -, -, g1, g2, -⟩ := C86_announced e S t hr ht
  refine ⟨t, hr, g1, fun k r hk => ?_⟩
  obtain ⟨r', q1, q2, -⟩ := g2 k r hk
  exact ⟨r', q1, fun hl => ⟨_, (q2 hl).1, (q2 hl).2.1⟩⟩

/-- C88 for executions in order: the lists are right before the upgrade, so it goes through and changes no record. -/
theorem C88_in_order_partial (l : List (Env × Op)) (s : State) (h0 : s.start) (hw : s.work = KV.empty) (h : Along acceptOk l s) (hm : Modest (run l s))
    (e : Env) (he : ∀ c k, e.call c k = true) (hn : Schedule.inRange ((run l s).now + 2 * (run l s).day) = true) :
    ∃ t, recount e (run l s) = (.ok (), t) ∧ ∀ k, t.store.get k = (run l s).store.get k := by
  obtain ⟨tally, hl, hlow⟩ := accept_inv l s h0 hw h
  have cur : ∀ k c, c ∈ (infoOf (run l s).store k).activeReferrals ↔
      c ∈ (infoOf (run l s).store k).referrals ∧ (infoOf (run l s).store c).active = true := (hl.actives tally.good).exact
  have ht : ∀ k r, (run l s).store.get k = some r → Tame (run l s).store { r with activeReferrals := r.referrals.filter fun c => (infoOf (run l s).store c).active } ∧
      r.status ≤ 9 := fun k r hr => by
    have g := tame_in_order h0 hw h hm k
    have hc := cur k
    rw [infoOf_get hr] at g hc
    refine ⟨⟨g.1.money, fun c hm => g.1.kids c ((hc c).2 ?_)⟩, g.2⟩
    exact List.mem_filter.1 hm
  have hk : ∀ k r, (run l s).store.get k = some r → ∀ c ∈ r.activeReferrals, ∃ v, (run l s).store.get c = some v := fun k r hr c hm' => by
    have g := (tame_in_order h0 hw h hm k).1
    rw [infoOf_get hr] at g
    obtain ⟨v, hv, -⟩ := g.kids c hm'
    exact ⟨v, hv⟩
  obtain ⟨t, hr⟩ := C88_goes_through e he _ ht hk hn
  obtain ⟨g1, g2, -⟩ := C88_recounted e _ t hr ht
  refine ⟨t, hr, fun k => ?_⟩
  cases hg : (run l s).store.get k with
  | none => exact g1 k hg
  | some r =>
    obtain ⟨r', q1, -, q3, -⟩ := g2 k r hg
    have : Current (run l s).store r := by
      have hc := cur k
      rw [infoOf_get hg] at hc
      intro c
      rw [hc c]
      refine and_congr_right fun _ => ⟨fun ha => ?_, fun ⟨v, hv, ha⟩ => by rw [infoOf_get hv]; exact ha⟩
      cases hv : (run l s).store.get c with
      | none => unfold infoOf at ha; rw [hv] at ha; cases ha
      | some v => exact ⟨v, rfl, by rwa [infoOf_get hv] at ha⟩
    rw [q1, q3 this]

/-- C83, statuses, for executions in order: the query about an existing status says whether the account deserves it. -/
theorem C83_status_in_order_partial (l : List (Env × Op)) (s : State) (h0 : s.start) (hw : s.work = KV.empty) (h : Along acceptOk l s)
    (hm : Modest (run l s)) (k : Key) (q : Nat) (h1 : 1 ≤ q) (h9 : q ≤ 9) (h8 : q ≠ 8) :
    ∃ b, queryCheckStatus (run l s).store k q = .ok b ∧ (b = true ↔ Deserves (run l s).store (infoOf (run l s).store k) q) :=
  (C83_status _ k q).2 (tame_in_order h0 hw h hm k).1 h1 h9 h8

theorem network_in_order : Along acceptOk network empty0 :=
  ⟨⟨trivial, trivial⟩, ⟨(show (4 : Nat) ≠ 2 by decide), trivial⟩, ⟨(show (6 : Nat) ≠ 2 by decide), trivial⟩,
    ⟨(show (8 : Nat) ≠ 4 by decide), trivial⟩, ⟨(show (10 : Nat) ≠ 4 by decide), trivial⟩, ⟨(show (12 : Nat) ≠ 6 by decide), trivial⟩,
    ⟨(show (14 : Nat) ≠ 6 by decide), trivial⟩, ⟨trivial, trivial⟩, trivial⟩

theorem modest_of_check {S : State} (h : ∀ c ∈ S.store.keys, 0 ≤ (infoOf S.store c).tot .delegated 0)
    (hs : (S.store.keys.map fun c => (infoOf S.store c).tot .delegated 0).sum < 9223372036854775808) (hn : S.store.keys.length < 2 ^ 64) : Modest S := by
  refine ⟨fun c => ?_, hs, hn⟩
  by_cases hc : c ∈ S.store.keys
  · exact h c hc
  · rw [mem_keys_of_has] at hc
    rw [infoOf_of_not_has (by simpa using hc)]

theorem network_modest : Modest (run network empty0) := modest_of_check (by decide +kernel) (by decide +kernel) (by decide +kernel)

/-- Account 2 deserves status 2 and does not deserve status 3. -/
example : empty0.start ∧ empty0.work = KV.empty ∧ queryCheckStatus (run network empty0).store 2 2 = .ok true ∧
    queryCheckStatus (run network empty0).store 2 3 = .ok false ∧
    Schedule.inRange ((run network empty0).now + 2 * (run network empty0).day) = true := by
  refine ⟨rfl, rfl, ?_, ?_, ?_⟩ <;> decide +kernel

example : Deserves (run network empty0).store (infoOf (run network empty0).store 2) 2 := by
  obtain ⟨b, hb, hd⟩ := C83_status_in_order_partial network empty0 rfl rfl network_in_order network_modest 2 2 (by decide) (by decide) (by decide)
  have e : queryCheckStatus (run network empty0).store 2 2 = .ok true := by decide +kernel
  rw [e] at hb
  injection hb with hb
  exact hd.1 hb.symm

/-- The premises of `C86_in_order_partial` hold for the accounts of the example of C86, of which three are out of business and have no date. -/
example : Along acceptOk forgotten empty0 ∧ Modest (run forgotten empty0) := by
  refine ⟨⟨⟨trivial, trivial⟩, ⟨⟨(show (4 : Nat) ≠ 2 by decide), by decide +kernel⟩, trivial⟩, ⟨⟨(show (6 : Nat) ≠ 2 by decide), by decide +kernel⟩, trivial⟩,
    ⟨⟨(show (8 : Nat) ≠ 4 by decide), by decide +kernel⟩, trivial⟩, ⟨⟨(show (10 : Nat) ≠ 4 by decide), by decide +kernel⟩, trivial⟩,
    ⟨⟨(show (12 : Nat) ≠ 6 by decide), by decide +kernel⟩, trivial⟩, ⟨.inl rfl, (show (1 : Nat) ≤ 9 by decide)⟩, ⟨trivial, trivial⟩,
    ⟨(show (infoOf _ _).banished = false by decide +kernel), trivial⟩, trivial⟩, ?_⟩
  exact modest_of_check (by decide +kernel) (by decide +kernel) (by decide +kernel)

/-- `network` has accounts with active referrals, and the upgrade of C88 changes nothing. -/
example : [2, 4, 6].map (fun k => (infoOf (run network empty0).store k).activeReferrals) = [[4, 6], [8, 10], [12, 14]] ∧
    [2, 4, 6].map (fun k => (infoOf (recount yes (run network empty0)).2.store k).activeReferrals) = [[4, 6], [8, 10], [12, 14]] := by
  refine ⟨?_, ?_⟩ <;> decide +kernel

end Verif.Referral
