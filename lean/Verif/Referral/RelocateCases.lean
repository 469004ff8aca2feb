import Verif.Referral.Relocate

/-! Property C87: examples, and what the two upgrades break. -/
namespace Verif.Referral

/-- A check of `Safe` -/
def safeB (s : State) : Bool :=
  s.store.keys.all fun k => [Fate.downgrade, .compression, .banishment].all fun κ => ((infoOf s.store k).date κ).all fun d =>
    decide (d ≤ s.now) || ((s.sched.store.get d).getD []).any (fun x => x.time == d && x.handler == κ.hook && x.data == [k])

theorem safe_iff {s : State} : Safe s ↔ safeB s = true := by
  unfold safeB
  simp only [List.all_eq_true, Option.all_eq_true, Bool.or_eq_true, decide_eq_true_eq]
  constructor
  · intro h k _ κ _ d hd
    by_cases hn : d ≤ s.now
    · exact .inl hn
    · exact .inr (booked_iff.1 (h κ k d id hd (by omega)))
  · intro h κ k d _ hd hn
    cases hg : s.store.get k with
    | none =>
      have : infoOf s.store k = {} := by unfold infoOf; rw [hg]; rfl
      rw [this] at hd
      cases κ <;> cases hd
    | some v =>
      rcases h k (KV.mem_keys.2 ⟨v, hg⟩) κ (by cases κ <;> simp) d hd with h | h
      · omega
      · exact booked_iff.2 h

/-- Account 4 will be downgraded in almost six days, account 8 in one, and account 6 banished later. -/
def queued : State :=
  let s := run [(yes, .top 2), (yes, .child 2 4), (yes, .child 2 6), (yes, .child 2 8), (yes, .times 4 none none (some 500000) none 3),
    (yes, .times 6 none (some 200015) none none 1), (yes, .times 8 none none (some 86500) none 2)] empty0
  let s := (request (.schedule 500000 downgradeHook [4]) s).2
  let s := (request (.schedule 200015 banishHook [6]) s).2
  (request (.schedule 86500 downgradeHook [8]) s).2

/-- `C87_dates`, `C87_tasks`, `C87_unknown` and `C87_still_late` apply to account 4: it is told 172900, the task waits for 500000. -/
example : (∀ T l, queued.sched.store.get T = some l → ∀ x ∈ l, x.time = T) ∧ (infoOf queued.store 4).downgradeAt = some 500000 ∧
    queued.now + 2 * queued.day < 500000 ∧
    [4, 6, 8].map (fun k => (infoOf (capDowngrades queued).store k).downgradeAt) = [some 172900, none, some 86500] ∧
    (capDowngrades queued).sched.store.entries.map (fun e => (e.1, e.2.map fun x => (x.time, x.handler, x.data))) =
      [(86500, [(86500, 6, [8])]), (200015, [(200015, 9, [6])]), (500000, [(172900, 6, [4])])] := by
  have h : (queued.sched.store.entries.all fun e => e.2.all fun x => decide (x.time = e.1)) = true := by decide +kernel
  refine ⟨fun T l hl x hx => ?_, by decide +kernel, by decide +kernel, by decide +kernel, by decide +kernel⟩
  have := List.all_eq_true.1 h (T, l) (KV.mem_entries.2 hl)
  exact of_decide_eq_true (List.all_eq_true.1 this x hx)

/-- `C87_relocated`, `C87_rescued` and `C87_rescued_in_the_end` apply to it, 100 seconds after the date account 4 was told. -/
example : (relocate? ((capDowngrades queued).waits 173000)).isSome = true ∧ 0 < queued.shift ∧ Booked queued.sched 500000 6 4 ∧
    queued.now + 2 * queued.day < 173000 ∧
    (relocate? ((capDowngrades queued).waits 173000)).any (fun t => decide (t.sched.store.entries.map (fun e => (e.1, e.2.map fun x => (x.time, x.handler, x.data))) =
      [(86500, [(86500, 6, [8])]), (173015, [(172900, 6, [4])]), (200015, [(200015, 9, [6])])])) = true :=
  ⟨by decide +kernel, by decide +kernel, booked_iff.2 (by decide +kernel), by decide +kernel, by decide +kernel⟩

/-- C87 fails: after 2.4.3, a date in the records is unknown to the scheduler. -/
theorem C87_late_violation : ∃ (s : State) (k : Key) (d : Int), Safe s ∧ (infoOf (capDowngrades s).store k).downgradeAt = some d ∧ s.now < d ∧
    ¬ Booked (capDowngrades s).sched d 6 k := by
  refine ⟨queued, 4, 172900, safe_iff.2 (by decide +kernel), by decide +kernel, by decide +kernel, fun h => ?_⟩
  have := booked_iff.1 h
  revert this
  decide +kernel

/-- C87 fails: 2.4.4 loses tasks, if there are any at the moments it chooses.  Here the scheduler knew of all dates to come, and no longer knows of the
banishment of account 6. -/
theorem C87_lost_violation : ∃ (s t : State) (k : Key) (d : Int), Safe s ∧ relocate? s = some t ∧ (infoOf t.store k).banishmentAt = some d ∧ t.now < d ∧
    Booked s.sched d banishHook k ∧ ¬ ∃ x ∈ Schedule.exportTasks t.sched, x.handler = banishHook ∧ x.data = [k] := by
  have h0 : Safe ((capDowngrades queued).waits 200000) := safe_iff.2 (by decide +kernel)
  have h1 : (relocate? ((capDowngrades queued).waits 200000)).any (fun t => decide ((infoOf t.store 6).banishmentAt = some 200015) && decide (t.now < 200015) &&
      !(Schedule.exportTasks t.sched).any fun x => x.handler == banishHook && x.data == [6]) = true := by decide +kernel
  have h2 : Booked ((capDowngrades queued).waits 200000).sched 200015 banishHook 6 := booked_iff.2 (by decide +kernel)
  cases hr : relocate? ((capDowngrades queued).waits 200000) with
  | none => rw [hr] at h1; cases h1
  | some t =>
    rw [hr] at h1
    simp only [Option.any_some, Bool.and_eq_true, decide_eq_true_eq, Bool.not_eq_true'] at h1
    refine ⟨_, t, 6, 200015, h0, hr, h1.1.1, h1.1.2, h2, ?_⟩
    rintro ⟨x, hx, h3, h4⟩
    have := List.any_eq_false.1 h1.2 x hx
    simp [h3, h4] at this

end Verif.Referral
