import Verif.Chain.UpgradeProps

/-! C79: examples, and what the assumptions are for. -/
namespace Verif.Upgrade
open Verif.Util Verif.Bank Verif.Delegating

/-! ### Examples -/

def exInfo (c d : Int) (ban : Option Int) : Referral.Info :=
  { tot := fun w l => if l = 0 then (match w with | .coins => c | .delegated => d | .active => 0) else 0, banishmentAt := ban }

/-- The same as `exampleRun`, written out. -/
def exRun : Delegating.State :=
  ⟨⟨⟨[(2, ⟨300, 0, 0, 0⟩), (5, ⟨101495, 59700, 38000, 0⟩), (6, ⟨79, 0, 0, 0⟩), (7, ⟨24, 0, 0, 0⟩)], by unfold SortedKeys; decide⟩,
      ⟨101898, 59700, 38000, 0⟩, exampleStart.bank.params⟩,
    ⟨[(5, ⟨some 2500, [⟨4500, 38000⟩], none⟩)], by unfold SortedKeys; decide⟩,
    ⟨⟨[(2500, [⟨2500, 1, [5], 2⟩]), (4500, [⟨4500, 0, [5], 3⟩])], by unfold SortedKeys; decide⟩, 4⟩, exampleParams⟩

theorem exRun_eq : exampleRun = exRun := by
  have h1 : exampleRun.bank.balances = exRun.bank.balances := by decide +kernel
  have h2 : exampleRun.bank.supply = exRun.bank.supply := by decide +kernel
  have h3 : exampleRun.bank.params = exRun.bank.params := by decide +kernel
  have h4 : exampleRun.records = exRun.records := by decide +kernel
  have h5 : exampleRun.sched.store = exRun.sched.store := by decide +kernel
  have h6 : exampleRun.sched.next = exRun.sched.next := by decide +kernel
  have h7 : exampleRun.params = exRun.params := by decide +kernel
  generalize exampleRun = x at *
  obtain ⟨⟨b1, b2, b3⟩, r, ⟨c1, c2⟩, p⟩ := x
  simp only at h1 h2 h3 h4 h5 h6 h7
  subst h1 h2 h3 h4 h5 h6 h7
  rfl

theorem exRun_good : Good 100 exRun := exRun_eq ▸ exampleRun_reachable.good

/-- Account 5 earns interest, has a request open, and coins that are not delegated. -/
def exRunning : State := ⟨exRun, KV.empty.set 10 (exInfo 199195 59700 none)⟩

/-- Nobody earns interest; account 6 is to be banished at 5000. -/
def exStarting : State := ⟨exampleStart, (KV.empty.set 10 (exInfo 200000 0 none)).set 12 (exInfo 30 0 (some 5000))⟩

-- half the day has passed at 2000: 139495 of 199195 coins are counted for the other half only
example : ((forceGlobalDelegation? 2000 1000 exRunning).map fun t =>
    (balance t.del.bank 5, getRecord t.del 5, t.del.bank.supply)) =
    some (⟨0, 199195, 0, 0⟩, ⟨some 2500, [], some ⟨27899, 79678⟩⟩, ⟨403, 199195, 0, 0⟩) ∧
    balance exRun.bank 5 = ⟨101495, 59700, 38000, 0⟩ ∧ Good 100 exRunning.del :=
  ⟨by decide +kernel, by decide +kernel, exRun_good⟩

example : ((forceGlobalDelegation? 1000000000000000 86400000000000 exStarting).map fun t =>
    (getRecord t.del 5, getRecord t.del 6, t.del.bank.supply, (t.ref.get 12).map (·.banishmentAt))) =
    some (⟨some 1086399000000000, [], some ⟨1, 86400⟩⟩, ⟨some 1086398000000000, [], some ⟨2, 86400⟩⟩, ⟨0, 200030, 0, 0⟩,
      some none) := by decide +kernel

-- the hypotheses of `C79_interest_partial` and `C79_goes_through`
example : ∃ t, forceGlobalDelegation? 1000000000000000 86400000000000 exStarting = some t := by
  have hget : ∀ k r, exStarting.ref.get k = some r → (k = 12 ∧ r = exInfo 30 0 (some 5000)) ∨ (k = 10 ∧ r = exInfo 200000 0 none) := by
    intro k r h
    simp only [exStarting, KV.get_set] at h
    split_ifs at h with h1 h2
    · exact .inl ⟨h1, (Option.some.inj h).symm⟩
    · exact .inr ⟨h2, (Option.some.inj h).symm⟩
    · simp at h
  have b5 : balance exStarting.del.bank 5 = ⟨200000, 0, 0, 0⟩ := by decide +kernel
  have b6 : balance exStarting.del.bank 6 = ⟨30, 0, 0, 0⟩ := by decide +kernel
  refine C79_goes_through 100 _ _ _ (Reachable.good ⟨_, exampleStart_ok, .refl _⟩) (by norm_num) (by decide +kernel) ?_ ?_ ?_
  · intro k r h _
    rcases hget k r h with ⟨rfl, rfl⟩ | ⟨rfl, rfl⟩
    · rw [show Referral.addrOf 12 = 6 from rfl, b6]; decide
    · rw [show Referral.addrOf 10 = 5 from rfl, b5]; decide
  · intro k r x h hx
    rcases hget k r h with ⟨rfl, rfl⟩ | ⟨rfl, rfl⟩
    · simp only [exInfo, Option.some.injEq] at hx; subst hx; decide
    · simp [exInfo] at hx
  · intro k r k' r' h h' he
    rcases hget k r h with ⟨rfl, rfl⟩ | ⟨rfl, rfl⟩ <;> rcases hget k' r' h' with ⟨rfl, rfl⟩ | ⟨rfl, rfl⟩
    · rfl
    · exact absurd he (by decide)
    · exact absurd he (by decide)
    · rfl

example : (emptyCollectors ⟨fun _ _ => .ok (), fun _ => true, fun _ => false, 1, 2⟩ 6 5 3 4 exampleStart.bank).1 = .ok () ∧
    balance (emptyCollectors ⟨fun _ _ => .ok (), fun _ => true, fun _ => false, 1, 2⟩ 6 5 3 4 exampleStart.bank).2 6 = ⟨200030, 0, 0, 0⟩ := by
  decide +kernel

/-! ### What the assumptions are for -/

/-- C79 fails: a second record of the same account under another spelling of its address makes the round be done twice; the second
finds no coins to add and notes that nothing was missed, so that coins delegated at 2000 earn from 1500 on. -/
theorem C79_two_spellings_violation : ∃ s : State, Good 100 s.del ∧ ((forceGlobalDelegation? 2000 1000 s).map fun t =>
    (balance s.del.bank 5, getRecord t.del 5)) = some (⟨101495, 59700, 38000, 0⟩, ⟨some 2500, [], some ⟨0, 1⟩⟩) :=
  ⟨⟨exRun, (KV.empty.set 10 (exInfo 199195 59700 none)).set 11 (exInfo 199195 59700 none)⟩, exRun_good, by decide +kernel⟩

/-- C79 fails for the collectors, if the company's account is one of them: its coins are gone, the supply still counts them. -/
theorem C79_collectors_violation : ∃ (e : Bank.Env) (s t : Bank.State), SupplyEq s ∧ emptyCollectors e 5 5 3 4 s = (.ok (), t) ∧
    t.supply.main = 200030 ∧ t.balances.sum (fun _ c => c.main) = 30 :=
  ⟨⟨fun _ _ => .ok (), fun _ => true, fun _ => false, 1, 2⟩, exampleStart.bank, _, (Reachable.good ⟨_, exampleStart_ok, .refl _⟩).core.supply,
    Prod.ext (by decide +kernel) rfl, by decide +kernel, by decide +kernel⟩

end Verif.Upgrade
