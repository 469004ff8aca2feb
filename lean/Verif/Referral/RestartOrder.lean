import Verif.Referral.Restart
import Verif.Referral.Order

/-! Property C102, the order of the lists of active referrals: a new chain starts with lists in order. -/
namespace Verif.Referral.Order

theorem refresh_gives (e : Env) : Gives InStore (fun _ => True) (refresh e) := by
  intro s hs
  have h : Gives Both (fun _ => True) (M.get >>= fun s : State => M.forEach s.store.keys (fun k => must (update k true fun v => pure (v, ()))) >>=
      fun _ => must (commit e)) :=
    Gives.get.bind fun s _ => (Gives.forEach (fun k => .must (update_gives (Q := fun _ => True) k true fun v hv => .pure ⟨hv, trivial⟩)) _).bind
      fun _ _ => .must (commit_gives e)
  have := h { s with work := s.store, calls := [] } ⟨hs, hs⟩
  exact ⟨this.1.1, this.2⟩

theorem importFields_gives (g : GenesisFile) : Gives Both (fun _ => True) (importFields g) := by
  refine (Gives.forEach (fun x => update_gives (Q := fun _ => True) _ _ fun v hv => .pure ⟨?_, trivial⟩) _).bind fun _ _ =>
    (Gives.forEach (fun x => update_gives (Q := fun _ => True) _ _ fun v hv => .pure ⟨?_, trivial⟩) _).bind fun _ _ =>
    (Gives.forEach (fun x => update_gives (Q := fun _ => True) _ _ fun v hv => (setStatus_gives hv _ _).bind fun w hw =>
      .pure ⟨?_, trivial⟩) _).bind fun _ _ =>
    (Gives.forEach (fun x => update_gives (Q := fun _ => True) _ _ fun v hv => .pure ⟨?_, trivial⟩) _).bind fun _ _ => .pure trivial
  · exact hv
  · exact hv
  · exact hw
  · exact hv

theorem importGenesis_gives (e : Env) (g : GenesisFile) : Gives InStore (fun _ => True) (importGenesis e g) :=
  (Gives.forEach (fun k => .must (addTopLevel_gives e k)) _).bind fun _ _ =>
    (Gives.forEach (fun _ => Gives.forEach (fun c => .must (appendChild_gives e _ c _ _)) _) _).bind fun _ _ =>
    (Gives.forEach (fun _ => importBanished_gives _ _) _).bind fun _ _ => bunch_gives e (importFields_gives g)

theorem restart_gives (e : Env) (g : GenesisFile) (purses : List (Addr × Purse)) (active : List Key) :
    Gives InStore (fun _ => True) (restart e g purses active) :=
  (importGenesis_gives e g).bind fun _ _ => (Gives.forEach (fun _ => .must (setPurse_gives e _ _)) _).bind fun _ _ =>
    (Gives.forEach (fun k => .must (setActive_gives e k _ _)) _).bind fun _ _ => refresh_gives e

/-- C102, the lists: whatever the files, all lists of active referrals of the new chain are in order. -/
theorem C102_lists_in_order (e : Env) (g : GenesisFile) (purses : List (Addr × Purse)) (active : List Key) (s0 : State) (hu : Unborn s0) :
    Ordered (restart e g purses active s0).2.store := by
  refine (restart_gives e g purses active s0 ?_).1
  intro k
  rw [hu.store]
  exact List.Pairwise.nil

/-- C102, the lists: if no account moved while it was active, the lists of active referrals of the new chain are those of the old one, in
the same order. -/
theorem C102_same_lists_partial (l : List (Env × Op)) (s : State) (h0 : s.start) (ht : Along (totalsOk 9) l s) (hx : Along exactOk l s)
    (hm : Along NotMoved l s)
    (e : Env) (he : ∀ x k, e.call x k = true) (s0 : State) (hu : Unborn s0) (purses : List (Addr × Purse)) (active : List Key)
    (hd : Described (run l s) purses active)
    (hb : ∀ k, (infoOf (run l s).store k).banished = true → ((run l s).purse (addrOf k)).delegated ≤ s0.dust) :
    ∃ g, exportGenesis (run l s).store = some g ∧ ∀ t, restart e g purses active s0 = (.ok (), t) →
      ∀ k, (infoOf t.store k).activeReferrals = (infoOf (run l s).store k).activeReferrals := by
  obtain ⟨g, hg, h⟩ := C102_same_network_partial 9 (by decide) l s h0 ht hx e he s0 hu purses active hd hb
  refine ⟨g, hg, fun t htt k => ?_⟩
  have h1 := C102_lists_in_order e g purses active s0 hu k
  rw [htt] at h1
  have h2 := C57_ordered_partial l s h0 hm k
  exact (h t htt k).2.actives.eq_of_pairwise (fun a b _ _ hab hba => absurd hab (Nat.lt_asymm hba)) h1 h2

/-- Two families, all with subscriptions. The children of account 4 do not join in the order of their addresses. -/
def clans : List (Env × Op) :=
  [(yes, .top 2), (yes, .register 4 2 true), (yes, .register 10 2 true), (yes, .register 12 4 true), (yes, .register 8 4 true), (yes, .register 6 10 true)]

/-- Account 6 moves from account 10 to account 4. -/
def crossing : List (Env × Op) := clans ++ [(yes, .request 6 (some 4)), (yes, .resolve 10 6 true)]

theorem crossing_runs : Along (totalsOk 9) crossing empty0 ∧ Along exactOk crossing empty0 := by
  have ne : ∀ a b : Key, a ≠ b → a ≠ b := fun _ _ h => h
  refine ⟨⟨trivial, ne 4 2 (by decide), ne 10 2 (by decide), ne 12 4 (by decide), ne 8 4 (by decide), ne 6 10 (by decide), trivial, trivial, trivial⟩,
    ⟨rfl, ⟨?_, rfl⟩, ⟨?_, rfl⟩, ⟨?_, rfl⟩, ⟨?_, rfl⟩, ⟨?_, rfl⟩, ⟨?_, fun b hb => ?_⟩, ?_, trivial⟩⟩
  · exact (show (run (crossing.take 1) empty0).store.has 2 = true by decide +kernel)
  · exact (show (run (crossing.take 2) empty0).store.has 2 = true by decide +kernel)
  · exact (show (run (crossing.take 3) empty0).store.has 4 = true by decide +kernel)
  · exact (show (run (crossing.take 4) empty0).store.has 4 = true by decide +kernel)
  · exact (show (run (crossing.take 5) empty0).store.has 10 = true by decide +kernel)
  · exact (show (run (crossing.take 6) empty0).store.has 6 = true by decide +kernel)
  · cases hb
    exact (show (run (crossing.take 6) empty0).store.has 4 = true by decide +kernel)
  · exact (show (run (crossing.take 7) empty0).store.has 6 = true by decide +kernel)

/-- What the new chain has in the lists of accounts 2, 4 and 10 -/
def listsAfter (l : List (Env × Op)) : Option (List (List Key)) :=
  (exportGenesis (run l empty0).store).bind fun g => match restartFrom yes (run l empty0) g empty0 with
    | (.ok (), t) => some ([2, 4, 10].map fun k => (infoOf t.store k).activeReferrals)
    | _ => none

/-- `C102_same_lists_partial` applies before the move, and the new chain does start with the same lists. -/
example : Along NotMoved clans empty0 ∧
    [2, 4, 10].map (fun k => (infoOf (run clans empty0).store k).activeReferrals) = [[4, 10], [8, 12], [6]] ∧
    listsAfter clans = some [[4, 10], [8, 12], [6]] := by
  refine ⟨?_, by decide +kernel, by decide +kernel⟩
  simp only [clans, Along, NotMoved, and_self]

/-- After the move the lists differ: the new chain has them in order, the old one does not. -/
theorem C102_order_violation : ∃ (l : List (Env × Op)) (s : State), s.start ∧ Along (totalsOk 9) l s ∧ Along exactOk l s ∧ Unborn s ∧
    (infoOf (run l s).store 4).activeReferrals = [8, 12, 6] ∧
    (exportGenesis (run l s).store).any (fun g => match restartFrom yes (run l s) g s with
      | (.ok (), t) => decide ((infoOf t.store 4).activeReferrals = [6, 8, 12])
      | _ => false) = true :=
  ⟨crossing, empty0, rfl, crossing_runs.1, crossing_runs.2, ⟨rfl, rfl, fun _ => rfl⟩, by decide +kernel, by decide +kernel⟩

end Verif.Referral.Order
