import Verif.Referral.RehomeSums

/-! Property C89: cases for the sums of money, and numbers of active accounts that become wrong. -/
namespace Verif.Referral

def orphanB (st : KV Nat Info) (v : Info) : Bool := !v.banished && match v.referrer with
  | none => false
  | some p => match st.get p with
    | none => false
    | some u => u.banished

theorem orphanB_of {st : KV Nat Info} {v : Info} {p : Key} (h : Orphan st v p) : orphanB st v = true := by
  obtain ⟨h1, h2, u, h3, h4⟩ := h
  unfold orphanB
  simp [h1, h2, h3, h4]

def topDownB (st : KV Nat Info) (rank : Key → Nat) : Bool :=
  st.entries.all fun e => st.entries.all fun f => !orphanB st e.2 || !orphanB st f.2 ||
    (List.range (rank f.1)).all fun n => !decide (ancestor st f.1 n = some e.1) || decide (e.1 < f.1)

theorem topDown_of_check {st : KV Nat Info} {rank : Key → Nat} (hu : Upward st rank) (h : topDownB st rank = true) : TopDown st := by
  intro k c p y n hk hc ha
  have known : ∀ {x p : Key}, Orphan st (infoOf st x) p → st.get x = some (infoOf st x) := by
    intro x p hx
    unfold infoOf at hx ⊢
    cases hg : st.get x with
    | none => rw [hg] at hx; cases hx.2.1
    | some v => rfl
  have h1 := List.all_eq_true.1 h _ (KV.mem_entries.2 (known hk))
  have h2 := List.all_eq_true.1 h1 _ (KV.mem_entries.2 (known hc))
  rw [orphanB_of hk, orphanB_of hc] at h2
  have hn : n < rank c := by
    rw [ancestor_up] at ha
    have := up_lower hu _ _ _ ha
    omega
  simp only [Bool.not_true, Bool.false_or, List.all_eq_true, List.mem_range, Bool.or_eq_true, Bool.not_eq_true', decide_eq_false_iff_not, decide_eq_true_eq] at h2
  exact (h2 n hn).resolve_left fun e => e ha

def totalsB (st : KV Nat Info) : Bool :=
  st.entries.all fun e => decide (e.2.tot .active 0 = if e.2.active then 1 else 0) &&
    [What.coins, What.delegated, What.active].all fun w => (List.range 10).all fun i =>
      decide (e.2.tot w (i + 1) = ((below st e.1 (i + 1)).map fun c => (infoOf st c).tot w 0).sum)

theorem totals_of_check {st : KV Nat Info} {rank : Key → Nat} (hu : Upward st rank) (h : totalsB st = true) : TotalsMatch 10 st := by
  have h := List.all_eq_true.1 h
  refine ⟨fun a w L h1 hL => ?_, fun a => ?_⟩
  · cases hg : st.get a with
    | none =>
      have : below st a L = [] := by
        unfold below
        rw [List.filter_eq_nil_iff]
        intro c hc hh
        rw [Bool.and_eq_true, decide_eq_true_eq, ancestor_up] at hh
        have := up_within (within_keys hu) _ c a (List.mem_toFinset.2 hc) hh.1
        rw [List.mem_toFinset] at this
        obtain ⟨v, hv⟩ := KV.mem_keys.1 this
        rw [hg] at hv
        cases hv
      rw [this]
      unfold infoOf
      rw [hg]
      rfl
    | some v =>
      have := h _ (KV.mem_entries.2 hg)
      rw [Bool.and_eq_true] at this
      have := List.all_eq_true.1 this.2 w (by cases w <;> simp)
      have := List.all_eq_true.1 this (L - 1) (List.mem_range.2 (by omega))
      rw [decide_eq_true_eq, Nat.sub_add_cancel h1] at this
      rw [infoOf_get hg]
      exact this
  · cases hg : st.get a with
    | none => unfold infoOf; rw [hg]; rfl
    | some v =>
      have := h _ (KV.mem_entries.2 hg)
      rw [Bool.and_eq_true, decide_eq_true_eq] at this
      rw [infoOf_get hg]
      exact this.1

theorem TotalsMatch.money {st : KV Nat Info} (h : TotalsMatch 10 st) : MoneyMatches st := fun a w L _ _ h1 h2 => h.levels a w L h1 h2

/-- Coins and numbers of active accounts at levels 0, 1, 2, … -/
def countsAt (l n : List Int) : What → Nat → Int
  | .coins, j => l.getD j 0
  | .active, j => n.getD j 0
  | .delegated, _ => 0

/-- 1 above 2 (banished) above 3 above 4 (banished) above 5 -/
def tandemRecords : List (Key × Info) :=
  [(1, { status := 1, active := true, tot := countsAt [0, 0, 7, 0, 5] [1, 0, 1, 0, 1] }),
   (2, { status := 1, banished := true, referrer := some 1, referrals := [3], tot := countsAt [0, 7, 0, 5] [0, 1, 0, 1] }),
   (3, { status := 1, active := true, referrer := some 2, tot := countsAt [7, 0, 5] [1, 0, 1] }),
   (4, { status := 1, banished := true, referrer := some 3, referrals := [5], tot := countsAt [0, 5] [0, 1] }),
   (5, { status := 1, active := true, referrer := some 4, tot := countsAt [5] [1] })]

def tandem : State := { empty0 with store := storeOf tandemRecords }

theorem tandem_ok : Upward tandem.store id ∧ (∀ k v, tandem.store.get k = some v → v.banished = true → v.referrer ≠ none) ∧ TopDown tandem.store ∧
    TotalsMatch 10 tandem.store ∧ InLists tandem.store := by
  have h := upward_of_check (st := tandem.store) (rank := id) (by decide +kernel)
  exact ⟨h.1, h.2, topDown_of_check h.1 (by decide +kernel), totals_of_check h.1 (by decide +kernel), inLists_of_check (by decide +kernel)⟩

/-- Account 3 moves to account 1, then account 5 to account 3, and the money with them. -/
example : (rehome tandem).store.entries.map (fun e => (e.1, e.2.referrer, e.2.referrals, (List.range 5).map (e.2.tot .coins))) =
      [(1, none, [3], [0, 7, 5, 0, 0]), (2, some 1, [], [0, 0, 0, 0, 0]), (3, some 1, [5], [7, 5, 0, 0, 0]), (4, some 3, [], [0, 0, 0, 0, 0]),
       (5, some 3, [], [5, 0, 0, 0, 0])] ∧ MoneyMatches (rehome tandem).store :=
  ⟨by decide +kernel, (C89_sums_partial tandem id tandem_ok.1 tandem_ok.2.1 tandem_ok.2.2.1 tandem_ok.2.2.2.1.money).1⟩

/-- C89 fails for the numbers of active accounts below, which the upgrade does not move: account 3 is active and a referral of account 1 afterwards, but
account 1 counts no active account on level 1. -/
theorem C89_active_violation : ∃ (s : State) (rank : Key → Nat), Upward s.store rank ∧
    (∀ k v, s.store.get k = some v → v.banished = true → v.referrer ≠ none) ∧ TopDown s.store ∧ TotalsMatch 10 s.store ∧
    ¬ TotalsMatch 10 (rehome s).store ∧ below (rehome s).store 1 1 = [3] ∧ (infoOf (rehome s).store 3).active = true ∧ (infoOf (rehome s).store 1).tot .active 1 = 0 := by
  have e1 : below (rehome tandem).store 1 1 = [3] := by decide +kernel
  have e2 : (infoOf (rehome tandem).store 1).tot .active 1 = 0 := by decide +kernel
  have e3 : (infoOf (rehome tandem).store 3).tot .active 0 = 1 := by decide +kernel
  refine ⟨tandem, id, tandem_ok.1, tandem_ok.2.1, tandem_ok.2.2.1, tandem_ok.2.2.2.1, fun h => ?_, e1, by decide +kernel, e2⟩
  have := h.levels 1 .active 1 (by decide) (by decide)
  rw [e1, e2, List.map_cons, List.map_nil, List.sum_cons, e3] at this
  cases this

end Verif.Referral
