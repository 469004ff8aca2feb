import Verif.Referral.Refresh
import Verif.Referral.ExportCases

/-! Property C80: examples, and a status that does not survive a restart. -/
namespace Verif.Referral

/-! ### Examples -/

/-- A check of `Tame` -/
def tameB (st : KV Nat Info) (v : Info) : Bool :=
  (List.range 11).all (fun n => decide (0 ≤ v.delegatedUpTo n) && decide (v.delegatedUpTo n < 2 ^ 64)) &&
  v.activeReferrals.all fun c => (st.get c).any fun x => (List.range 11).all (fun l => decide (0 ≤ x.tot .active l)) && decide (x.team < 2 ^ 64)

theorem tame_of_check {st : KV Nat Info} {v : Info} (h : tameB st v = true) : Tame st v := by
  unfold tameB at h
  rw [Bool.and_eq_true, List.all_eq_true, List.all_eq_true] at h
  refine ⟨fun n hn => ?_, fun c hc => ?_⟩
  · have := h.1 n (List.mem_range.2 (by omega))
    rw [delegatedUpTo_sum] at this
    simpa only [Bool.and_eq_true, decide_eq_true_eq] using this
  · have := h.2 c hc
    cases hx : st.get c with
    | none => rw [hx] at this; cases this
    | some x =>
      rw [hx] at this
      simp only [Option.any_some, Bool.and_eq_true, decide_eq_true_eq] at this
      refine ⟨x, rfl, fun l hl => ?_, this.2⟩
      simpa using List.all_eq_true.1 this.1 l (List.mem_range.2 (by omega))

theorem all_tame_of_check {st : KV Nat Info} (h : (st.keys.all fun k => tameB st (infoOf st k) && decide ((infoOf st k).status ≤ 9)) = true)
    (k : Key) (r : Info) (hr : st.get k = some r) : Tame st r ∧ r.status ≤ 9 := by
  have := List.all_eq_true.1 h k (KV.mem_keys.2 ⟨r, hr⟩)
  rw [infoOf_get hr, Bool.and_eq_true, decide_eq_true_eq] at this
  exact ⟨tame_of_check this.1, this.2⟩

/-- A genesis file of seven accounts: six profiles are active, account 2 delegates enough for status 2, account 14 is about to lose status 3,
and account 12 has a status it does not deserve. -/
def founded : List (Env × Op) :=
  [(yes, .top 2), (yes, .child 2 4), (yes, .child 2 6), (yes, .child 4 8), (yes, .child 4 10), (yes, .child 6 12), (yes, .child 6 14),
   (yes, .times 14 none none (some 500) none 3), (yes, .times 12 none none none none 5),
   (yes, .balance 1 { main := 5, delegated := 20000000000 }), (yes, .activate 4), (yes, .activate 6), (yes, .activate 8), (yes, .activate 10),
   (yes, .activate 12), (yes, .activate 14)]

theorem founded_tame (k : Key) (r : Info) (hr : (run founded empty0).store.get k = some r) : Tame (run founded empty0).store r ∧ r.status ≤ 9 :=
  all_tame_of_check (by decide +kernel) k r hr

/-- `C80_refresh` and `C80_goes_through` apply to it, and this is what happens to accounts 2, 4, 12 and 14. -/
example : (∀ k r, (run founded empty0).store.get k = some r → Tame (run founded empty0).store r ∧ r.status ≤ 9) ∧
    Schedule.inRange ((run founded empty0).now + 2 * (run founded empty0).day) = true ∧
    [2, 4, 12, 14].map (fun k => ((infoOf (run founded empty0).store k).status, (infoOf (run founded empty0).store k).downgradeAt)) =
      [(1, none), (1, none), (5, none), (3, some 500)] ∧
    [2, 4, 12, 14].map (fun k => ((infoOf (refresh yes (run founded empty0)).2.store k).status,
        (infoOf (refresh yes (run founded empty0)).2.store k).downgradeAt)) = [(2, none), (1, none), (5, some 172900), (3, some 500)] := by
  refine ⟨founded_tame, by decide +kernel, by decide +kernel, by decide +kernel⟩

/-- `C80_from_then_on_partial` applies too, when account 10 expires after that: account 2 gets a date. -/
example : empty0.start ∧ Along activesOk founded empty0 ∧ (∃ t, refresh yes (run founded empty0) = (.ok (), t) ∧ Along fairOk [(yes, .expire 10)] t) ∧
    (infoOf (run [(yes, .expire 10)] (refresh yes (run founded empty0)).2).store 2).downgradeAt = some 172900 := by
  have ne : ∀ a b : Key, a ≠ b → a ≠ b := fun _ _ h => h
  refine ⟨rfl, ?_, ?_, by decide +kernel⟩
  · refine ⟨trivial, ne 4 2 (by decide), ne 6 2 (by decide), ne 8 4 (by decide), ne 10 4 (by decide), ne 12 6 (by decide), ne 14 6 (by decide),
      trivial, trivial, trivial, ?_, ?_, ?_, ?_, ?_, ?_, trivial⟩
    · exact (show (infoOf (run (founded.take 10) empty0).store 4).banished = false by decide +kernel)
    · exact (show (infoOf (run (founded.take 11) empty0).store 6).banished = false by decide +kernel)
    · exact (show (infoOf (run (founded.take 12) empty0).store 8).banished = false by decide +kernel)
    · exact (show (infoOf (run (founded.take 13) empty0).store 10).banished = false by decide +kernel)
    · exact (show (infoOf (run (founded.take 14) empty0).store 12).banished = false by decide +kernel)
    · exact (show (infoOf (run (founded.take 15) empty0).store 14).banished = false by decide +kernel)
  · obtain ⟨t, h⟩ := C80_goes_through yes (fun _ _ => rfl) (run founded empty0) founded_tame (by decide +kernel)
    exact ⟨t, h, trivial, trivial⟩

/-- The premise of `C80_index`: account 12 is in the index. -/
example : (run founded empty0).index = [(5, 12)] ∧ Sync (run founded empty0).index fun k => (infoOf (run founded empty0).store k).status := by
  have h : (run founded empty0).index = [(5, 12)] := by decide +kernel
  have hb : (run founded empty0).store.keys.all (fun k => decide ((infoOf (run founded empty0).store k).status < 5 ∨ k = 12)) = true := by decide +kernel
  have h12 : (infoOf (run founded empty0).store 12).status = 5 := by decide +kernel
  refine ⟨h, ?_⟩
  rw [h]
  generalize (run founded empty0).store = st at *
  refine ⟨by simp, fun n j => ?_⟩
  constructor
  · intro hh
    rw [List.mem_singleton] at hh
    injection hh with h1 h2
    subst h1; subst h2
    exact ⟨le_refl _, h12⟩
  · rintro ⟨h1, h2⟩
    cases hj : st.get j with
    | none =>
      have : infoOf st j = {} := by unfold infoOf; rw [hj]; rfl
      rw [this] at h2
      have h2 : (0 : Nat) = n := h2
      omega
    | some v =>
      have := List.all_eq_true.1 hb j (KV.mem_keys.2 ⟨v, hj⟩)
      rw [decide_eq_true_eq] at this
      rcases this with hh | rfl
      · omega
      · rw [h12] at h2; subst h2; simp

/-! ### A status that does not survive a restart -/

/-- Account 2 reaches status 3 with 50000 coins of its own, account 32 five lines below delegates as much, and account 2 gets its own back. -/
def upheld : List (Env × Op) :=
  (yes, .top 2) :: ([(4, 2), (6, 2), (8, 2), (10, 4), (12, 4), (14, 4), (16, 6), (18, 6), (20, 6), (22, 8), (24, 8), (26, 8), (28, 10), (30, 28), (32, 30)]
    : List (Key × Key)).map (fun x => (yes, .register x.1 x.2 true)) ++
  [(yes, .balance 1 { delegated := 50000000000 }), (yes, .balance 16 { delegated := 50000000000 }), (yes, .balance 1 {})]

/-- The new chain: the referral module, the bank (/repo/x/bank/internal/keeper/genesis.go:18-29), and the profiles
(/repo/x/profile/keeper/genesis.go:59-71), in the order of
/repo/app/app.go:491-501. -/
def restart (e : Env) (g : GenesisFile) (purses : List (Addr × Purse)) (active : List Key) : Act Unit := do
  importGenesis e g
  M.forEach purses fun x => must (setPurse e x.1 x.2)
  M.forEach active fun k => must (setActive e k true false)
  refresh e

/-- What the new chain is told about the old one: all balances, and whose subscriptions run. -/
def restartFrom (e : Env) (s : State) (g : GenesisFile) : Act Unit :=
  restart e g (s.store.keys.map fun k => (addrOf k, s.purse (addrOf k))) (s.store.keys.filter fun k => (infoOf s.store k).active)

theorem upheld_restarts : ((exportGenesis (run upheld empty0).store).map fun g =>
    match restartFrom yes (run upheld empty0) g empty0 with
    | (.ok (), t) => decide ((infoOf t.store 2).status = 1) && [What.coins, What.delegated, What.active].all fun w =>
        (List.range 11).all fun i => decide ((infoOf t.store 2).tot w i = (infoOf (run upheld empty0).store 2).tot w i)
    | _ => false) = some true := by decide +kernel

/-- Status 3 demands 50000 coins within six lines, status 2 demands 20000 within four: account 2 deserves status 3 but not status 2.  On the
running chain it keeps status 3, and no downgrade is in store; after an export and a start from the file, with the same balances and
subscriptions and hence the same totals, it climbs from 1, does not pass 2, and stays at 1. -/
theorem C80_gap_violation : ∃ (l : List (Env × Op)) (s t : State) (g : GenesisFile), s.start ∧ Along fairOk l s ∧
    exportGenesis (run l s).store = some g ∧ restartFrom yes (run l s) g empty0 = (.ok (), t) ∧
    (infoOf (run l s).store 2).status = 3 ∧ (infoOf (run l s).store 2).downgradeAt = none ∧
    Deserves (run l s).store (infoOf (run l s).store 2) 3 ∧ ¬ Deserves (run l s).store (infoOf (run l s).store 2) 2 ∧
    (infoOf t.store 2).status = 1 ∧ (∀ w i, i ≤ 10 → (infoOf t.store 2).tot w i = (infoOf (run l s).store 2).tot w i) := by
  have tm : Tame (run upheld empty0).store (infoOf (run upheld empty0).store 2) := tame_of_check (by decide +kernel)
  have e3 : meets (run upheld empty0).store 3 (infoOf (run upheld empty0).store 2) = some true := by decide +kernel
  have e2 : meets (run upheld empty0).store 2 (infoOf (run upheld empty0).store 2) = some false := by decide +kernel
  obtain ⟨b3, h3, d3⟩ := C63_requirements tm (q := 3) ⟨by decide, by decide⟩
  obtain ⟨b2, h2, d2⟩ := C63_requirements tm (q := 2) ⟨by decide, by decide⟩
  have hs : (infoOf (run upheld empty0).store 2).status = 3 := by decide +kernel
  have hd : (infoOf (run upheld empty0).store 2).downgradeAt = none := by decide +kernel
  have hr := upheld_restarts
  have ha : Along fairOk upheld empty0 := by
    have ne : ∀ a b : Key, a ≠ b → a ≠ b := fun _ _ h => h
    exact ⟨trivial, ne 4 2 (by decide), ne 6 2 (by decide), ne 8 2 (by decide), ne 10 4 (by decide), ne 12 4 (by decide), ne 14 4 (by decide),
      ne 16 6 (by decide), ne 18 6 (by decide), ne 20 6 (by decide), ne 22 8 (by decide), ne 24 8 (by decide), ne 26 8 (by decide),
      ne 28 10 (by decide), ne 30 28 (by decide), ne 32 30 (by decide), trivial, trivial, trivial, trivial⟩
  cases hg : exportGenesis (run upheld empty0).store with
  | none => rw [hg] at hr; cases hr
  | some g =>
    rw [hg] at hr
    rcases hu : restartFrom yes (run upheld empty0) g empty0 with ⟨r, t⟩
    rw [Option.map_some, hu, Option.some.injEq] at hr
    cases r with
    | err => cases hr
    | panic => cases hr
    | ok x =>
      dsimp only at hr
      rw [Bool.and_eq_true, decide_eq_true_eq, List.all_eq_true] at hr
      refine ⟨upheld, empty0, t, g, rfl, ha, hg, hu, hs, hd, d3.1 (by rw [h3] at e3; injection e3), fun hh => ?_, hr.1, fun w i hi => ?_⟩
      · rw [h2, d2.2 hh] at e2; cases e2
      · have := List.all_eq_true.1 (hr.2 w (by cases w <;> simp)) i (List.mem_range.2 (by omega))
        simpa using this

end Verif.Referral
