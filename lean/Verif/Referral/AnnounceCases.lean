import Verif.Referral.Announce

/-! Property C86, first part: examples, and a date nobody keeps. -/
namespace Verif.Referral

/-- A genesis file: account 6 is active, account 4 delegates, account 10 had a date of banishment; nobody told accounts 2, 8 and 12 anything. -/
def forgotten : List (Env × Op) :=
  [(yes, .top 2), (yes, .child 2 4), (yes, .child 2 6), (yes, .child 4 8), (yes, .child 4 10), (yes, .child 6 12),
   (yes, .times 10 none (some 50) none none 1), (yes, .balance 2 { main := 5, delegated := 20000000000 }), (yes, .activate 6)]

theorem forgotten_tame (k : Key) (r : Info) (hr : (run forgotten empty0).store.get k = some r) : Tame (run forgotten empty0).store r ∧ r.status ≤ 9 :=
  all_tame_of_check (by decide +kernel) k r hr

theorem forgotten_safe : Safe (run forgotten empty0) := by
  have hb : (run forgotten empty0).store.keys.all (fun k => (infoOf (run forgotten empty0).store k).downgradeAt.isNone &&
    (infoOf (run forgotten empty0).store k).compressionAt.isNone && (infoOf (run forgotten empty0).store k).banishmentAt.all (fun d => decide (d ≤ 100))) = true := by
    decide +kernel
  have hn : (run forgotten empty0).now = 100 := by decide +kernel
  intro κ k d _ hd ht
  rw [hn] at ht
  generalize (run forgotten empty0).store = st at *
  exfalso
  cases hg : st.get k with
  | none =>
    have : infoOf st k = {} := by unfold infoOf; rw [hg]; rfl
    rw [this] at hd
    cases κ <;> cases hd
  | some v =>
    have := List.all_eq_true.1 hb k (KV.mem_keys.2 ⟨v, hg⟩)
    simp only [Bool.and_eq_true, Option.isNone_iff_eq_none] at this
    obtain ⟨⟨h1, h2⟩, h3⟩ := this
    cases κ with
    | downgrade => rw [show (infoOf st k).downgradeAt = some d from hd] at h1; cases h1
    | compression =>
      have hd : (if (infoOf st k).referrer.isSome then (infoOf st k).compressionAt else none) = some d := hd
      rw [h2] at hd
      split at hd <;> cases hd
    | banishment =>
      rw [show (infoOf st k).banishmentAt = some d from hd] at h3
      have : d ≤ 100 := by simpa using h3
      omega

/-- `C86_announced`, `C86_safe` and `C86_goes_through` apply to it, and these are the dates. -/
example : (∀ k r, (run forgotten empty0).store.get k = some r → Tame (run forgotten empty0).store r ∧ r.status ≤ 9) ∧ Safe (run forgotten empty0) ∧
    Schedule.inRange ((run forgotten empty0).now + 2 * (run forgotten empty0).day) = true ∧
    (∀ i : Nat, i < (run forgotten empty0).store.keys.length →
      Schedule.inRange ((run forgotten empty0).now + (run forgotten empty0).day.tdiv 24 + (run forgotten empty0).shift * (i + 1)) = true) ∧
    (∃ t, announce yes (run forgotten empty0) = (.ok (), t)) ∧
    [2, 4, 6, 8, 10, 12].map (fun k => (infoOf (run forgotten empty0).store k).banishmentAt) = [none, none, none, none, some 50, none] ∧
    [2, 4, 6, 8, 10, 12].map (fun k => (infoOf (announce yes (run forgotten empty0)).2.store k).banishmentAt) =
      [some 3715, none, none, some 3730, some 50, some 3745] := by
  have hl : (run forgotten empty0).store.keys.length = 6 := by decide +kernel
  have hd : ∀ i : Nat, i < (run forgotten empty0).store.keys.length →
      Schedule.inRange ((run forgotten empty0).now + (run forgotten empty0).day.tdiv 24 + (run forgotten empty0).shift * (i + 1)) = true := by
    rw [hl]
    decide +kernel
  exact ⟨forgotten_tame, forgotten_safe, by decide +kernel, hd,
    C86_goes_through yes (fun _ _ => rfl) _ forgotten_tame (by decide +kernel) hd, by decide +kernel, by decide +kernel⟩

/-- The same state, later. -/
def State.waits (s : State) (n : Int) : State := { s with now := n }

/-- C86 fails for accounts without referrer: they are told a date too (unlike by /repo/x/referral/keeper/keeper.go:451, the referrer is not asked
for), but cannot be banished, and when the day has come the date stays (/repo/x/referral/keeper/keeper.go:923-925). -/
theorem C86_root_violation : ∃ (l : List (Env × Op)) (s t : State) (k : Key) (d : Int), s.start ∧ announce yes (run l s) = (.ok (), t) ∧
    (infoOf t.store k).referrer = none ∧ (infoOf t.store k).banishmentAt = some d ∧ Booked t.sched d banishHook k ∧
    (banish yes k (t.waits d)).1 = .err ∧ (infoOf (banish yes k (t.waits d)).2.store k).banishmentAt = some d ∧
    (infoOf (banish yes k (t.waits d)).2.store k).banished = false := by
  have h1 : (announce yes (run forgotten empty0)).1 = .ok () := by decide +kernel
  have h2 : (infoOf (announce yes (run forgotten empty0)).2.store 2).referrer = none := by decide +kernel
  have h3 : (infoOf (announce yes (run forgotten empty0)).2.store 2).banishmentAt = some 3715 := by decide +kernel
  have h4 : Booked (announce yes (run forgotten empty0)).2.sched 3715 banishHook 2 := booked_iff.2 (by decide +kernel)
  have h5 : (banish yes 2 ((announce yes (run forgotten empty0)).2.waits 3715)).1 = .err := by decide +kernel
  have h6 : (infoOf (banish yes 2 ((announce yes (run forgotten empty0)).2.waits 3715)).2.store 2).banishmentAt = some 3715 := by decide +kernel
  have h7 : (infoOf (banish yes 2 ((announce yes (run forgotten empty0)).2.waits 3715)).2.store 2).banished = false := by decide +kernel
  rcases hr : announce yes (run forgotten empty0) with ⟨r, t⟩
  rw [hr] at h1 h2 h3 h4 h5 h6 h7
  have h1 : r = .ok () := h1
  rw [h1] at hr
  exact ⟨forgotten, empty0, t, 2, 3715, rfl, hr, h2, h3, h4, h5, h6, h7⟩

end Verif.Referral
