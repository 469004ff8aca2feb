import Verif.Referral.Retire4

/-! Properties C74 and C75: examples, and what happens with genesis files that are not in order. -/
namespace Verif.Referral

theorem forall_infoOf {Q : Info → Prop} {st : KV Nat Info} (h0 : Q {}) (h : ∀ e ∈ st.entries, Q e.2) (k : Key) : Q (infoOf st k) := by
  unfold infoOf
  cases hk : st.get k with
  | none => exact h0
  | some v => exact h (k, v) (KV.mem_entries.2 hk)

instance (v : Info) : Decidable (Retired v) := by unfold Retired; infer_instance

instance (v : Info) : Decidable (Settled v) :=
  decidable_of_iff ((v.banished = true → Retired v) ∧ (v.banishmentAt ≠ none → Retired v) ∧ (v.active = true → v.compressionAt = none) ∧
    (Retired v → v.referrals = [] ∧ v.activeReferrals = [] ∧ v.status < 5))
    ⟨fun h => ⟨h.1, h.2.1, h.2.2.1, h.2.2.2⟩, fun h => ⟨h.banished, h.awaiting, h.active, h.retired⟩⟩

theorem settled_of {st : KV Nat Info} (h : ∀ e ∈ st.entries, Settled e.2) (k : Key) : Settled (infoOf st k) :=
  forall_infoOf (by decide) h k

theorem onTime_of {s : State} (h : ∀ e ∈ s.store.entries, e.2.referrer = none ∨ ((e.2.compressionAt.map fun t => decide (s.now ≤ t)).getD true) = true) :
    OnTime s := by
  intro k t hr hc
  have := forall_infoOf (Q := fun v => v.referrer = none ∨ ((v.compressionAt.map fun t => decide (s.now ≤ t)).getD true) = true) (.inl rfl) h k
  rcases this with h1 | h1
  · exact absurd h1 hr
  · rw [hc] at h1
    simpa using h1

/-! ### Examples -/

/-- Account 1 has a referral, lets its subscription end, is compressed, banished, and comes back. -/
example : plain.start ∧ Along structureOk (sample.take 1) plain ∧ (∀ k, Settled (infoOf (run (sample.take 1) plain).store k)) ∧
    Along orderlyOk (sample.drop 1) (run (sample.take 1) plain) ∧
    (infoOf (run (sample.take 3) plain).store (text 1)).referrals = [text 2] ∧
    (infoOf (run (sample.take 6) plain).store (text 1)).banishmentAt ≠ none ∧ (infoOf (run (sample.take 6) plain).store (text 1)).referrals = [] ∧
    (infoOf (run (sample.take 7) plain).store (text 1)).banished = true := by
  refine ⟨rfl, ⟨trivial, trivial⟩, settled_of (by decide +kernel), ?_, by decide +kernel, by decide +kernel, by decide +kernel, by decide +kernel⟩
  have h1 : (infoOf (run (sample.take 6) plain).store (text 1)).banishmentAt ≠ none := by decide +kernel
  have h2 : OnTime (run (sample.take 8) plain) := onTime_of (by decide +kernel)
  exact ⟨(show text 1 ≠ text 0 by decide), (show text 2 ≠ text 1 by decide), trivial, trivial, trivial, h1, trivial, h2, trivial⟩

/-- An account with status 6 in the genesis file is downgraded. -/
def champion : List (Env × Op) := [(yes, .top 2), (yes, .child 2 4), (yes, .times 2 none none (some 50) none 6), (yes, .times 4 (some 200) none none none 1)]

theorem res_ok {r : Res Unit} (h : (r matches .ok ()) = true) : r = .ok () := by
  cases r <;> simp at h ⊢

example : empty0.start ∧ empty0.index = [] ∧ Along genesisOk champion empty0 ∧ (∀ k, Settled (infoOf (run champion empty0).store k)) ∧
    Along (fun op s => orderlyOk op s ∧ bodiesOk op s) [(yes, .downgrade 2), (yes, .register 6 4 true)] (run champion empty0) ∧
    allWithStatus (run champion empty0) 6 = some [2] ∧
    allWithStatus (run [(yes, .downgrade 2), (yes, .register 6 4 true)] (run champion empty0)) 6 = some [] ∧
    allWithStatus (run [(yes, .downgrade 2), (yes, .register 6 4 true)] (run champion empty0)) 5 = some [2] := by
  refine ⟨rfl, rfl, ⟨trivial, (show (4 : Key) ≠ 2 by decide), trivial, trivial, trivial⟩, settled_of (by decide +kernel), ?_, by decide +kernel,
    by decide +kernel, by decide +kernel⟩
  exact ⟨⟨trivial, res_ok (by decide +kernel)⟩, ⟨(show (6 : Key) ≠ 4 by decide), trivial⟩, trivial⟩

/-! ### Genesis files that are not in order -/

/-- C74 fails for an account in the genesis file that is not active and has no date of compression: it is banished although it has a
referral. -/
theorem C74_genesis_violation : ∃ (l : List (Env × Op)) (s : State), s.start ∧ Along (fun op s => structureOk op s ∧ dueOk op s) l s ∧
    (infoOf (run l s).store (text 5)).banished = true ∧ (infoOf (run l s).store (text 5)).referrals = [text 6] ∧
    (infoOf (run l s).store (text 6)).banished = false := by
  refine ⟨stranded.take 12, poor, rfl, ?_, by decide +kernel, by decide +kernel, by decide +kernel⟩
  refine ⟨⟨trivial, trivial⟩, ⟨(show text 1 ≠ text 0 by decide), trivial⟩, ⟨(show text 2 ≠ text 1 by decide), trivial⟩,
    ⟨(show text 3 ≠ text 2 by decide), trivial⟩, ⟨(show text 4 ≠ text 3 by decide), trivial⟩,
    ⟨(show text 5 ≠ text 4 by decide), trivial⟩, ⟨(show text 6 ≠ text 5 by decide), trivial⟩,
    ⟨trivial, trivial⟩, ⟨trivial, trivial⟩, ⟨trivial, trivial⟩, ⟨trivial, trivial⟩, ⟨trivial, ?_⟩, trivial⟩
  refine ⟨300, ?_, ?_⟩
  · decide +kernel
  · decide +kernel

/-- A genesis file: account 4 has three teams of fifty and status 5; it is not active and has no date of compression. -/
def crowd : List (Env × Op) :=
  [(yes, .top 2), (yes, .child 2 4), (yes, .child 4 6), (yes, .child 4 8), (yes, .child 4 10)] ++
  ([10, 8, 6].flatMap fun h => (List.range 49).flatMap fun i => [(yes, .child h (100 * h - 2 * i)), (yes, .activate (100 * h - 2 * i))]) ++
  [(yes, .activate 6), (yes, .activate 8), (yes, .activate 10), (yes, .times 4 none none none none 5)]

/-- Account 4 delegates, withdraws, and a month passes. -/
def idling : List (Env × Op) := [(yes, .balance 2 { delegated := 9 }), (yes, .balance 2 {}), (yes, .world 2592101 0 0 99)]

/-- An account in the first team delegates much. -/
def rich : State := { empty0 with purse := fun a => if a = 3 then { delegated := 300000000000 } else {} }

/-- C75 fails for such an account: it is banished when its task is due, while no downgrade is, and the index keeps its status. -/
theorem C75_genesis_violation : rich.start ∧ rich.index = [] ∧ (infoOf (run idling (run crowd rich)).store 4).downgradeAt = none ∧
    Due banishHook 4 (run idling (run crowd rich)) ∧
    (infoOf (step yes (.banish 4) (run idling (run crowd rich))).store 4).status = 0 ∧
    allWithStatus (step yes (.banish 4) (run idling (run crowd rich))) 5 = some [4] := by
  have key : (fun t : State => (((infoOf t.store 4).downgradeAt.isNone && (decide (2592100 ≤ t.now) &&
      ((t.sched.store.get 2592100).getD []).any (fun x => decide (x.handler = banishHook) && decide (x.data = [4])))) &&
      (fun u : State => decide ((infoOf u.store 4).status = 0) && decide (allWithStatus u 5 = some [4])) (step yes (.banish 4) t)))
      (run idling (run crowd rich)) = true := by decide +kernel
  generalize run idling (run crowd rich) = t at key
  simp only [Bool.and_eq_true, Option.isNone_iff_eq_none, decide_eq_true_eq] at key
  obtain ⟨⟨h1, h2, h3⟩, h4, h5⟩ := key
  refine ⟨rfl, rfl, h1, ⟨2592100, h2, ?_⟩, h4, h5⟩
  obtain ⟨x, hx, h⟩ := List.any_eq_true.1 h3
  simp only [Bool.and_eq_true, decide_eq_true_eq] at h
  exact ⟨x, hx, h⟩

end Verif.Referral
