import Verif.Referral.Squash
import Verif.Referral.RefreshCases

/-! Property C112: a downgrade that is due is carried out. -/
namespace Verif.Referral

/-- The status below `q`; there is no status 8. -/
def oneDown (q : Nat) : Nat := if q = 9 then 7 else q - 1

theorem Tame.affordable {st : KV Nat Info} {v : Info} (h : Tame st v) : Affordable v := by
  intro n hn
  have e : v.delegatedUpTo n = ∑ l ∈ Finset.range (n + 1), v.tot .delegated l := by
    clear hn
    induction n with
    | zero => simp [Info.delegatedUpTo]
    | succ n ih =>
      rw [Finset.sum_range_succ, ← ih]
      rfl
  rw [e]
  exact h.money n hn

theorem setStatus_exact (v : Info) (x : Nat) (k : Key) (s : State) : ∃ t, setStatus v x k s = (.ok { v with status := x }, t) ∧ Quiet s t ∧ t.sched = s.sched := by
  by_cases h : v.status = x
  · refine ⟨s, ?_, .refl _, rfl⟩
    unfold setStatus
    rw [M.bind_ok (M.get_apply s), if_pos h, ← h]
    rfl
  · have e : setStatus v x k s = (.ok { v with status := x }, { s with index := reindex s.index v.status x k }) := by
      unfold setStatus
      rw [M.bind_ok (M.get_apply s), if_neg h]
      rfl
    exact ⟨_, e, (Still.setStatus v x k).of e, rfl⟩

/-- **C112** for all states in which the numbers are those of a network (`Tame`, as in C63), when the callbacks of other modules succeed and dates are
before 2263. -/
theorem C112_relegated_partial (e : Env) (he : ∀ c k, e.call c k = true) (k : Key) (S : State) (x : Int)
    (hx : (infoOf S.store k).downgradeAt = some x) (hdue : x ≤ S.now) (h1 : 1 ≤ (infoOf S.store k).status) (h9 : (infoOf S.store k).status ≤ 9)
    (ht : Tame S.store (infoOf S.store k)) (h3 : Schedule.inRange (S.now + 2 * S.day) = true) :
    ∃ t, performDowngrade e k S = (.ok (), t) ∧ core (infoOf t.store k) = core (infoOf S.store k) ∧
      (Deserves S.store (infoOf S.store k) (oneDown (infoOf S.store k).status) →
        (infoOf t.store k).downgradeAt = none ∧ Best S.store (infoOf S.store k) (oneDown (infoOf S.store k).status) (infoOf t.store k).status) ∧
      (¬ Deserves S.store (infoOf S.store k) (oneDown (infoOf S.store k).status) →
        (infoOf t.store k).status = oneDown (infoOf S.store k).status ∧ (infoOf t.store k).downgradeAt = some (S.now + 2 * S.day) ∧
        ∃ y, Schedule.Pending t.sched y ∧ y.time = S.now + 2 * S.day ∧ y.handler = downgradeHook ∧ y.data = [k]) ∧
      ∀ j, j ≠ k → infoOf t.store j = infoOf S.store j := by
  have hnext : (if (infoOf S.store k).status - 1 = 8 then 7 else (infoOf S.store k).status - 1) = oneDown (infoOf S.store k).status := by
    unfold oneDown
    split <;> split <;> omega
  have hb9 : oneDown (infoOf S.store k).status ≤ 7 := by unfold oneDown; split <;> omega
  obtain ⟨s1, hs1, q, -⟩ := setStatus_exact (infoOf S.store k) (oneDown (infoOf S.store k).status) k S.fresh
  have hself : downgradeSelf k (infoOf S.fresh.work k) S.fresh =
      (.ok ({ infoOf S.store k with status := oneDown (infoOf S.store k).status, downgradeAt := none }, ()), s1) := by
    unfold downgradeSelf
    rw [M.bind_ok (M.get_apply _)]
    have e0 : infoOf S.fresh.work k = infoOf S.store k := rfl
    rw [e0]
    have hn : notDue (infoOf S.store k).downgradeAt S.fresh.now = false := by
      rw [hx]; exact decide_eq_false (by show ¬ S.now < x; omega)
    rw [hn, if_neg (by decide), if_neg (by omega)]
    dsimp only
    rw [hnext]
    exact (M.bind_ok hs1).trans rfl
  have htame : Tame s1.work { infoOf S.store k with status := oneDown (infoOf S.store k).status, downgradeAt := none } := by
    rw [q.work]
    exact ⟨ht.money, ht.kids⟩
  obtain ⟨n, s2, hc⟩ := checkStatus_succeeds (k := k) (s := s1) htame.affordable (by show oneDown _ ≤ 9; omega) (fun c hc => by
    obtain ⟨y, hy, -⟩ := htame.kids c hc
    unfold KV.has
    rw [hy]; rfl) (by rw [q.now, q.day]; exact h3)
  have hspec := checkStatus_spec htame (by show oneDown _ ≤ 9; omega) hc
  have q2 := (Still.checkStatus k _).of hc
  have hup : update k true (downgradeSelf k) S.fresh = (.ok (), { s2 with work := s2.work.set k n }) := by
    unfold update
    rw [recover_ok_iff, M.bind_ok (M.get_apply _), M.bind_ok hself, if_pos rfl, M.bind_ok hc]
    rfl
  have hper : performDowngrade e k S = (.ok (), { (addCall .statusUpdated k { s2 with work := s2.work.set k n }).2 with store := s2.work.set k n }) := by
    have e0 : performDowngrade e k S = (downgradeBody k >>= fun b => if b then commit e else pure ()) S.fresh := rfl
    have e1 : downgradeBody k S.fresh = (.ok true, (addCall .statusUpdated k { s2 with work := s2.work.set k n }).2) := by
      unfold downgradeBody
      rw [M.bind_ok hup]
      rfl
    rw [e0, M.bind_ok e1, if_pos rfl, commit_fine he]
    rfl
  have hk : infoOf (s2.work.set k n) k = n := by rw [infoOf_set, if_pos rfl]
  have h8 : (oneDown (infoOf S.store k).status = 8) = False := eq_false (by omega)
  have hst : s1.work = S.store := q.work
  have same : ∀ r, Deserves S.store { infoOf S.store k with status := oneDown (infoOf S.store k).status, downgradeAt := none } r ↔
      Deserves S.store (infoOf S.store k) r := deserves_congr rfl rfl rfl
  refine ⟨_, hper, ?_, fun hd => ?_, fun hd => ?_, fun j hj => ?_⟩
  · show core (infoOf (s2.work.set k n) k) = _
    rw [hk, hspec.rest]; rfl
  · show (infoOf (s2.work.set k n) k).downgradeAt = none ∧ Best _ _ _ (infoOf (s2.work.set k n) k).status
    rw [hk]
    have := hspec.deserved
    simp only [h8, if_false, hst] at this
    obtain ⟨g1, g2⟩ := this ((same _).2 hd)
    exact ⟨g1, g2.exists', g2.above, fun p h1 h2 h3 => (same p).1 (g2.earned p h1 h2 h3), fun p h1 h2 h3 h4 => g2.last p h1 h2 h3 ((same p).2 h4)⟩
  · show (infoOf (s2.work.set k n) k).status = _ ∧ (infoOf (s2.work.set k n) k).downgradeAt = _ ∧ ∃ y, Schedule.Pending s2.sched y ∧ _
    rw [hk]
    have := hspec.undeserved
    simp only [h8, if_false, hst] at this
    obtain ⟨g1, g2⟩ := this fun h => hd ((same _).1 h)
    refine ⟨g1, ?_⟩
    rcases g2 with ⟨t, ht, -⟩ | ⟨-, g2, g3⟩
    · cases ht
    · rw [q.now, q.day] at g2 g3
      exact ⟨g2, g3⟩
  · show infoOf (s2.work.set k n) j = _
    rw [infoOf_set, if_neg hj, q2.work, hst]

/-- Account 2 of `network` withdraws its delegation; two days later its downgrade is due. -/
def withdrawn : List (Env × Op) := network ++ [(yes, .balance 1 { main := 5 }), (yes, .world 172900 0 0 99)]

example : (infoOf (run withdrawn empty0).store 2).downgradeAt = some 172900 ∧ (run withdrawn empty0).now = 172900 ∧
    (infoOf (run withdrawn empty0).store 2).status = 2 ∧ Tame (run withdrawn empty0).store (infoOf (run withdrawn empty0).store 2) ∧
    Schedule.inRange ((run withdrawn empty0).now + 2 * (run withdrawn empty0).day) = true ∧
    (infoOf (step yes (.downgrade 2) (run withdrawn empty0)).store 2).status = 1 ∧
    (infoOf (step yes (.downgrade 2) (run withdrawn empty0)).store 2).downgradeAt = none := by
  refine ⟨?_, ?_, ?_, tame_of_check (by decide +kernel), ?_, ?_, ?_⟩ <;> decide +kernel

/-- In order, with a sum of all delegations below 2⁶³ and less than 2⁶⁴ accounts, all numbers are those of a network. -/
theorem Tally.tame {S : State} (ht : Tally 10 S) (hl : Listed S) (h1 : ∀ c, 0 ≤ (infoOf S.store c).tot .delegated 0)
    (h2 : (S.store.keys.map fun c => (infoOf S.store c).tot .delegated 0).sum < 9223372036854775808) (hn : S.store.keys.length < 2 ^ 64) (k : Key) :
    Tame S.store (infoOf S.store k) := by
  have own : ∀ c, 0 ≤ (infoOf S.store c).tot .active 0 ∧ (infoOf S.store c).tot .active 0 ≤ 1 := fun c => by
    have := ht.tidy.own c
    have e : (infoOf S.store c).tot .active 0 = if (infoOf S.store c).active then 1 else 0 := this
    rw [e]
    split <;> decide
  have none' : ∀ w c, c ∉ S.store.keys → (infoOf S.store c).tot w 0 = 0 := fun w c hc => by
    rw [mem_keys_of_has] at hc
    rw [infoOf_of_not_has (by simpa using hc)]
  refine ⟨fun n hn => ?_, fun c hc => ?_⟩
  · have e : ∑ l ∈ Finset.range (n + 1), (infoOf S.store k).tot .delegated l = (infoOf S.store k).delegatedUpTo n := by
      clear hn
      induction n with
      | zero => simp [Info.delegatedUpTo]
      | succ n ih => rw [Finset.sum_range_succ, ih]; rfl
    rw [e]
    have ha : Affordable (infoOf S.store k) := Affordable.congr (v := view S.store k)
      (Neat.affordable ht (K := S.store.keys) h1 (none' .delegated) (lt_trans h2 (by decide)) k) fun _ => rfl
    exact ha n hn
  · have hm := (hl.mem k c).1 hc
    have hh : S.store.has c = true := by
      cases hh : S.store.has c with
      | true => rfl
      | false =>
        have hr : (infoOf S.store c).referrer = some k := hm.1
        rw [infoOf_of_not_has hh] at hr
        cases hr
    obtain ⟨x, hx⟩ : ∃ x, S.store.get c = some x := by
      unfold KV.has at hh
      exact Option.isSome_iff_exists.1 hh
    have ex : infoOf S.store c = x := by unfold infoOf; rw [hx]; rfl
    refine ⟨x, hx, fun l hl' => ?_, ?_⟩
    · rw [← ex]
      cases l with
      | zero => exact (own c).1
      | succ l =>
        have := sum_depth ht.sums .active l c (by omega)
        have e : (infoOf S.store c).tot .active (l + 1) = ((depth (view S.store) l c).map fun d => (infoOf S.store d).tot .active 0).sum := this
        rw [e]
        exact List.sum_nonneg (by simpa using fun d _ => (own d).1)
    · have e : x.team = ((reach (view S.store) 10 c).map fun d => (view S.store d).tot .active 0).sum := by
        rw [sum_reach ht.sums .active c 10 le_rfl, ← ex]
        show ∑ l ∈ Finset.range 11, (infoOf S.store c).tot .active l = (infoOf S.store c).tot .active 0 + ((List.range 10).map fun l => (infoOf S.store c).tot .active (l + 1)).sum
        rw [Finset.sum_range_succ', _root_.add_comm]
        rfl
      rw [e]
      refine (sum_le_of_support _ S.store.keys _ (reach_once ht.forest 10 c) (fun d => (own d).1) (none' .active)).trans_lt ?_
      have : ((S.store.keys.map fun d => (view S.store d).tot .active 0).sum) ≤ (S.store.keys.map fun _ => (1 : Int)).sum :=
        List.sum_le_sum fun d _ => (own d).2
      refine this.trans_lt ?_
      rw [List.map_const', List.sum_replicate]
      simp only [nsmul_eq_mul, _root_.mul_one]
      exact_mod_cast hn

/-- **C112** for all executions in order, with less than 2⁶⁴ accounts and less than 2⁶³ delegated in all. -/
theorem C112_in_order_partial (l : List (Env × Op)) (s : State) (h0 : s.start) (hw : s.work = KV.empty) (h : Along acceptOk l s) (e : Env)
    (he : ∀ c k, e.call c k = true) (k : Key) (x : Int) :
    let S := run l s
    (infoOf S.store k).downgradeAt = some x → x ≤ S.now → 1 ≤ (infoOf S.store k).status → (∀ c, 0 ≤ (infoOf S.store c).tot .delegated 0) →
    (S.store.keys.map fun c => (infoOf S.store c).tot .delegated 0).sum < 9223372036854775808 → S.store.keys.length < 2 ^ 64 →
    Schedule.inRange (S.now + 2 * S.day) = true →
    ∃ t, performDowngrade e k S = (.ok (), t) ∧ core (infoOf t.store k) = core (infoOf S.store k) ∧
      (Deserves S.store (infoOf S.store k) (oneDown (infoOf S.store k).status) →
        (infoOf t.store k).downgradeAt = none ∧ Best S.store (infoOf S.store k) (oneDown (infoOf S.store k).status) (infoOf t.store k).status) ∧
      (¬ Deserves S.store (infoOf S.store k) (oneDown (infoOf S.store k).status) →
        (infoOf t.store k).status = oneDown (infoOf S.store k).status ∧ (infoOf t.store k).downgradeAt = some (S.now + 2 * S.day) ∧
        ∃ y, Schedule.Pending t.sched y ∧ y.time = S.now + 2 * S.day ∧ y.handler = downgradeHook ∧ y.data = [k]) ∧
      ∀ j, j ≠ k → infoOf t.store j = infoOf S.store j := by
  intro S hx hdue h1 h2 h3 h4 h5
  obtain ⟨ht, hl, hlow⟩ := accept_inv l s h0 hw h
  exact C112_relegated_partial e he k S x hx hdue h1 (hlow.store k) (ht.tame hl h2 h3 h4 k) h5

example : empty0.start ∧ empty0.work = KV.empty ∧ Along acceptOk withdrawn empty0 ∧
    (run withdrawn empty0).store.keys.all (fun c => decide (0 ≤ (infoOf (run withdrawn empty0).store c).tot .delegated 0)) = true ∧
    ((run withdrawn empty0).store.keys.map fun c => (infoOf (run withdrawn empty0).store c).tot .delegated 0).sum < 9223372036854775808 ∧
    (run withdrawn empty0).store.keys.length = 7 := by
  refine ⟨rfl, rfl, ⟨⟨trivial, trivial⟩, ⟨(show (4 : Nat) ≠ 2 by decide), trivial⟩, ⟨(show (6 : Nat) ≠ 2 by decide), trivial⟩,
    ⟨(show (8 : Nat) ≠ 4 by decide), trivial⟩, ⟨(show (10 : Nat) ≠ 4 by decide), trivial⟩, ⟨(show (12 : Nat) ≠ 6 by decide), trivial⟩,
    ⟨(show (14 : Nat) ≠ 6 by decide), trivial⟩, ⟨trivial, trivial⟩, ⟨trivial, trivial⟩, ⟨trivial, trivial⟩, trivial⟩, ?_, ?_, ?_⟩ <;> decide +kernel

/-- The genesis file has one account with the highest status, to be downgraded at 100. -/
def demoted : List (Env × Op) := [(yes, .top 2), (yes, .times 2 none none (some 100) none 9)]

/-- It does not meet the requirements of the next lower status either: it gets exactly this status, and the next downgrade comes two days later. -/
example : Along acceptOk demoted empty0 ∧ (infoOf (run demoted empty0).store 2).downgradeAt = some 100 ∧ (run demoted empty0).now = 100 ∧
    (infoOf (run demoted empty0).store 2).status = 9 ∧ ¬ Deserves (run demoted empty0).store (infoOf (run demoted empty0).store 2) (oneDown 9) ∧
    (infoOf (step yes (.downgrade 2) (run demoted empty0)).store 2).status = 7 ∧
    (infoOf (step yes (.downgrade 2) (run demoted empty0)).store 2).downgradeAt = some 172900 := by
  refine ⟨⟨⟨trivial, trivial⟩, ⟨.inl rfl, (show (9 : Nat) ≤ 9 from le_rfl)⟩, trivial⟩, ?_, ?_, ?_, ?_, ?_, ?_⟩
  · decide +kernel
  · decide +kernel
  · decide +kernel
  · have ht : Tame (run demoted empty0).store (infoOf (run demoted empty0).store 2) := tame_of_check (by decide +kernel)
    obtain ⟨b, hb, hd⟩ := C63_requirements ht (q := oneDown 9) (by unfold isStatus; decide)
    have e : meets (run demoted empty0).store (oneDown 9) (infoOf (run demoted empty0).store 2) = some false := by decide +kernel
    rw [e] at hb
    injection hb with hb
    rw [← hd, ← hb]
    decide
  · decide +kernel
  · decide +kernel

end Verif.Referral
