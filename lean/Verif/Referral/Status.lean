import Verif.Referral.View
import Verif.Referral.Exec
import Verif.Schedule.Lemmas
import Mathlib.Algebra.Order.BigOperators.Group.Finset
import Mathlib.Algebra.Order.Ring.Int
import Mathlib.Tactic.NormNum

/-! Property C63: who deserves which status, and what the status check makes of it. -/
namespace Verif.Referral
open Verif.Schedule (Pending)

/-! ### Specification -/

/-- What a status demands: whole coins delegated down to some line, a number of active referrals who have a number of active
referrals each, and, from Champion on, three teams of a given size. -/
structure Demand where
  lines : Nat
  coins : Int
  refs : Nat
  each : Int
  team : Option Int

/-- The published table.  Lucky (1) demands nothing; Hero (8) no longer exists. -/
def demand : Nat → Option Demand
  | 2 => some ⟨4, 20000, 2, 2, none⟩
  | 3 => some ⟨6, 50000, 3, 3, none⟩
  | 4 => some ⟨8, 150000, 3, 3, some 10⟩
  | 5 => some ⟨10, 300000, 3, 3, some 50⟩
  | 6 => some ⟨10, 700000, 3, 3, some 100⟩
  | 7 => some ⟨10, 1500000, 3, 3, some 300⟩
  | 9 => some ⟨10, 3000000, 3, 3, some 600⟩
  | _ => none

/-- Active people in the team of an account, itself included, ten lines deep -/
def Info.team (x : Info) : Int := ∑ l ∈ Finset.range 11, x.tot .active l

/-- How many active referrals are such that … -/
def Info.kids (v : Info) (st : KV Nat Info) (P : Info → Bool) : Nat := v.activeReferrals.countP fun c => (st.get c).any P

structure Demand.Met (d : Demand) (st : KV Nat Info) (v : Info) : Prop where
  coins : d.coins * 1000000 ≤ ∑ l ∈ Finset.range (d.lines + 1), v.tot .delegated l
  refs : d.refs ≤ v.kids st fun x => decide (d.each ≤ x.tot .active 1)
  team : ∀ n, d.team = some n → 3 ≤ v.kids st fun x => decide (n ≤ x.team)

/-- The account deserves the status (0 is no status at all). -/
def Deserves (st : KV Nat Info) (v : Info) (q : Nat) : Prop :=
  q = 0 ∨ (v.banished = false ∧ (q = 1 ∨ ∃ d, demand q = some d ∧ d.Met st v))

/-- The numbers are those of an existing network: not negative and not beyond 64 bits, and active referrals exist. -/
structure Tame (st : KV Nat Info) (v : Info) : Prop where
  money : ∀ n, n ≤ 10 → 0 ≤ ∑ l ∈ Finset.range (n + 1), v.tot .delegated l ∧ ∑ l ∈ Finset.range (n + 1), v.tot .delegated l < 2 ^ 64
  kids : ∀ c ∈ v.activeReferrals, ∃ x, st.get c = some x ∧ (∀ l, l ≤ 10 → 0 ≤ x.tot .active l) ∧ x.team < 2 ^ 64

/-- The statuses that exist, in order. -/
def isStatus (q : Nat) : Prop := q ≤ 9 ∧ q ≠ 8

/-- `r` is the highest status that can be climbed to from `q` without a gap. -/
structure Best (st : KV Nat Info) (v : Info) (q r : Nat) : Prop where
  exists' : isStatus r
  above : q ≤ r
  earned : ∀ p, isStatus p → p ≤ r → q < p → Deserves st v p
  last : ∀ p, isStatus p → r < p → (∀ p', isStatus p' → r < p' → p ≤ p') → ¬ Deserves st v p

/-! ### The requirements -/

theorem delegatedUpTo_sum (v : Info) (n : Nat) : v.delegatedUpTo n = ∑ l ∈ Finset.range (n + 1), v.tot .delegated l := by
  induction n with
  | zero => simp [Info.delegatedUpTo]
  | succ n ih => rw [Finset.sum_range_succ, ← ih]; rfl

theorem enoughCoins_spec {st : KV Nat Info} {v : Info} (h : Tame st v) {n : Nat} (hn : n ≤ 10) (c : Int) :
    enoughCoins v n c = some (decide (c * 1000000 ≤ ∑ l ∈ Finset.range (n + 1), v.tot .delegated l)) := by
  unfold enoughCoins
  have := h.money n hn
  dsimp only
  rw [delegatedUpTo_sum]
  rw [if_pos ⟨this.1, by have := this.2; norm_num at this; exact this⟩]
  congr 1
  rw [decide_eq_decide]
  omega

theorem u64_small {x : Int} (h : 0 ≤ x) (h' : x < 2 ^ 64) : u64 x = x := by
  unfold u64
  exact Int.emod_eq_of_lt h (by norm_num at h'; exact h')

theorem team_ge {x : Info} (h : ∀ l, l ≤ 10 → 0 ≤ x.tot .active l) {l : Nat} (hl : l ≤ 10) : x.tot .active l ≤ x.team :=
  Finset.single_le_sum (f := fun l => x.tot .active l) (fun i hi => h i (by simpa [Nat.lt_succ_iff] using Finset.mem_range.1 hi))
    (Finset.mem_range.2 (by omega))

theorem xByXLoop_spec {st : KV Nat Info} {count : Nat} {size : Int} : ∀ (l : List Key) (found : Nat), found < count →
    (∀ c ∈ l, ∃ x, st.get c = some x ∧ (∀ l, l ≤ 10 → 0 ≤ x.tot .active l) ∧ x.team < 2 ^ 64) →
    xByXLoop st count size found l = some (decide (count ≤ found + l.countP fun c => (st.get c).any fun x => decide (size ≤ x.tot .active 1))) := by
  intro l
  induction l with
  | nil =>
    intro found hf _
    unfold xByXLoop
    simp only [List.countP_nil, Option.some.injEq]
    simp; omega
  | cons c l ih =>
    intro found hf h
    obtain ⟨x, hx, h0, h1⟩ := h c (by simp)
    have hu : u64 (x.tot .active 1) = x.tot .active 1 := u64_small (h0 1 (by omega)) (lt_of_le_of_lt (team_ge h0 (by omega)) h1)
    unfold xByXLoop hasRefs
    rw [hx]
    simp only [Option.map_some, hu]
    have hl : ∀ c ∈ l, ∃ x, st.get c = some x ∧ (∀ l, l ≤ 10 → 0 ≤ x.tot .active l) ∧ x.team < 2 ^ 64 := fun c hc => h c (List.mem_cons_of_mem _ hc)
    by_cases hs : size ≤ x.tot .active 1
    · have hc : (c :: l).countP (fun c => (st.get c).any fun x => decide (size ≤ x.tot .active 1)) =
          l.countP (fun c => (st.get c).any fun x => decide (size ≤ x.tot .active 1)) + 1 := by
        rw [List.countP_cons_of_pos]; rw [hx]; simpa using hs
      rw [hc]
      simp only [hs, decide_true, Option.bind_some, bind, if_true]
      by_cases hfc : count ≤ found + 1
      · rw [if_pos hfc]; simp; omega
      · rw [if_neg hfc, ih (found + 1) (by omega) hl]
        congr 1; rw [decide_eq_decide]; omega
    · have hc : (c :: l).countP (fun c => (st.get c).any fun x => decide (size ≤ x.tot .active 1)) =
          l.countP (fun c => (st.get c).any fun x => decide (size ≤ x.tot .active 1)) := by
        rw [List.countP_cons_of_neg]; rw [hx]; simpa using hs
      rw [hc]
      simp only [hs, decide_false, bind, Option.bind_some, Bool.false_eq_true, if_false]
      exact ih found hf hl

theorem bigTeam_spec {x : Info} {leg : Int} (h : ∀ l, l ≤ 10 → 0 ≤ x.tot .active l) (ht : x.team < 2 ^ 64) : ∀ n, n ≤ 11 →
    (n < 11 → ∑ l ∈ Finset.range (11 - n), x.tot .active l < leg) → 0 < leg →
    bigTeam x leg n (∑ l ∈ Finset.range (11 - n), x.tot .active l) = decide (leg ≤ x.team) := by
  intro n
  induction n with
  | zero =>
    intro _ hl _
    unfold bigTeam
    have : x.team < leg := hl (by omega)
    symm
    simpa using this
  | succ n ih =>
    intro hn hl hleg
    unfold bigTeam
    have hs : ∑ l ∈ Finset.range (11 - (n + 1)), x.tot .active l + x.tot .active (10 - n) = ∑ l ∈ Finset.range (11 - n), x.tot .active l := by
      have : 11 - n = (11 - (n + 1)) + 1 := by omega
      rw [this, Finset.sum_range_succ]
      congr 2
      omega
    have hle : ∑ l ∈ Finset.range (11 - n), x.tot .active l ≤ x.team := by
      unfold Info.team
      refine Finset.sum_le_sum_of_subset_of_nonneg ?_ ?_
      · intro i hi; rw [Finset.mem_range] at *; omega
      · intro i hi _; rw [Finset.mem_range] at hi; exact h i (by omega)
    have hnn : 0 ≤ ∑ l ∈ Finset.range (11 - n), x.tot .active l :=
      Finset.sum_nonneg fun i hi => h i (by rw [Finset.mem_range] at hi; omega)
    have hu : u64 (∑ l ∈ Finset.range (11 - n), x.tot .active l) = ∑ l ∈ Finset.range (11 - n), x.tot .active l :=
      u64_small hnn (lt_of_le_of_lt hle ht)
    rw [hs]
    dsimp only
    rw [hu]
    by_cases hc : leg ≤ ∑ l ∈ Finset.range (11 - n), x.tot .active l
    · rw [if_pos hc]; symm; simp; omega
    · rw [if_neg hc]
      exact ih (by omega) (fun _ => by omega) hleg

theorem teamsLoop_spec {st : KV Nat Info} {leg : Int} (hleg : 0 < leg) : ∀ (l : List Key) (a b : Nat), a ≤ 3 → b ≤ 3 → ¬ (a = 3 ∧ b = 3) →
    (∀ c ∈ l, ∃ x, st.get c = some x ∧ (∀ l, l ≤ 10 → 0 ≤ x.tot .active l) ∧ x.team < 2 ^ 64) →
    teamsLoop st leg a b l = some (decide (3 ≤ a + l.countP fun c => (st.get c).any fun x => decide (leg ≤ x.team)) &&
      decide (3 ≤ b + l.countP fun c => (st.get c).any fun x => decide (3 ≤ x.tot .active 1))) := by
  intro l
  induction l with
  | nil =>
    intro a b _ _ _ _
    unfold teamsLoop
    simp
  | cons c l ih =>
    intro a b ha hb hab h
    obtain ⟨x, hx, h0, h1⟩ := h c (by simp)
    have hu : u64 (x.tot .active 1) = x.tot .active 1 := u64_small (h0 1 (by omega)) (lt_of_le_of_lt (team_ge h0 (by omega)) h1)
    have hbt : bigTeam x leg 11 0 = decide (leg ≤ x.team) := by
      have := bigTeam_spec h0 h1 11 (by omega) (by omega) hleg
      simpa using this
    have hl : ∀ c ∈ l, ∃ x, st.get c = some x ∧ (∀ l, l ≤ 10 → 0 ≤ x.tot .active l) ∧ x.team < 2 ^ 64 := fun c hc => h c (List.mem_cons_of_mem _ hc)
    unfold teamsLoop
    rw [hx]
    dsimp only
    rw [hu, hbt]
    rw [List.countP_cons, List.countP_cons, hx]
    simp only [Option.any_some, decide_eq_true_eq]
    generalize (l.countP fun c => (st.get c).any fun x => decide (leg ≤ x.team)) = T at ih ⊢
    generalize (l.countP fun c => (st.get c).any fun x => decide (3 ≤ x.tot .active 1)) = X at ih ⊢
    generalize ha' : (if a < 3 ∧ leg ≤ x.team then a + 1 else a) = a'
    generalize hb' : (if b < 3 ∧ 3 ≤ x.tot .active 1 then b + 1 else b) = b'
    have ha3 : a' ≤ 3 := by rw [← ha']; split <;> omega
    have hb3 : b' ≤ 3 := by rw [← hb']; split <;> omega
    have ea : (3 ≤ a' + T) ↔ 3 ≤ a + (T + if leg ≤ x.team then 1 else 0) := by
      rw [← ha']
      by_cases h1 : leg ≤ x.team <;> simp only [h1, and_true, and_false, if_true, if_false] <;> (try split) <;> omega
    have eb : (3 ≤ b' + X) ↔ 3 ≤ b + (X + if 3 ≤ x.tot .active 1 then 1 else 0) := by
      rw [← hb']
      by_cases h1 : 3 ≤ x.tot .active 1 <;> simp only [h1, and_true, and_false, if_true, if_false] <;> (try split) <;> omega
    rw [← decide_eq_decide.2 ea, ← decide_eq_decide.2 eb]
    by_cases hd : 3 ≤ a' ∧ 3 ≤ b'
    · rw [if_pos hd]
      simp; omega
    · rw [if_neg hd]
      exact ih a' b' ha3 hb3 (by omega) hl

/-- **C63, requirements.** For numbers of an existing network the check of a status succeeds, and says whether the account deserves it. -/
theorem C63_requirements {st : KV Nat Info} {v : Info} (h : Tame st v) {q : Nat} (hq : isStatus q) :
    ∃ b, meets st q v = some b ∧ (b = true ↔ Deserves st v q) := by
  have X : ∀ n c k z, n ≤ 10 → 0 < k → ∃ b, reqXByX st v n c k z = some b ∧ (b = true ↔ Demand.Met ⟨n, c, k, z, none⟩ st v) := by
    intro n c k z hn hk
    refine ⟨_, by
      unfold reqXByX
      rw [enoughCoins_spec h hn, xByXLoop_spec _ 0 hk h.kids]
      rfl, ?_⟩
    simp only [Bool.and_eq_true, decide_eq_true_eq, Nat.zero_add]
    exact ⟨fun hh => ⟨hh.1, hh.2, by intro n hn; cases hn⟩, fun hh => ⟨hh.1, hh.2⟩⟩
  have C : ∀ n c z, n ≤ 10 → 0 < z → ∃ b, reqCore st v n c z = some b ∧ (b = true ↔ Demand.Met ⟨n, c, 3, 3, some z⟩ st v) := by
    intro n c z hn hz
    refine ⟨_, by
      unfold reqCore
      rw [enoughCoins_spec h hn, teamsLoop_spec hz _ 0 0 (by omega) (by omega) (by omega) h.kids]
      rfl, ?_⟩
    simp only [Bool.and_eq_true, decide_eq_true_eq, Nat.zero_add]
    exact ⟨fun hh => ⟨hh.1, hh.2.2, by intro n hn; injection hn with hn; subst hn; exact hh.2.1⟩, fun hh => ⟨hh.1, hh.3 _ rfl, hh.2⟩⟩
  unfold Deserves meets
  by_cases h0 : q = 0
  · rw [if_pos h0]; exact ⟨true, rfl, by simp [h0]⟩
  rw [if_neg h0]
  cases hb : v.banished with
  | true => exact ⟨false, rfl, by simp [h0]⟩
  | false =>
    rw [if_neg (by simp)]
    have key : ∀ {d : Demand} {o : Option Bool}, (∃ b, o = some b ∧ (b = true ↔ d.Met st v)) → demand q = some d → q ≠ 1 →
        ∃ b, o = some b ∧ (b = true ↔ q = 0 ∨ false = false ∧ (q = 1 ∨ ∃ d, demand q = some d ∧ d.Met st v)) := by
      rintro d o ⟨b, h1, h2⟩ hd hq1
      refine ⟨b, h1, h2.trans ⟨fun hm => .inr ⟨rfl, .inr ⟨d, hd, hm⟩⟩, ?_⟩⟩
      rintro (h | ⟨-, h | ⟨d', h, h'⟩⟩)
      · exact absurd h h0
      · exact absurd h hq1
      · rw [hd] at h; injection h with h; subst h; exact h'
    unfold isStatus at hq
    have : q = 1 ∨ q = 2 ∨ q = 3 ∨ q = 4 ∨ q = 5 ∨ q = 6 ∨ q = 7 ∨ q = 9 := by omega
    rcases this with rfl | rfl | rfl | rfl | rfl | rfl | rfl | rfl
    · exact ⟨true, rfl, by simp⟩
    · exact key (X 4 20000 2 2 (by omega) (by omega)) rfl (by omega)
    · exact key (X 6 50000 3 3 (by omega) (by omega)) rfl (by omega)
    · exact key (C 8 150000 10 (by omega) (by omega)) rfl (by omega)
    · exact key (C 10 300000 50 (by omega) (by omega)) rfl (by omega)
    · exact key (C 10 700000 100 (by omega) (by omega)) rfl (by omega)
    · exact key (C 10 1500000 300 (by omega) (by omega)) rfl (by omega)
    · exact key (C 10 3000000 600 (by omega) (by omega)) rfl (by omega)

theorem deserves_congr {st : KV Nat Info} {v w : Info} (h1 : w.banished = v.banished) (h2 : w.activeReferrals = v.activeReferrals)
    (h3 : w.tot = v.tot) (p : Nat) : Deserves st w p ↔ Deserves st v p := by
  have : ∀ d : Demand, d.Met st w ↔ d.Met st v := by
    intro d
    constructor
    · rintro ⟨a, b, c⟩
      unfold Info.kids at b c
      rw [h3] at a; rw [h2] at b c
      exact ⟨a, b, c⟩
    · rintro ⟨a, b, c⟩
      unfold Info.kids at b c
      rw [← h3] at a; rw [← h2] at b c
      exact ⟨a, b, c⟩
  unfold Deserves
  simp only [h1, this]

/-! ### The check -/

/-- The status after `q` -/
def nextStatus (q : Nat) : Nat := if q + 1 = 8 then 9 else q + 1

theorem highest_spec {st : KV Nat Info} {v : Info} (h : Tame st v) : ∀ (n q : Nat), isStatus q → 9 ≤ n + q →
    ∃ r, highest st v n q = some r ∧ Best st v q r := by
  intro n
  induction n with
  | zero =>
    intro q hq hn
    have : q = 9 := by unfold isStatus at hq; omega
    subst this
    exact ⟨9, rfl, hq, by omega, fun p _ _ _ => by omega, fun p hp hp' => by unfold isStatus at hp; omega⟩
  | succ n ih =>
    intro q hq hn
    unfold highest
    by_cases h9 : q = 9
    · rw [if_pos h9]
      subst h9
      exact ⟨9, rfl, hq, by omega, fun p _ _ _ => by omega, fun p hp hp' => by unfold isStatus at hp; omega⟩
    · rw [if_neg h9]
      have hx : isStatus (nextStatus q) ∧ q < nextStatus q ∧ ∀ p, isStatus p → q < p → nextStatus q ≤ p := by
        unfold isStatus nextStatus at *
        refine ⟨?_, ?_, fun p hp hp' => ?_⟩ <;> split <;> omega
      obtain ⟨hx1, hx2, hx3⟩ := hx
      obtain ⟨b, hb, hbd⟩ := C63_requirements h hx1
      show ∃ r, (do let ok ← meets st (nextStatus q) v; if ok = true then highest st v n (nextStatus q) else some q) = some r ∧ _
      rw [hb]
      cases b with
      | true =>
        obtain ⟨r, hr, hr'⟩ := ih (nextStatus q) hx1 (by omega)
        refine ⟨r, by simpa using hr, hr'.exists', le_trans hx2.le hr'.above, fun p hp hpr hqp => ?_, hr'.last⟩
        by_cases hpn : nextStatus q < p
        · exact hr'.earned p hp hpr hpn
        · have : p = nextStatus q := by have := hx3 p hp hqp; omega
          rw [this]; exact hbd.1 rfl
      | false =>
        refine ⟨q, by simp, hq, le_refl _, fun p _ _ _ => by omega, fun p hp hqp hmin => ?_⟩
        have : p = nextStatus q := by have := hx3 p hp hqp; have := hmin _ hx1 hx2; omega
        rw [this]
        intro hd
        have := hbd.2 hd
        cases this

theorem setStatus_result {v w : Info} {x : Nat} {k : Key} {s t : State} (h : setStatus v x k s = (.ok w, t)) : w = { v with status := x } := by
  unfold setStatus at h
  rw [M.get_bind_ok] at h
  split at h
  · rename_i hx
    simp at h
    rw [← h.1, ← hx]
  · rw [M.bind_ok_iff] at h
    obtain ⟨_, s1, -, h⟩ := h
    simp at h
    exact h.1.symm

theorem schedule_pending {d : Int} {hook : Nat} {data : List Nat} {s t : State} (h : request (.schedule d hook data) s = (.ok (), t)) :
    ∃ x, Pending t.sched x ∧ x.time = d ∧ x.handler = hook ∧ x.data = data := by
  unfold request at h
  rw [M.get_bind_ok, M.orPanic_bind_ok] at h
  obtain ⟨u, hu, h⟩ := h
  simp at h
  rw [← h]
  obtain ⟨-, -, hs⟩ := Schedule.schedule?_spec hu
  refine ⟨⟨d, hook, data, s.sched.next⟩, ⟨(s.sched.store.get d).getD [] ++ [⟨d, hook, data, s.sched.next⟩], ?_, ?_⟩, rfl, rfl, rfl⟩
  · show u.store.get d = _
    rw [hs, KV.get_set_self]
  · simp

/-- What the check does to the status and to the time of the next downgrade. -/
structure Checked (st : KV Nat Info) (now day : Int) (sched : Schedule.State) (k : Key) (v n : Info) : Prop where
  /-- nothing else changes -/
  rest : core n = core v
  /-- a deserved status is kept, and the best one reached from it given -/
  deserved : Deserves st v (if v.status = 8 then 9 else v.status) →
    n.downgradeAt = none ∧ Best st v (if v.status = 8 then 9 else v.status) n.status
  /-- an undeserved one is kept for two days at most, and a task waits -/
  undeserved : ¬ Deserves st v (if v.status = 8 then 9 else v.status) → n.status = (if v.status = 8 then 9 else v.status) ∧
    ((∃ t, v.downgradeAt = some t ∧ n.downgradeAt = some t) ∨
     (v.downgradeAt = none ∧ n.downgradeAt = some (now + 2 * day) ∧
       ∃ x, Pending sched x ∧ x.time = now + 2 * day ∧ x.handler = downgradeHook ∧ x.data = [k]))

theorem checkStatus_spec {k : Key} {v n : Info} {s t : State} (ht : Tame s.work v) (hv : v.status ≤ 9) (h : checkStatus k v s = (.ok n, t)) :
    Checked s.work s.now s.day t.sched k v n := by
  have hcore := checkStatus_core h
  unfold checkStatus at h
  rw [M.bind_ok_iff] at h
  obtain ⟨v1, s1, h1, h⟩ := h
  have hv1 : v1 = { v with status := if v.status = 8 then 9 else v.status } ∧ Quiet s s1 := by
    split at h1
    · rename_i h8
      rw [M.bind_ok_iff] at h1
      obtain ⟨w, s2, h2, h1⟩ := h1
      have q2 := (Still.setStatus _ _ _).of h2
      have w2 := setStatus_result h2
      rw [M.bind_ok_iff] at h1
      obtain ⟨_, s3, h3, h1⟩ := h1
      have q3 := (Still.addCall _ _).of h3
      simp at h1
      rw [if_pos h8, ← h1.1, ← h1.2]
      exact ⟨w2, q2.trans q3⟩
    · rename_i h8
      simp at h1
      rw [if_neg h8, ← h1.1, ← h1.2]
      exact ⟨rfl, .refl _⟩
  obtain ⟨hv1, q1⟩ := hv1
  generalize hq : (if v.status = 8 then 9 else v.status) = q at hv1
  have hqs : isStatus q := by unfold isStatus; rw [← hq]; split <;> omega
  have ht1 : Tame s.work v1 := by rw [hv1]; exact ⟨ht.money, ht.kids⟩
  have hd1 : ∀ p, Deserves s.work v1 p ↔ Deserves s.work v p := by
    intro p; rw [hv1]; exact deserves_congr (w := { v with status := q }) (v := v) rfl rfl rfl p
  have hb1 : v1.status = q := by rw [hv1]
  have hg1 : v1.downgradeAt = v.downgradeAt := by rw [hv1]
  rw [M.get_bind_ok, M.orPanic_bind_ok] at h
  obtain ⟨b, hb, h⟩ := h
  rw [q1.work, hb1] at hb
  obtain ⟨b', hb', hbd⟩ := C63_requirements ht1 hqs
  rw [hb'] at hb
  injection hb with hb
  subst hb
  rw [hd1] at hbd
  refine ⟨hcore, fun hd => ?_, fun hd => ?_⟩
  · rw [hq] at hd ⊢
    have hbt := hbd.2 hd
    subst hbt
    rw [if_pos rfl] at h
    dsimp only at h
    rw [M.orPanic_bind_ok] at h
    obtain ⟨r, hr, h⟩ := h
    have ht2 : Tame s.work { v1 with downgradeAt := none } := ⟨ht1.money, ht1.kids⟩
    obtain ⟨r', hr', hbest⟩ := highest_spec ht2 10 v1.status (by rw [hb1]; exact hqs) (by omega)
    rw [q1.work, hr'] at hr
    injection hr with hr
    subst hr
    have hbest' : Best s.work v q r' := by
      rw [← hb1]
      have hd2 : ∀ p, Deserves s.work { v1 with downgradeAt := none } p ↔ Deserves s.work v p :=
        fun p => (deserves_congr (w := { v1 with downgradeAt := none }) (v := v1) rfl rfl rfl p).trans (hd1 p)
      exact ⟨hbest.exists', hbest.above, fun p h1 h2 h3 => (hd2 p).1 (hbest.earned p h1 h2 h3), fun p h1 h2 h3 h4 => hbest.last p h1 h2 h3 ((hd2 p).2 h4)⟩
    split at h
    · rw [M.bind_ok_iff] at h
      obtain ⟨w, s2, h2, h⟩ := h
      have w2 := setStatus_result h2
      rw [M.bind_ok_iff] at h
      obtain ⟨_, s3, h3, h⟩ := h
      simp at h
      rw [← h.1, w2]
      exact ⟨rfl, hbest'⟩
    · rename_i hlt
      simp at h
      have : r' = q := by have := hbest'.above; rw [hb1] at hlt; omega
      rw [← h.1]
      refine ⟨rfl, ?_⟩
      show Best s.work v q v1.status
      rw [hb1]
      rw [this] at hbest'
      exact hbest'
  · rw [hq] at hd ⊢
    have hbf : b' = false := by cases b' with | true => exact absurd (hbd.1 rfl) hd | false => rfl
    subst hbf
    rw [if_neg (by simp)] at h
    cases hg : v.downgradeAt with
    | some d =>
      rw [if_neg (by rw [hg1, hg]; simp)] at h
      simp at h
      rw [← h.1]
      exact ⟨hb1, .inl ⟨d, rfl, hg1.trans hg⟩⟩
    | none =>
      rw [if_pos (by rw [hg1, hg]; rfl)] at h
      rw [M.bind_ok_iff] at h
      obtain ⟨_, s2, h2, h⟩ := h
      simp at h
      rw [← h.1, ← h.2]
      have := schedule_pending h2
      rw [q1.now, q1.day] at this
      exact ⟨hb1, .inr ⟨rfl, by rw [q1.now, q1.day], this⟩⟩

/-- **C63, the check.** Whatever is changed of an account: afterwards its status is checked as described by `Checked`, with the
network as it then is. -/
theorem C63_check {α : Type} {k : Key} {f : Info → Act (Info × α)} {s t : State} {a : α} (h : update k true f s = (.ok a, t)) :
    ∃ w s1, f (infoOf s.work k) s = (.ok (w, a), s1) ∧
      (Tame s1.work w → w.status ≤ 9 → Checked s1.work s1.now s1.day t.sched k w (infoOf t.work k)) ∧
      t.work = s1.work.set k (infoOf t.work k) := by
  unfold update at h
  rw [recover_ok_iff, M.get_bind_ok, M.bind_ok_iff] at h
  obtain ⟨r, s1, h1, h⟩ := h
  rw [M.bind_ok_iff] at h
  obtain ⟨v, s2, h2, h⟩ := h
  rw [if_pos rfl] at h2
  rw [M.bind_ok_iff] at h
  obtain ⟨_, s3, h3, h⟩ := h
  simp at h
  obtain ⟨rfl, rfl⟩ := h
  have h4 : s3 = { s2 with work := s2.work.set k v } := by
    unfold put at h3
    simp at h3
    exact h3.symm
  have hi : infoOf s3.work k = v := by rw [h4]; show infoOf (s2.work.set k v) k = v; rw [infoOf_set, if_pos rfl]
  have q := (Still.checkStatus _ _).of h2
  refine ⟨r.1, s1, h1, fun ht hw => ?_, ?_⟩
  · have := checkStatus_spec ht hw h2
    rw [hi]
    have hs : s3.sched = s2.sched := by rw [h4]
    rw [hs]; exact this
  · rw [hi, h4]
    show s2.work.set k v = _
    rw [q.work]

/-- **C63, the downgrade.** The task that waits for the end of the two days lowers the status by one if the time is still set and has
come, and checks again; a task whose time was cleared or postponed only checks. -/
theorem C63_downgrade {e : Env} {k : Key} {s t : State} (h : performDowngrade e k s = (.ok (), t))
    (ht : Tame s.store (infoOf s.store k)) (hs : (infoOf s.store k).status ≤ 9) :
    t.store = s.store.set k (infoOf t.store k) ∧
    ((∃ d, (infoOf s.store k).downgradeAt = some d ∧ d ≤ s.now) →
      ∃ q, (q + 1 = (infoOf s.store k).status ∧ q ≠ 8 ∨ q = 7 ∧ (infoOf s.store k).status = 9) ∧
        Checked s.store s.now s.day t.sched k { infoOf s.store k with status := q, downgradeAt := none } (infoOf t.store k)) ∧
    ((¬ ∃ d, (infoOf s.store k).downgradeAt = some d ∧ d ≤ s.now) →
      Checked s.store s.now s.day t.sched k (infoOf s.store k) (infoOf t.store k)) := by
  unfold performDowngrade bunch at h
  have h0 : newBunch s = (.ok (), { s with work := s.store, calls := [] }) := rfl
  rw [M.bind_ok h0, M.bind_ok_iff] at h
  obtain ⟨b, s4, h1, h⟩ := h
  unfold downgradeBody at h1
  rw [M.bind_ok_iff] at h1
  obtain ⟨_, s2, h2, h1⟩ := h1
  have h3 : addCall .statusUpdated k s2 = (.ok (), { s2 with calls := (.statusUpdated, k) :: s2.calls }) := rfl
  rw [M.bind_ok h3] at h1
  simp at h1
  obtain ⟨rfl, rfl⟩ := h1
  rw [if_pos rfl] at h
  have hst : t.store = s2.work ∧ t.sched = s2.sched := by
    unfold commit at h
    rw [M.bind_ok (M.modify_apply _ _), M.get_bind_ok] at h
    rcases hc : (List.all (((Event.statusUpdated, k) :: s2.calls)) fun c => e.call c.1 c.2) with _ | _
    · simp only [hc] at h; simp [M.errIf] at h
    · simp only [hc] at h; simp [M.errIf] at h; rw [← h]; exact ⟨rfl, rfl⟩
  rw [hst.1, hst.2]
  obtain ⟨w, s1, hf, hch, hw⟩ := C63_check h2
  have hf : downgradeSelf k (infoOf s.store k) { s with work := s.store, calls := [] } = (.ok (w, ()), s1) := hf
  unfold downgradeSelf at hf
  rw [M.get_bind_ok] at hf
  by_cases hd : ∃ d, (infoOf s.store k).downgradeAt = some d ∧ d ≤ s.now
  · have hn : notDue (infoOf s.store k).downgradeAt s.now = false := by
      obtain ⟨d, h1, h2⟩ := hd
      rw [h1]
      simpa [notDue] using h2
    rw [if_neg (by simp [hn])] at hf
    by_cases hz : (infoOf s.store k).status = 0
    · rw [if_pos hz] at hf; simp [M.panic] at hf
    · rw [if_neg hz] at hf
      rw [M.bind_ok_iff] at hf
      obtain ⟨w', s3, h5, hf⟩ := hf
      have q := (Still.setStatus _ _ _).of h5
      have hw' := setStatus_result h5
      simp at hf
      obtain ⟨rfl, rfl⟩ := hf
      have q1 : s3.work = s.store := q.work
      have q2 : s3.now = s.now := q.now
      have q3 : s3.day = s.day := q.day
      rw [q1] at hw hch
      rw [q2, q3] at hch
      refine ⟨hw, fun _ => ⟨if (infoOf s.store k).status - 1 = 8 then 7 else (infoOf s.store k).status - 1, ?_, ?_⟩, fun h => absurd hd h⟩
      · split
        · right; omega
        · left; omega
      · rw [hw'] at hch
        refine hch ⟨ht.money, ht.kids⟩ ?_
        dsimp only
        split <;> omega
  · have hn : notDue (infoOf s.store k).downgradeAt s.now = true := by
      unfold notDue
      split
      · rfl
      · rename_i d hdd
        simp only [decide_eq_true_eq]
        by_contra hc
        exact hd ⟨d, hdd, by omega⟩
    rw [if_pos hn] at hf
    simp at hf
    obtain ⟨rfl, rfl⟩ := hf
    exact ⟨hw, fun h => absurd h hd, fun _ => hch ht hs⟩

/-! ### Examples -/

def yes : Env := ⟨fun _ _ => true⟩
def empty0 : State := { store := KV.empty, day := 86400, now := 100 }

/-- Account 2 has two active referrals with two active referrals each, and delegates enough: it becomes a Leader. -/
def network : List (Env × Op) :=
  [(yes, .top 2), (yes, .register 4 2 true), (yes, .register 6 2 true), (yes, .register 8 4 true), (yes, .register 10 4 true),
   (yes, .register 12 6 true), (yes, .register 14 6 true), (yes, .balance 1 { main := 5, delegated := 20000000000 })]

theorem network_tame : Tame (run network empty0).store (infoOf (run network empty0).store 2) := by
  constructor
  · have : ∀ n ∈ List.range 11, 0 ≤ ∑ l ∈ Finset.range (n + 1), (infoOf (run network empty0).store 2).tot .delegated l ∧
        ∑ l ∈ Finset.range (n + 1), (infoOf (run network empty0).store 2).tot .delegated l < 2 ^ 64 := by decide +kernel
    intro n hn
    exact this n (List.mem_range.2 (by omega))
  · have : (infoOf (run network empty0).store 2).activeReferrals.all (fun c => ((run network empty0).store.get c).any fun x =>
        (List.range 11).all (fun l => decide (0 ≤ x.tot .active l)) && decide (x.team < 2 ^ 64)) = true := by decide +kernel
    intro c hc
    have := List.all_eq_true.1 this c hc
    cases hx : (run network empty0).store.get c with
    | none => rw [hx] at this; cases this
    | some x =>
      rw [hx] at this
      simp only [Option.any_some, Bool.and_eq_true, decide_eq_true_eq] at this
      refine ⟨x, rfl, fun l hl => ?_, this.2⟩
      have := List.all_eq_true.1 this.1 l (List.mem_range.2 (by omega))
      simpa using this

/-- Account 2 deserves status 2 and not status 3. -/
example : Deserves (run network empty0).store (infoOf (run network empty0).store 2) 2 ∧
    ¬ Deserves (run network empty0).store (infoOf (run network empty0).store 2) 3 := by
  obtain ⟨b, h1, h2⟩ := C63_requirements network_tame (q := 2) ⟨by decide, by decide⟩
  obtain ⟨b', h1', h2'⟩ := C63_requirements network_tame (q := 3) ⟨by decide, by decide⟩
  have e1 : meets (run network empty0).store 2 (infoOf (run network empty0).store 2) = some true := by decide +kernel
  have e2 : meets (run network empty0).store 3 (infoOf (run network empty0).store 2) = some false := by decide +kernel
  refine ⟨h2.1 (by rw [h1] at e1; injection e1), fun h => ?_⟩
  have := h2'.2 h
  rw [h1', this] at e2
  cases e2

/-- The other theorems are about successful updates and downgrades: when account 10 has expired, the downgrade of account 2 succeeds
and takes its status away. -/
example :
    let s := { run (network ++ [(yes, .expire 10)]) empty0 with now := 172901 }
    (performDowngrade yes 2 s).1 = .ok () ∧ (infoOf s.store 2).status = 2 ∧ (infoOf (performDowngrade yes 2 s).2.store 2).status = 1 := by
  decide +kernel

end Verif.Referral
