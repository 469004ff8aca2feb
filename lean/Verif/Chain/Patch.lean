import Verif.Base.KV
import Verif.Schedule.Model
import Mathlib.Tactic.NormNum
import Mathlib.Tactic.Linarith
import Mathlib.Data.Int.ModEq
import Mathlib.Data.List.Nodup
import Mathlib.Data.List.Count
import Mathlib.Data.List.Pairwise
import Mathlib.Algebra.BigOperators.Group.List.Basic

/-!
Property C94: the script /repo/patch-genesis, which turns the genesis file exported from version 1 (dates are block heights, a block takes
30 seconds) into one for version 2 (dates are times).

Simplifications: the JSON form is dropped; times are integers, nanoseconds since 1970, UTC (`isoformat` and the calendar are outside facts);
addresses are numbers in the order of their texts; the data of a task is the bytes of an address, the text of an address, nothing, or
something else (`garbled`); keys missing from the file are empty lists.
-/
namespace Verif.Patch

/-! ## Model -/

/-- patch-genesis/config.py:5-35: time of the genesis block in microseconds, height of the export, speed (`time_quotient`, 1 in production). -/
structure Config where
  genesis : Int
  h0 : Int
  q : Int

/-- The range of Python's `datetime`: the years 1 to 9999, in microseconds. -/
def calendarStart : Int := -62135596800 * 10 ^ 6
def calendarEnd : Int := 253402300800 * 10 ^ 6

/-- `height_to_time`, patch-genesis/util.py:6-10.  `//` rounds down; leaving the calendar raises `OverflowError`. -/
def heightToTime (c : Config) (h : Int) : Int :=
  let t := c.genesis + (h - c.h0) * 30 / c.q * 10 ^ 6
  if calendarStart ≤ t ∧ t < calendarEnd then t * 1000 else 253402300800 * 10 ^ 9 - 1

/-- `modulo_to_time`, patch-genesis/util.py:17-18 -/
def moduloToTime (c : Config) (m : Int) : Int := heightToTime c (c.h0 + (m - c.h0) % 2880)

inductive Data
  | bytes (a : Nat)
  | text (a : Nat)
  | none
  | garbled
deriving DecidableEq

structure OldTask where
  handler : String
  data : Data
deriving DecidableEq

structure Task where
  handler : String
  data : Data
  time : Int
deriving DecidableEq

/-- `_patch_acc_address`, patch-genesis/x/schedule.py:12-15: the text of the address with these bytes. -/
def toText : Data → Data
  | .bytes a => .text a
  | _ => .garbled

/-- `_patch_schedule_task`, patch-genesis/x/schedule.py:18-25 -/
def patchTask (c : Config) (h : Int) (t : OldTask) : Task where
  handler := if t.handler = "subscription/refresh" then "profile/refresh" else t.handler
  data := if t.handler ∈ ["referral/compression", "referral/downgrade", "referral/transition-timeout"] then toText t.data else t.data
  time := heightToTime c h

/-- Accounts by the remainder of the height at which they earn interest. -/
abbrev Clusters := List (Int × List Nat)

/-- `patch`, patch-genesis/x/schedule.py:28-53, the tasks -/
def patchSchedule (c : Config) (old : List (Int × List OldTask)) (clusters : Clusters) : List Task :=
  (old.flatMap fun x => x.2.map (patchTask c x.1)) ++
  (clusters.flatMap fun x => x.2.map fun a => ⟨"delegating/accrue", .bytes a, moduloToTime c x.1⟩) ++
  [⟨"referral/status-bonus", .none, heightToTime c (((c.h0 - 1) / 20160 + 1) * 20160)⟩]

/-- patch-genesis/x/schedule.py:50, the length of a day -/
def dayNanos (c : Config) : Int := 24 * 60 ^ 2 * 10 ^ 9 / c.q

structure Revoking where
  account : Nat
  height : Int
  amount : Int

structure Acc where
  requests : List (Int × Int) := []
  accrue : Option Int := none
deriving DecidableEq

/-- patch-genesis/x/delegating.py:13-23 -/
def addRequest (c : Config) (m : KV Nat Acc) (x : Revoking) : KV Nat Acc :=
  let r := (m.get x.account).getD {}
  m.set x.account { r with requests := r.requests ++ [(heightToTime c x.height, x.amount)] }

/-- patch-genesis/x/delegating.py:27-33 -/
def addAccrual (t : Int) (m : KV Nat Acc) (a : Nat) : KV Nat Acc := m.set a { (m.get a).getD {} with accrue := some t }

/-- patch-genesis/x/delegating.py:25-33 -/
def addCluster (c : Config) (m : KV Nat Acc) (x : Int × List Nat) : KV Nat Acc := x.2.foldl (addAccrual (moduloToTime c x.1)) m

/-- `patch`, patch-genesis/x/delegating.py:8-43, the accounts: a dictionary, written in the order of the addresses -/
def patchDelegating (c : Config) (rev : List Revoking) (clusters : Clusters) : List (Nat × Acc) :=
  (clusters.foldl (addCluster c) (rev.foldl (addRequest c) KV.empty)).entries

/-- `patch`, patch-genesis/x/bank.py:9-20, the balances: those with some amount that is not zero -/
def patchBalances (l : List (Nat × List (String × Int))) : List (Nat × List (String × Int)) :=
  l.filter fun x => x.2.any fun c => c.2 != 0

/-- patch-genesis/x/referral.py:27-40, compressions and downgrades (without the status) -/
def patchDates (c : Config) (l : List (Nat × Int)) : List (Nat × Int) := l.map fun x => (x.1, heightToTime c x.2)

/-- patch-genesis/x/profile.py:40-43,92-94: the end of the subscription of an account that has a profile; a later entry replaces an
earlier one -/
def patchActive (c : Config) (activity : List (Nat × Int)) (profiles : List Nat) : List (Nat × Option Int) :=
  profiles.map fun a => (a, ((activity.reverse.find? fun x => x.1 = a).map fun x => heightToTime c x.2))

/-- patch-genesis/x/voting.py:81-82 and util.py:13-14: the voting period in hours, rounded up.  The code rounds up a quotient of
floating-point numbers, taken as exact here. -/
def votingHours (c : Config) (blocks : Int) : Int := -(-(blocks * 30 * 10 ^ 6 / c.q) / (3600 * 10 ^ 6))

/-! ## Specification -/

/-- The settings the script accepts, with a genesis time in the range of the scheduler (1970 to 2262). -/
structure Config.Ok (c : Config) : Prop where
  slow : 1 ≤ c.q
  fast : c.q ≤ 1440
  start : 0 ≤ c.genesis
  stop : c.genesis < 9246182400 * 10 ^ 6

/-- What the handlers of version 2 take for the account they are called for: text for /repo/x/referral/keeper/hooks.go:41-63, bytes for
/repo/x/delegating/keeper/hooks.go:14-19,65-70 and /repo/x/profile/keeper/subscription.go:389-399; those of voting take nothing
(/repo/x/voting/keeper/keeper.go:397).  `none`: no such handler (/repo/app/app.go:323-332). -/
def expects : String → Option (Nat → Data → Prop)
  | "referral/downgrade" => some fun a d => d = .text a
  | "referral/compression" => some fun a d => d = .text a
  | "referral/transition-timeout" => some fun a d => d = .text a
  | "referral/banish" => some fun a d => d = .text a
  | "profile/refresh" => some fun a d => d = .bytes a
  | "profile/refresh-im" => some fun a d => d = .bytes a
  | "delegating/revoke" => some fun a d => d = .bytes a
  | "delegating/accrue" => some fun a d => d = .bytes a
  | "voting/complete" => some fun _ _ => True
  | "voting/poll" => some fun _ _ => True
  | _ => none

/-! ## Proofs -/

/-- C94, dates: the moment of a height is the moment of the start plus 30 seconds per block since the export, divided by the speed and
rounded down to whole seconds; unless it is outside the calendar. -/
theorem C94_time {c : Config} (hc : c.Ok) {h n : Int} (hn : n * c.q ≤ 30 * (h - c.h0)) (hn' : 30 * (h - c.h0) < (n + 1) * c.q) :
    (-62135596800 * 10 ^ 6 ≤ c.genesis + n * 10 ^ 6 → c.genesis + n * 10 ^ 6 < 253402300800 * 10 ^ 6 →
      heightToTime c h = (c.genesis + n * 10 ^ 6) * 1000) ∧
    (253402300800 * 10 ^ 6 ≤ c.genesis + n * 10 ^ 6 → heightToTime c h = 253402300800 * 10 ^ 9 - 1) := by
  have hq : 0 < c.q := by have := hc.slow; omega
  have hd : (h - c.h0) * 30 / c.q = n := by
    rw [Int.ediv_eq_iff_of_pos hq]
    constructor
    · rw [mul_comm (h - c.h0)]; exact hn
    · rw [mul_comm (h - c.h0)]; linarith
  unfold heightToTime calendarStart calendarEnd
  simp only [hd]
  constructor
  · intro h1 h2; rw [if_pos ⟨h1, h2⟩]
  · intro h1; rw [if_neg]; rintro ⟨-, h2⟩; omega

/-- C94, dates: the height of the export is the moment of the start, and order is kept from any height within the calendar on. -/
theorem C94_order {c : Config} (hc : c.Ok) :
    heightToTime c c.h0 = c.genesis * 1000 ∧
    ∀ h h', h ≤ h' → -62135596800 * 10 ^ 6 ≤ c.genesis + 30 * (h - c.h0) / c.q * 10 ^ 6 → heightToTime c h ≤ heightToTime c h' := by
  have hq : 0 < c.q := by have := hc.slow; omega
  have := hc.start
  have := hc.stop
  constructor
  · have := (C94_time hc (h := c.h0) (n := 0) (by simp) (by simpa using hq)).1 (by omega) (by omega)
    simpa using this
  · intro h h' hle hin
    have hm : (h - c.h0) * 30 / c.q ≤ (h' - c.h0) * 30 / c.q := Int.ediv_le_ediv hq (by omega)
    rw [mul_comm 30] at hin
    unfold heightToTime calendarStart calendarEnd
    dsimp only
    split <;> split <;> omega

/-- C94, interest: an account earns interest at the first height from the export on that leaves the remainder of its cluster, which is
within the first day of version 2. -/
theorem C94_cluster {c : Config} (hc : c.Ok) (m : Int) :
    ∃ h, c.h0 ≤ h ∧ h ≡ m [ZMOD 2880] ∧ (∀ h', c.h0 ≤ h' → h' ≡ m [ZMOD 2880] → h ≤ h') ∧
      moduloToTime c m = heightToTime c h ∧ c.genesis * 1000 ≤ moduloToTime c m ∧ moduloToTime c m < c.genesis * 1000 + dayNanos c := by
  have hq : 0 < c.q := by have := hc.slow; omega
  have hq2 := hc.fast
  have h1 := Int.emod_nonneg (m - c.h0) (by norm_num : (2880 : Int) ≠ 0)
  have h2 := Int.emod_lt_of_pos (m - c.h0) (by norm_num : (0 : Int) < 2880)
  set k := (m - c.h0) % 2880 with hk
  have hmod : c.h0 + k ≡ m [ZMOD 2880] := by
    have : k ≡ m - c.h0 [ZMOD 2880] := Int.mod_modEq _ _
    have := (Int.ModEq.refl c.h0).add this
    simpa using this
  refine ⟨c.h0 + k, by omega, hmod, ?_, rfl, ?_⟩
  · intro h' hh hm
    have hd : h' - (c.h0 + k) ≡ 0 [ZMOD 2880] := by
      have := (hm.trans hmod.symm).sub (Int.ModEq.refl (c.h0 + k))
      simpa using this
    have hd := Int.modEq_zero_iff_dvd.1 hd
    obtain ⟨j, hj⟩ := hd
    by_contra hlt
    have : j ≤ -1 := by omega
    omega
  · have e1 : heightToTime c (c.h0 + k) = (c.genesis + k * 30 / c.q * 10 ^ 6) * 1000 := by
      have hn0 : 0 ≤ k * 30 / c.q := Int.ediv_nonneg (by omega) (by omega)
      have hn1 : k * 30 / c.q ≤ k * 30 := Int.ediv_le_self _ (by omega)
      have := hc.start
      have := hc.stop
      unfold heightToTime calendarStart calendarEnd
      dsimp only
      rw [show c.h0 + k - c.h0 = k by omega, if_pos ⟨by omega, by omega⟩]
    have hn0 : 0 ≤ k * 30 / c.q := Int.ediv_nonneg (by omega) (by omega)
    have hmul : c.q * (k * 30 / c.q) ≤ k * 30 := Int.mul_ediv_self_le (by omega)
    have hday : c.q * (dayNanos c) + (c.q - 1) ≥ 86400 * 10 ^ 9 := by
      unfold dayNanos
      have a1 := Int.emod_lt_of_pos (24 * 60 ^ 2 * 10 ^ 9) hq
      have a2 := Int.mul_ediv_add_emod (24 * 60 ^ 2 * 10 ^ 9) c.q
      norm_num at a1 a2 ⊢
      linarith
    unfold moduloToTime
    rw [← hk, e1]
    constructor
    · nlinarith
    · have : c.q * (k * 30 / c.q * 10 ^ 9) < c.q * dayNanos c := by nlinarith
      have := lt_of_mul_lt_mul_left this (le_of_lt hq)
      linarith

/-! ### The accounts of delegating -/

theorem get_addRequests (c : Config) : ∀ (rev : List Revoking) (m : KV Nat Acc) (a : Nat),
    (((rev.foldl (addRequest c) m).get a).getD {}).requests =
      ((m.get a).getD {}).requests ++ (rev.filter fun x => x.account = a).map (fun x => (heightToTime c x.height, x.amount)) ∧
    (((rev.foldl (addRequest c) m).get a).getD {}).accrue = ((m.get a).getD {}).accrue ∧
    ((rev.foldl (addRequest c) m).get a = none ↔ m.get a = none ∧ ∀ x ∈ rev, x.account ≠ a) := by
  intro rev
  induction rev with
  | nil => intro m a; simp
  | cons x rev ih =>
    intro m a
    obtain ⟨h1, h2, h3⟩ := ih (addRequest c m x) a
    rw [List.foldl_cons]
    refine ⟨?_, ?_, ?_⟩
    · rw [h1]
      unfold addRequest
      simp only [KV.get_set]
      by_cases hx : x.account = a
      · simp [hx, List.append_assoc]
      · have : a ≠ x.account := fun h => hx h.symm
        simp [hx, this]
    · rw [h2]
      unfold addRequest
      simp only [KV.get_set]
      split
      · rename_i h; subst h; rfl
      · rfl
    · rw [h3]
      unfold addRequest
      simp only [KV.get_set]
      by_cases hx : x.account = a
      · simp [hx]
      · have : a ≠ x.account := fun h => hx h.symm
        simp [hx, this]

theorem get_addAccruals (t : Int) : ∀ (l : List Nat) (m : KV Nat Acc) (a : Nat),
    (((l.foldl (addAccrual t) m).get a).getD {}).requests = ((m.get a).getD {}).requests ∧
    (((l.foldl (addAccrual t) m).get a).getD {}).accrue = (if a ∈ l then some t else ((m.get a).getD {}).accrue) ∧
    ((l.foldl (addAccrual t) m).get a = none ↔ m.get a = none ∧ a ∉ l) := by
  intro l
  induction l with
  | nil => intro m a; simp
  | cons x l ih =>
    intro m a
    obtain ⟨h1, h2, h3⟩ := ih (addAccrual t m x) a
    rw [List.foldl_cons]
    by_cases hx : a = x
    · subst hx
      refine ⟨?_, ?_, ?_⟩
      · rw [h1]; simp [addAccrual, KV.get_set]
      · rw [h2]; simp [addAccrual, KV.get_set]
      · rw [h3]; simp [addAccrual, KV.get_set]
    · refine ⟨?_, ?_, ?_⟩
      · rw [h1]; simp [addAccrual, KV.get_set, hx]
      · rw [h2]; simp [addAccrual, KV.get_set, hx]
      · rw [h3]; simp [addAccrual, KV.get_set, hx]

theorem get_addClusters (c : Config) : ∀ (l : Clusters) (m : KV Nat Acc) (a : Nat),
    (((l.foldl (addCluster c) m).get a).getD {}).requests = ((m.get a).getD {}).requests ∧
    (((l.foldl (addCluster c) m).get a).getD {}).accrue =
      ((l.reverse.find? fun x => a ∈ x.2).map fun x => moduloToTime c x.1).or ((m.get a).getD {}).accrue ∧
    ((l.foldl (addCluster c) m).get a = none ↔ m.get a = none ∧ ∀ x ∈ l, a ∉ x.2) := by
  intro l
  induction l with
  | nil => intro m a; simp
  | cons x l ih =>
    intro m a
    obtain ⟨h1, h2, h3⟩ := ih (addCluster c m x) a
    obtain ⟨g1, g2, g3⟩ := get_addAccruals (moduloToTime c x.1) x.2 m a
    rw [List.foldl_cons]
    refine ⟨?_, ?_, ?_⟩
    · rw [h1]; exact g1
    · rw [h2]
      have : ((addCluster c m x).get a |>.getD {}).accrue = _ := g2
      rw [this, List.reverse_cons, List.find?_append]
      cases hf : l.reverse.find? (fun x => decide (a ∈ x.2)) with
      | some y => simp
      | none =>
        by_cases hx : a ∈ x.2 <;> simp [hx]
    · rw [h3]
      have : (addCluster c m x).get a = none ↔ _ := g3
      rw [this]
      simp [and_assoc]

/-- The record of an account in the new file. -/
def Written (l : List (Nat × Acc)) (a : Nat) (r : Acc) : Prop := (a, r) ∈ l

/-- C94, delegating: there is one record for every account that has an open request or earns interest, in the order of the addresses.  It
holds all open requests of the account in their order, each with the moment of its height, and the moment of the (last) cluster of the
account. -/
theorem C94_accounts (c : Config) (rev : List Revoking) (clusters : Clusters) :
    ((patchDelegating c rev clusters).map Prod.fst).Pairwise (· < ·) ∧
    (∀ a, (∃ r, Written (patchDelegating c rev clusters) a r) ↔ (∃ x ∈ rev, x.account = a) ∨ ∃ x ∈ clusters, a ∈ x.2) ∧
    ∀ a r, Written (patchDelegating c rev clusters) a r →
      r.requests = ((rev.filter fun x => x.account = a).map fun x => (heightToTime c x.height, x.amount)) ∧
      r.accrue = (clusters.reverse.find? fun x => a ∈ x.2).map fun x => moduloToTime c x.1 := by
  set m := clusters.foldl (addCluster c) (rev.foldl (addRequest c) KV.empty) with hm
  have hw : ∀ a r, Written (patchDelegating c rev clusters) a r ↔ m.get a = some r := fun a r => KV.mem_entries
  refine ⟨KV.keys_sorted _, ?_, ?_⟩
  · intro a
    have h1 := (get_addClusters c clusters (rev.foldl (addRequest c) KV.empty) a).2.2
    have h2 := (get_addRequests c rev KV.empty a).2.2
    rw [h2] at h1
    simp only [hw]
    rw [← Option.isSome_iff_exists, ← Option.ne_none_iff_isSome, Ne, hm, h1]
    simp only [KV.get_empty, true_and, not_and_or, not_forall]
    push Not
    simp
  · intro a r hr
    rw [hw] at hr
    have h1 := get_addClusters c clusters (rev.foldl (addRequest c) KV.empty) a
    have h2 := get_addRequests c rev KV.empty a
    rw [← hm, hr] at h1
    simp only [Option.getD_some] at h1
    rw [h1.1, h1.2.1, h2.1, h2.2.1]
    simp

/-- C94, open requests: no coins are lost, whichever accounts they belong to. -/
theorem C94_requests_sum (c : Config) (rev : List Revoking) (clusters : Clusters) {a : Nat} {r : Acc}
    (h : Written (patchDelegating c rev clusters) a r) :
    (r.requests.map Prod.snd).sum = ((rev.filter fun x => x.account = a).map fun x => x.amount).sum := by
  rw [((C94_accounts c rev clusters).2.2 a r h).1, List.map_map]
  rfl

/-! ### Tasks -/

theorem mem_patchSchedule {c : Config} {old : List (Int × List OldTask)} {clusters : Clusters} {t : Task} :
    t ∈ patchSchedule c old clusters ↔ (∃ h ts o, (h, ts) ∈ old ∧ o ∈ ts ∧ patchTask c h o = t) ∨
      (∃ m l a, (m, l) ∈ clusters ∧ a ∈ l ∧ (⟨"delegating/accrue", .bytes a, moduloToTime c m⟩ : Task) = t) ∨
      t = ⟨"referral/status-bonus", .none, heightToTime c (((c.h0 - 1) / 20160 + 1) * 20160)⟩ := by
  unfold patchSchedule
  simp only [List.mem_append, List.mem_flatMap, List.mem_map, List.mem_singleton, Prod.exists, or_assoc]
  constructor
  · rintro (⟨h, ts, h1, o, h2, h3⟩ | ⟨m, l, h1, a, h2, h3⟩ | h)
    · exact Or.inl ⟨h, ts, o, h1, h2, h3⟩
    · exact Or.inr (Or.inl ⟨m, l, a, h1, h2, h3⟩)
    · exact Or.inr (Or.inr h)
  · rintro (⟨h, ts, o, h1, h2, h3⟩ | ⟨m, l, a, h1, h2, h3⟩ | h)
    · exact Or.inl ⟨h, ts, h1, o, h2, h3⟩
    · exact Or.inr (Or.inl ⟨m, l, h1, a, h2, h3⟩)
    · exact Or.inr (Or.inr h)

/-- C94, interest: if version 1 had no tasks of this name and every account is in one cluster once, every account with a moment of
interest has exactly one task for it, at this very moment (version 2 refuses any other, C22), and there are no further tasks of this name. -/
theorem C94_interest (c : Config) (old : List (Int × List OldTask)) (rev : List Revoking) (clusters : Clusters)
    (hold : ∀ x ∈ old, ∀ o ∈ x.2, o.handler ≠ "delegating/accrue") (hone : (clusters.flatMap Prod.snd).Nodup) (a : Nat) (t : Int) :
    ((∃ r, Written (patchDelegating c rev clusters) a r ∧ r.accrue = some t) ↔ ⟨"delegating/accrue", .bytes a, t⟩ ∈ patchSchedule c old clusters) ∧
    (patchSchedule c old clusters).count ⟨"delegating/accrue", .bytes a, t⟩ ≤ 1 := by
  have hmem : ∀ t, (⟨"delegating/accrue", .bytes a, t⟩ : Task) ∈ patchSchedule c old clusters ↔ ∃ m l, (m, l) ∈ clusters ∧ a ∈ l ∧ moduloToTime c m = t := by
    intro t
    rw [mem_patchSchedule]
    constructor
    · rintro (⟨h, ts, o, h1, h2, h3⟩ | ⟨m, l, b, h1, h2, h3⟩ | h)
      · exfalso
        have := congrArg Task.handler h3
        simp only [patchTask] at this
        split at this
        · exact absurd this (by decide)
        · exact hold _ h1 _ h2 this
      · injection h3 with _ e2 e3
        injection e2 with e2
        subst e2
        exact ⟨m, l, h1, h2, e3⟩
      · injection h with e1; exact absurd e1 (by decide)
    · rintro ⟨m, l, h1, h2, rfl⟩
      exact Or.inr (Or.inl ⟨m, l, a, h1, h2, rfl⟩)
  have huniq : ∀ x ∈ clusters, ∀ y ∈ clusters, a ∈ x.2 → a ∈ y.2 → x = y := by
    intro x hx y hy hax hay
    rw [List.nodup_flatMap] at hone
    by_contra hne
    have hp := hone.2
    have : Std.Symm (Function.onFun List.Disjoint (Prod.snd : Int × List Nat → List Nat)) := ⟨fun _ _ h _ h1 h2 => h h2 h1⟩
    have := hp.forall hx hy hne
    exact this hax hay
  constructor
  · rw [hmem]
    constructor
    · rintro ⟨r, hr, ha⟩
      rw [((C94_accounts c rev clusters).2.2 a r hr).2] at ha
      obtain ⟨x, hx, rfl⟩ := Option.map_eq_some_iff.1 ha
      have h1 := List.mem_of_find?_eq_some hx
      have h2 := List.find?_some hx
      exact ⟨x.1, x.2, List.mem_reverse.1 h1, by simpa using h2, rfl⟩
    · rintro ⟨m, l, h1, h2, rfl⟩
      obtain ⟨r, hr⟩ := ((C94_accounts c rev clusters).2.1 a).2 (Or.inr ⟨_, h1, h2⟩)
      refine ⟨r, hr, ?_⟩
      rw [((C94_accounts c rev clusters).2.2 a r hr).2]
      cases hf : clusters.reverse.find? (fun x => decide (a ∈ x.2)) with
      | none => rw [List.find?_eq_none] at hf; have := hf (m, l) (List.mem_reverse.2 h1); simp [h2] at this
      | some x =>
        have h3 := List.mem_of_find?_eq_some hf
        have h4 := List.find?_some hf
        have := huniq x (List.mem_reverse.1 h3) (m, l) h1 (by simpa using h4) h2
        subst this
        rfl
  · unfold patchSchedule
    rw [List.count_append, List.count_append]
    have z1 : (old.flatMap fun x => x.2.map (patchTask c x.1)).count ⟨"delegating/accrue", .bytes a, t⟩ = 0 := by
      rw [List.count_eq_zero]
      intro h
      simp only [List.mem_flatMap, List.mem_map] at h
      obtain ⟨x, hx, o, ho, h3⟩ := h
      have := congrArg Task.handler h3
      simp only [patchTask] at this
      split at this
      · exact absurd this (by decide)
      · exact hold _ hx _ ho this
    have z3 : List.count (⟨"delegating/accrue", .bytes a, t⟩ : Task) [⟨"referral/status-bonus", .none, heightToTime c (((c.h0 - 1) / 20160 + 1) * 20160)⟩] = 0 := by
      rw [List.count_eq_zero, List.mem_singleton]
      intro h; injection h with e1; exact absurd e1 (by decide)
    rw [z1, z3, Nat.zero_add, Nat.add_zero]
    have hinj : ∀ (l : List (Int × List Nat)), (l.flatMap Prod.snd).Nodup →
        (l.flatMap fun x => x.2.map fun a => (⟨"delegating/accrue", .bytes a, moduloToTime c x.1⟩ : Task)).count ⟨"delegating/accrue", .bytes a, t⟩ ≤
          (l.flatMap Prod.snd).count a := by
      intro l _
      induction l with
      | nil => simp
      | cons x l ih =>
        simp only [List.flatMap_cons, List.count_append]
        have hl : (x.2.map fun a => (⟨"delegating/accrue", .bytes a, moduloToTime c x.1⟩ : Task)).count ⟨"delegating/accrue", .bytes a, t⟩ ≤ x.2.count a := by
          induction x.2 with
          | nil => simp
          | cons b l ihl =>
            simp only [List.map_cons, List.count_cons]
            have : (if ((⟨"delegating/accrue", .bytes b, moduloToTime c x.1⟩ : Task) == ⟨"delegating/accrue", .bytes a, t⟩) = true then 1 else 0) ≤
                (if (b == a) = true then 1 else 0) := by
              by_cases hb : b = a
              · subst hb; simp; split <;> omega
              · simp [hb]
            omega
        have := ih (by rename_i h; simp only [List.flatMap_cons, List.nodup_append] at h; exact h.2.1)
        omega
    exact le_trans (hinj clusters hone) (List.nodup_iff_count_le_one.1 hone a)

/-- C94, agreement: where the dates of version 1 agree with its tasks, those of version 2 do.  A date of compression or downgrade, an open
request and the end of a subscription have their task at the very moment, in the form version 2 takes. -/
theorem C94_agree (c : Config) (old : List (Int × List OldTask)) (rev : List Revoking) (clusters : Clusters)
    (has : Int → OldTask → Prop) (hhas : ∀ h o, has h o → ∃ ts, (h, ts) ∈ old ∧ o ∈ ts) :
    (∀ l, (∀ x ∈ l, has x.2 ⟨"referral/compression", .bytes x.1⟩) →
      ∀ x ∈ patchDates c l, ⟨"referral/compression", .text x.1, x.2⟩ ∈ patchSchedule c old clusters) ∧
    (∀ l, (∀ x ∈ l, has x.2 ⟨"referral/downgrade", .bytes x.1⟩) →
      ∀ x ∈ patchDates c l, ⟨"referral/downgrade", .text x.1, x.2⟩ ∈ patchSchedule c old clusters) ∧
    ((∀ x ∈ rev, has x.height ⟨"delegating/revoke", .bytes x.account⟩) →
      ∀ a r, Written (patchDelegating c rev clusters) a r → ∀ x ∈ r.requests, ⟨"delegating/revoke", .bytes a, x.1⟩ ∈ patchSchedule c old clusters) ∧
    (∀ l profiles, (∀ x ∈ l, has x.2 ⟨"subscription/refresh", .bytes x.1⟩) →
      ∀ a t, (a, some t) ∈ patchActive c l profiles → ⟨"profile/refresh", .bytes a, t⟩ ∈ patchSchedule c old clusters) := by
  have key : ∀ h o, has h o → patchTask c h o ∈ patchSchedule c old clusters := by
    intro h o ho
    obtain ⟨ts, h1, h2⟩ := hhas h o ho
    exact mem_patchSchedule.2 (Or.inl ⟨h, ts, o, h1, h2, rfl⟩)
  refine ⟨?_, ?_, ?_, ?_⟩
  · intro l hl x hx
    obtain ⟨y, hy, rfl⟩ := List.mem_map.1 hx
    have := key _ _ (hl y hy)
    simpa [patchTask, toText] using this
  · intro l hl x hx
    obtain ⟨y, hy, rfl⟩ := List.mem_map.1 hx
    have := key _ _ (hl y hy)
    simpa [patchTask, toText] using this
  · intro hl a r hr x hx
    rw [((C94_accounts c rev clusters).2.2 a r hr).1] at hx
    obtain ⟨y, hy, rfl⟩ := List.mem_map.1 hx
    obtain ⟨hy, ha⟩ := List.mem_filter.1 hy
    have ha : y.account = a := by simpa using ha
    have := key _ _ (hl y hy)
    rw [ha] at this
    simpa [patchTask] using this
  · intro l profiles hl a t hat
    obtain ⟨b, -, hb⟩ := List.mem_map.1 hat
    injection hb with e1 e2
    subst e1
    obtain ⟨y, hy, rfl⟩ := Option.map_eq_some_iff.1 e2
    have h1 := List.mem_reverse.1 (List.mem_of_find?_eq_some hy)
    have h2 := List.find?_some hy
    have h2 : y.1 = b := by simpa using h2
    have := key _ _ (hl y h1)
    rw [h2] at this
    simpa [patchTask] using this

/-- C94, tasks: all tasks of version 1 are there, in their order, at the moments of their heights, and those that version 2 knows and that
name their account by its bytes are in the form version 2 takes, except banishments. -/
theorem C94_tasks_partial (c : Config) (old : List (Int × List OldTask)) (clusters : Clusters) :
    (∃ rest, patchSchedule c old clusters = (old.flatMap fun x => x.2.map (patchTask c x.1)) ++ rest) ∧
    (∀ h o, (patchTask c h o).time = heightToTime c h ∧ (o.handler ≠ "subscription/refresh" → (patchTask c h o).handler = o.handler)) ∧
    ∀ h o a P, o.data = .bytes a → expects (patchTask c h o).handler = some P → o.handler ≠ "referral/banish" → P a (patchTask c h o).data := by
  refine ⟨⟨_, List.append_assoc ..⟩, ?_, ?_⟩
  · intro h o
    exact ⟨rfl, fun hh => by simp [patchTask, hh]⟩
  · intro h o a P hd hP hb
    unfold patchTask at hP ⊢
    dsimp only at hP ⊢
    rw [hd]
    by_cases h0 : o.handler = "subscription/refresh"
    · rw [if_pos h0] at hP
      cases hP
      simp [h0]
    · rw [if_neg h0] at hP
      unfold expects at hP
      split at hP <;> cases hP <;> first | trivial | (rename_i he; simp [he, toText])

/-- The full claim fails: banishments keep the bytes, and version 2 takes them for the text of an address.  (Version 2.1.0 repairs this,
C95.) -/
theorem C94_banish_violation (c : Config) (h : Int) (a : Nat) :
    ∃ P, expects "referral/banish" = some P ∧ ¬ P a (patchTask c h ⟨"referral/banish", .bytes a⟩).data := by
  refine ⟨_, rfl, ?_⟩
  simp [patchTask]

/-- C94, the bonus of statuses: it is put on the first week, counted in heights of version 1, from the export on; version 2 has no
handler of this name. -/
theorem C94_bonus (c : Config) (old : List (Int × List OldTask)) (clusters : Clusters) :
    expects "referral/status-bonus" = none ∧ ∃ h, c.h0 ≤ h ∧ h < c.h0 + 7 * 2880 ∧ (7 * 2880 : Int) ∣ h ∧
      (⟨"referral/status-bonus", .none, heightToTime c h⟩ : Task) ∈ patchSchedule c old clusters := by
  refine ⟨rfl, ((c.h0 - 1) / 20160 + 1) * 20160, by omega, by omega, ⟨(c.h0 - 1) / 20160 + 1, by ring⟩, ?_⟩
  exact mem_patchSchedule.2 (Or.inr (Or.inr rfl))

/-! ### Start of version 2 -/

/-- C94, start: the scheduler of version 2 takes tasks whose moments are in its range (x/schedule/keeper/genesis.go:9-14); a
height from the export on whose moment is before the year 2263 is. -/
theorem C94_start_partial {c : Config} (hc : c.Ok) {h : Int} (h0 : c.h0 ≤ h)
    (h1 : c.genesis + 30 * (h - c.h0) * 10 ^ 6 < 9246182400 * 10 ^ 6) : Schedule.inRange (heightToTime c h) = true := by
  have hq : 0 < c.q := by have := hc.slow; omega
  have hs := hc.start
  have hn0 : 0 ≤ (h - c.h0) * 30 / c.q := Int.ediv_nonneg (by omega) (by omega)
  have hn1 : (h - c.h0) * 30 / c.q ≤ (h - c.h0) * 30 := Int.ediv_le_self _ (by omega)
  unfold heightToTime calendarStart calendarEnd Schedule.inRange Schedule.timeEnd
  dsimp only
  rw [if_pos ⟨by omega, by omega⟩, decide_eq_true_eq]
  constructor <;> omega

/-- The full claim fails for tasks in the remote future: a height beyond the calendar is written as the last moment of the year 9999, for
which the scheduler panics, so that version 2 does not start. -/
theorem C94_start_violation (c : Config) (h : Int) (hh : 253402300800 * 10 ^ 6 ≤ c.genesis + (h - c.h0) * 30 / c.q * 10 ^ 6)
    (s : Schedule.State) (handler : Nat) (data : List Nat) : Schedule.schedule? s (heightToTime c h) handler data = none := by
  have he : heightToTime c h = 253402300800 * 10 ^ 9 - 1 := by
    unfold heightToTime calendarStart calendarEnd
    dsimp only
    rw [if_neg (by rintro ⟨-, h2⟩; omega)]
  have hr : Schedule.inRange (heightToTime c h) = false := by rw [he]; decide +kernel
  unfold Schedule.schedule?
  rw [hr]
  rfl

/-! ### Balances and votes -/

/-- The coins of a denomination in a list of balances. -/
def total (d : String) (l : List (Nat × List (String × Int))) : Int :=
  (l.flatMap fun x => (x.2.filter fun c => c.1 = d).map Prod.snd).sum

/-- C94, money: no coins are lost or made, and only accounts without coins are left out. -/
theorem C94_money (l : List (Nat × List (String × Int))) :
    (∀ d, total d (patchBalances l) = total d l) ∧ (∀ x, x ∈ patchBalances l ↔ x ∈ l ∧ ∃ c ∈ x.2, c.2 ≠ 0) ∧ (patchBalances l).Sublist l := by
  refine ⟨?_, ?_, List.filter_sublist⟩
  · intro d
    induction l with
    | nil => rfl
    | cons x l ih =>
      unfold total patchBalances at ih ⊢
      rw [List.filter_cons]
      split
      · simp only [List.flatMap_cons, List.sum_append, ih]
      · rename_i hx
        simp only [List.flatMap_cons, List.sum_append, ih]
        have hz : ∀ y ∈ ((x.2.filter fun c => c.1 = d).map Prod.snd), y = 0 := by
          intro y hy
          obtain ⟨z, hz, rfl⟩ := List.mem_map.1 hy
          by_contra h0
          apply hx
          rw [List.any_eq_true]
          exact ⟨z, (List.mem_filter.1 hz).1, by simpa using h0⟩
        rw [List.sum_eq_zero hz, zero_add]
  · intro x
    unfold patchBalances
    simp [List.mem_filter, List.any_eq_true]

/-- C94, votes: the voting period in hours is the shortest that is not shorter than before. -/
theorem C94_votes {c : Config} (hc : c.q = 1) (blocks : Int) :
    30 * blocks ≤ 3600 * votingHours c blocks ∧ 3600 * votingHours c blocks < 30 * blocks + 3600 := by
  unfold votingHours
  rw [hc, Int.ediv_one]
  omega

/-! ### Cases -/

/-- Genesis on 2021-11-01, export at height 1000. -/
def Ex.c : Config := ⟨1635735600 * 10 ^ 6, 1000, 1⟩

theorem Ex.c_ok : Ex.c.Ok := ⟨by decide, by decide, by decide, by decide⟩

/-- Two requests of account 5, who earns interest at height 1160, the first with the remainder 1160; one overdue compression. -/
example : patchDelegating Ex.c [⟨5, 1002, 70⟩, ⟨3, 1001, 8⟩, ⟨5, 1004, 30⟩] [(1160, [5])] =
      [(3, ⟨[(1635735630 * 10 ^ 9, 8)], none⟩), (5, ⟨[(1635735660 * 10 ^ 9, 70), (1635735720 * 10 ^ 9, 30)], some (1635740400 * 10 ^ 9)⟩)] ∧
    patchSchedule Ex.c [(999, [⟨"referral/compression", .bytes 7⟩]), (1001, [⟨"delegating/revoke", .bytes 3⟩])] [(1160, [5])] =
      [⟨"referral/compression", .text 7, 1635735570 * 10 ^ 9⟩, ⟨"delegating/revoke", .bytes 3, 1635735630 * 10 ^ 9⟩,
        ⟨"delegating/accrue", .bytes 5, 1635740400 * 10 ^ 9⟩, ⟨"referral/status-bonus", .none, 1636310400 * 10 ^ 9⟩] := by decide +kernel

example : patchBalances [(1, [("uartr", 5)]), (2, [("uartr", 0)]), (3, [])] = [(1, [("uartr", 5)])] ∧ votingHours Ex.c 2881 = 25 := by decide +kernel

/-- A height of nine quintillions, "never" in version 1, does not fit in the calendar. -/
example : 253402300800 * 10 ^ 6 ≤ Ex.c.genesis + (9000000000000000000 - Ex.c.h0) * 30 / Ex.c.q * 10 ^ 6 := by decide +kernel

end Verif.Patch
