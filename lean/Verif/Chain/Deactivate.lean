import Verif.Profile.Props
import Verif.Referral.Props
import Mathlib.Data.List.Sort

/-!
Property C82.  Model of the upgrade 2.5.8 (/repo/app/app.go:443-446): `DeactivateTopLevelAccounts` and `AddMissingProfileRefreshTask`,
/repo/app/upgrade.go:1070-1133.

Simplifications: logging dropped; the iterators walk over the stores as they were at the beginning; times do not saturate.
-/
namespace Verif.Deactivate
open Verif.Util
open Verif.Schedule (Pending)
open Verif.Referral (Info addrOf)
open Verif.Profile (refreshHook)

/-- The stores the handlers work on: those of the profile module and its neighbours, and the referral store. -/
structure State where
  prof : Profile.State
  ref : KV Nat Info

/-- The body of the first loop, upgrade.go:1081-1099.  A missing profile is read as an empty one (`UnmarshalBinaryBare` of nothing
succeeds), and is written. -/
def deactivateOne (s : State) (x : Nat × Info) : State :=
  if x.2.referrer = none then
    let profile := (s.prof.profiles.get (addrOf x.1)).getD {}
    ⟨{ s.prof with profiles := s.prof.profiles.set (addrOf x.1) { profile with activeUntil := none } },
      s.ref.set x.1 { x.2 with active := false }⟩
  else s

/-- `DeactivateTopLevelAccounts`, upgrade.go:1070-1104 -/
def deactivate (s : State) : State := s.ref.entries.foldl deactivateOne s

/-- The inner loop, upgrade.go:1121-1127; the first argument bounds the number of rounds, `none` = panic or no end. -/
def loop? (month stop : Int) (a : Nat) : Nat → Int → Schedule.State → Option Schedule.State
  | 0, t, c => if stop < t then none else some c
  | n + 1, t, c => if stop < t then (Schedule.Req.exec? c (.schedule t refreshHook [a])).bind (loop? month stop a n (t - month)) else some c

/-- The body of the outer loop, upgrade.go:1116-1129.  If a month is longer than nothing, there are no more rounds
than this. -/
def addOne? (month now : Int) (c : Schedule.State) (x : Nat × Profile.Profile) : Option Schedule.State :=
  match x.2.activeUntil with
  | some u => if now + month < u then loop? month (now + month) x.1 (((u - (now + month)) / month).toNat + 1) u c else some c
  | none => some c

/-- `AddMissingProfileRefreshTask`, upgrade.go:1106-1133; `none` = the chain stops. -/
def addMissing? (month : Int) (s : State) : Option State :=
  (s.prof.profiles.entries.foldlM (addOne? month s.prof.now) s.prof.sched).map fun c => { s with prof := { s.prof with sched := c } }

/-- Upgrade 2.5.8, app.go:443-446; `month` is `sk.OneMonth(ctx)`. -/
def upgrade? (month : Int) (s : State) : Option State := addMissing? month (deactivate s)

/-! ### Specification -/

/-- `a` is an account at the top of the structure. -/
def Top (s : State) (a : Nat) : Prop := ∃ k v, s.ref.get k = some v ∧ v.referrer = none ∧ addrOf k = a

/-- A renewal of `a` is planned for the moment `t`. -/
def Planned (c : Schedule.State) (a : Nat) (t : Int) : Prop := ∃ x, Pending c x ∧ x.time = t ∧ x.handler = refreshHook ∧ x.data = [a]

/-! ### Deactivation -/

theorem fold_ref (l : List (Nat × Info)) (hn : (l.map Prod.fst).Nodup) (s : State) (k : Nat) :
    (l.foldl deactivateOne s).ref.get k =
      match (l.find? fun x => x.1 == k) with
      | some x => if x.2.referrer = none then some { x.2 with active := false } else s.ref.get k
      | none => s.ref.get k := by
  induction l generalizing s with
  | nil => rfl
  | cons y l ih =>
    rw [List.map_cons, List.nodup_cons] at hn
    rw [List.foldl_cons, ih hn.2, List.find?_cons]
    by_cases hk : y.1 = k
    · have hf : l.find? (fun x => x.1 == k) = none := by
        rw [List.find?_eq_none]
        intro x hx hxk
        exact hn.1 (by rw [hk, ← (beq_iff_eq.1 hxk)]; exact List.mem_map_of_mem hx)
      rw [hf]
      simp only [hk, beq_self_eq_true]
      unfold deactivateOne
      split
      · rw [hk]; exact KV.get_set_self _ _ _
      · rfl
    · have hg : (deactivateOne s y).ref.get k = s.ref.get k := by
        unfold deactivateOne
        split
        · exact KV.get_set_ne _ _ (Ne.symm hk)
        · rfl
      rw [hg]
      simp only [beq_eq_false_iff_ne.2 hk]

theorem deactivate_ref (s : State) (k : Nat) : (deactivate s).ref.get k =
    (s.ref.get k).map fun v => if v.referrer = none then { v with active := false } else v := by
  unfold deactivate
  rw [fold_ref _ (KV.keys_nodup s.ref)]
  split
  · next x hf =>
    obtain ⟨j, v⟩ := x
    have h1 := List.find?_some hf
    have h2 := KV.mem_entries.1 (List.mem_of_find?_eq_some hf)
    simp only [beq_iff_eq] at h1
    subst h1
    rw [h2]
    dsimp only [Option.map_some]
    split <;> rfl
  · next hf =>
    rcases hg : s.ref.get k with _ | v
    · rfl
    · have := List.find?_eq_none.1 hf (k, v) (KV.mem_entries.2 hg)
      simp at this

open Classical in
theorem fold_prof (l : List (Nat × Info)) (s : State) (a : Nat) :
    (l.foldl deactivateOne s).prof.profiles.get a =
      if ∃ x ∈ l, x.2.referrer = none ∧ addrOf x.1 = a then some { (s.prof.profiles.get a).getD {} with activeUntil := none }
      else s.prof.profiles.get a := by
  induction l generalizing s with
  | nil => simp
  | cons y l ih =>
    rw [List.foldl_cons, ih]
    have hg : (deactivateOne s y).prof.profiles.get a = if y.2.referrer = none ∧ addrOf y.1 = a then
        some { (s.prof.profiles.get a).getD {} with activeUntil := none } else s.prof.profiles.get a := by
      unfold deactivateOne
      by_cases h1 : y.2.referrer = none
      · rw [if_pos h1]
        by_cases h2 : addrOf y.1 = a
        · rw [if_pos ⟨h1, h2⟩]; subst h2; exact KV.get_set_self _ _ _
        · rw [if_neg (fun h => h2 h.2)]; exact KV.get_set_ne _ _ (Ne.symm h2)
      · rw [if_neg h1, if_neg (fun h => h1 h.1)]
    rw [hg]
    by_cases hl : ∃ x ∈ l, x.2.referrer = none ∧ addrOf x.1 = a
    · have hl' : ∃ x ∈ y :: l, x.2.referrer = none ∧ addrOf x.1 = a := by
        obtain ⟨x, h, h'⟩ := hl; exact ⟨x, List.mem_cons_of_mem _ h, h'⟩
      rw [if_pos hl, if_pos hl']
      split <;> rfl
    · rw [if_neg hl]
      by_cases hy : y.2.referrer = none ∧ addrOf y.1 = a
      · rw [if_pos hy, if_pos ⟨y, List.mem_cons_self, hy⟩]
      · rw [if_neg hy, if_neg]
        rintro ⟨x, hx, h⟩
        rcases List.mem_cons.1 hx with rfl | hx
        · exact hy h
        · exact hl ⟨x, hx, h⟩

open Classical in
theorem deactivate_prof (s : State) (a : Nat) : (deactivate s).prof.profiles.get a =
    if Top s a then some { (s.prof.profiles.get a).getD {} with activeUntil := none } else s.prof.profiles.get a := by
  unfold deactivate
  rw [fold_prof]
  have : (∃ x ∈ s.ref.entries, x.2.referrer = none ∧ addrOf x.1 = a) ↔ Top s a := by
    constructor
    · rintro ⟨⟨k, v⟩, hx, h1, h2⟩
      exact ⟨k, v, KV.mem_entries.1 hx, h1, h2⟩
    · rintro ⟨k, v, hx, h1, h2⟩
      exact ⟨(k, v), KV.mem_entries.2 hx, h1, h2⟩
  by_cases h : Top s a
  · rw [if_pos h, if_pos (this.2 h)]
  · rw [if_neg h, if_neg (fun g => h (this.1 g))]

theorem fold_rest (l : List (Nat × Info)) (s : State) :
    (l.foldl deactivateOne s).prof = { s.prof with profiles := (l.foldl deactivateOne s).prof.profiles } := by
  induction l generalizing s with
  | nil => rfl
  | cons y l ih =>
    rw [List.foldl_cons, ih]
    unfold deactivateOne
    split <;> rfl

/-! ### Tasks -/

/-- What `c'` has over `c`: nothing is lost, and every new task is one of `P`. -/
structure Grown (P : Nat → Int → Prop) (c c' : Schedule.State) : Prop where
  keeps : ∀ x, Pending c x → Pending c' x
  news : ∀ x, Pending c' x → Pending c x ∨ (x.handler = refreshHook ∧ ∃ a, x.data = [a] ∧ P a x.time)

theorem Grown.refl {P : Nat → Int → Prop} (c : Schedule.State) : Grown P c c := ⟨fun _ h => h, fun _ h => .inl h⟩

theorem Grown.trans {P : Nat → Int → Prop} {c d f : Schedule.State} (h : Grown P c d) (g : Grown P d f) : Grown P c f := by
  refine ⟨fun x hx => g.keeps x (h.keeps x hx), fun x hx => ?_⟩
  rcases g.news x hx with h1 | h1
  · exact h.news x h1
  · exact .inr h1

theorem Grown.mono {P Q : Nat → Int → Prop} {c d : Schedule.State} (h : Grown P c d) (hpq : ∀ a t, P a t → Q a t) : Grown Q c d :=
  ⟨h.keeps, fun x hx => (h.news x hx).imp_right fun ⟨h1, a, h2, h3⟩ => ⟨h1, a, h2, hpq _ _ h3⟩⟩

theorem Grown.planned {P : Nat → Int → Prop} {c d : Schedule.State} (h : Grown P c d) {a : Nat} {t : Int} (hp : Planned c a t) :
    Planned d a t := by
  obtain ⟨x, h1, h2⟩ := hp
  exact ⟨x, h.keeps x h1, h2⟩

theorem schedule_grown {c d : Schedule.State} {a : Nat} {t : Int} (h : Schedule.Req.exec? c (.schedule t refreshHook [a]) = some d) :
    Grown (fun b u => b = a ∧ u = t) c d ∧ Planned d a t := by
  obtain ⟨_, hn, hst⟩ := Schedule.schedule?_spec h
  refine ⟨⟨fun x ⟨l, hl, hm⟩ => ?_, fun x ⟨l, hl, hm⟩ => ?_⟩, ⟨⟨t, refreshHook, [a], c.next⟩,
    ⟨(c.store.get t).getD [] ++ [⟨t, refreshHook, [a], c.next⟩], ?_, ?_⟩, rfl, rfl, rfl⟩⟩
  · by_cases hT : x.time = t
    · refine ⟨(c.store.get t).getD [] ++ [⟨t, refreshHook, [a], c.next⟩], by rw [hst, hT, KV.get_set_self], ?_⟩
      rw [hT] at hl
      rw [hl]
      exact List.mem_append_left _ hm
    · exact ⟨l, by rw [hst, KV.get_set_ne _ _ hT]; exact hl, hm⟩
  · rw [hst, KV.get_set] at hl
    by_cases hT : x.time = t
    · rw [if_pos hT] at hl; injection hl with hl; subst hl
      rcases List.mem_append.1 hm with hm | hm
      · rcases hg : c.store.get t with _ | l
        · simp [hg] at hm
        · rw [hg] at hm; exact .inl ⟨l, hT ▸ hg, hm⟩
      · simp only [List.mem_singleton] at hm; subst hm; exact .inr ⟨rfl, a, rfl, rfl, rfl⟩
    · rw [if_neg hT] at hl; exact .inl ⟨l, hl, hm⟩
  · rw [hst]; exact KV.get_set_self _ _ _
  · simp

theorem loop_grown {month stop : Int} {a n : Nat} {t : Int} {c d : Schedule.State} (h : loop? month stop a n t c = some d) :
    Grown (fun b u => b = a ∧ stop < u ∧ ∃ j : Nat, u = t - j * month) c d ∧
      ∀ j : Nat, (∀ i ≤ j, stop < t - (i : Int) * month) → Planned d a (t - j * month) := by
  induction n generalizing t c with
  | zero =>
    unfold loop? at h
    split at h
    · cases h
    · next hs =>
      injection h with h; subst h
      exact ⟨.refl _, fun j hj => absurd (by simpa using hj 0 (Nat.zero_le _)) hs⟩
  | succ n ih =>
    unfold loop? at h
    split at h
    · next hs =>
      rw [Option.bind_eq_some_iff] at h
      obtain ⟨f, h1, h2⟩ := h
      obtain ⟨g1, g2⟩ := schedule_grown h1
      obtain ⟨k1, k2⟩ := ih h2
      refine ⟨(g1.mono ?_).trans (k1.mono ?_), fun j hj => ?_⟩
      · rintro b u ⟨rfl, rfl⟩; exact ⟨rfl, hs, 0, by simp⟩
      · rintro b u ⟨rfl, hu, j, rfl⟩
        exact ⟨rfl, hu, j + 1, by push_cast; ring⟩
      · rcases j with _ | j
        · exact k1.planned (by simpa using g2)
        · have := k2 j fun i hi => by
            have := hj (i + 1) (by omega)
            push_cast at this; linarith
          rw [show t - ((j + 1 : Nat) : Int) * month = t - month - j * month by push_cast; ring]
          exact this
    · next hs =>
      injection h with h; subst h
      exact ⟨.refl _, fun j hj => absurd (by simpa using hj 0 (Nat.zero_le _)) hs⟩

theorem loop_some {month stop : Int} (hm : 0 < month) (h0 : 0 ≤ stop) {a n : Nat} {t : Int} {c : Schedule.State}
    (hn : t - stop ≤ n * month) (ht : t < Schedule.timeEnd) : (loop? month stop a n t c).isSome := by
  induction n generalizing t c with
  | zero => unfold loop?; rw [if_neg (by push_cast at hn; omega)]; rfl
  | succ n ih =>
    unfold loop?
    split
    · next hs =>
      have hr : Schedule.inRange t = true := by simp only [Schedule.inRange, decide_eq_true_eq]; omega
      simp only [Schedule.Req.exec?, Schedule.schedule?, if_pos hr, Option.bind_some]
      exact ih (by push_cast at hn; linarith) (by omega)
    · rfl

theorem loop_stuck {month stop : Int} (hm : month ≤ 0) {a n : Nat} {t : Int} {c : Schedule.State} (ht : stop < t) :
    loop? month stop a n t c = none := by
  induction n generalizing t c with
  | zero => unfold loop?; rw [if_pos ht]
  | succ n ih =>
    unfold loop?
    rw [if_pos ht]
    cases Schedule.Req.exec? c (.schedule t refreshHook [a]) with
    | none => rfl
    | some d => exact ih (by omega)

/-- The renewals the upgrade has to plan. -/
def Wanted (month now : Int) (l : List (Nat × Profile.Profile)) (a : Nat) (t : Int) : Prop :=
  ∃ p u, (a, p) ∈ l ∧ p.activeUntil = some u ∧ now + month < t ∧ ∃ j : Nat, t = u - j * month

theorem addOne_grown {month now : Int} {c d : Schedule.State} {x : Nat × Profile.Profile} (h : addOne? month now c x = some d) :
    Grown (Wanted month now [x]) c d ∧ (∀ a t, 0 ≤ month → Wanted month now [x] a t → Planned d a t) := by
  obtain ⟨a, p⟩ := x
  unfold addOne? at h
  split at h
  · next u hu =>
    dsimp only at hu h
    split at h
    · next hlt =>
      obtain ⟨h1, h2⟩ := loop_grown h
      refine ⟨h1.mono ?_, ?_⟩
      · rintro b t ⟨rfl, ht, j, rfl⟩
        exact ⟨p, u, by simp, hu, ht, j, rfl⟩
      · rintro b t hm ⟨p', u', hx, hu', ht, j, rfl⟩
        simp only [List.mem_singleton, Prod.mk.injEq] at hx
        obtain ⟨rfl, rfl⟩ := hx
        rw [hu] at hu'; injection hu' with hu'; subst hu'
        refine h2 j fun i hi => ?_
        have : (i : Int) * month ≤ j * month := Int.mul_le_mul_of_nonneg_right (by exact_mod_cast hi) hm
        omega
    · next hlt =>
      injection h with h; subst h
      refine ⟨.refl _, ?_⟩
      rintro b t hm ⟨p', u', hx, hu', ht, j, rfl⟩
      simp only [List.mem_singleton, Prod.mk.injEq] at hx
      obtain ⟨rfl, rfl⟩ := hx
      rw [hu] at hu'; injection hu' with hu'; subst hu'
      have : 0 ≤ (j : Int) * month := Int.mul_nonneg (by omega) hm
      omega
  · next hu =>
    injection h with h; subst h
    refine ⟨.refl _, ?_⟩
    rintro b t hm ⟨p', u', hx, hu', ht, j, rfl⟩
    simp only [List.mem_singleton, Prod.mk.injEq] at hx
    obtain ⟨rfl, rfl⟩ := hx
    rw [hu] at hu'; cases hu'

theorem fold_grown {month now : Int} (l : List (Nat × Profile.Profile)) {c d : Schedule.State} (h : l.foldlM (addOne? month now) c = some d) :
    Grown (Wanted month now l) c d ∧ (∀ a t, 0 ≤ month → Wanted month now l a t → Planned d a t) := by
  induction l generalizing c with
  | nil =>
    injection h with h; subst h
    exact ⟨.refl _, fun a t _ ⟨p, u, hx, _⟩ => by cases hx⟩
  | cons x l ih =>
    rw [List.foldlM_cons] at h
    obtain ⟨f, h1, h2⟩ := Option.bind_eq_some_iff.1 h
    obtain ⟨g1, g2⟩ := addOne_grown h1
    obtain ⟨k1, k2⟩ := ih h2
    refine ⟨(g1.mono ?_).trans (k1.mono ?_), ?_⟩
    · rintro a t ⟨p, u, hx, hr⟩
      exact ⟨p, u, by rw [List.mem_singleton] at hx; rw [hx]; exact List.mem_cons_self, hr⟩
    · rintro a t ⟨p, u, hx, hr⟩
      exact ⟨p, u, List.mem_cons_of_mem _ hx, hr⟩
    · rintro a t hm ⟨p, u, hx, hr⟩
      rcases List.mem_cons.1 hx with hx | hx
      · exact k1.planned (g2 a t hm ⟨p, u, by rw [hx]; simp, hr⟩)
      · exact k2 a t hm ⟨p, u, hx, hr⟩

theorem fold_some {month now : Int} (hm : 0 < month) (h0 : 0 ≤ now) (l : List (Nat × Profile.Profile)) (c : Schedule.State)
    (hl : ∀ x ∈ l, ∀ u, x.2.activeUntil = some u → u < Schedule.timeEnd) : (l.foldlM (addOne? month now) c).isSome := by
  induction l generalizing c with
  | nil => rfl
  | cons x l ih =>
    rw [List.foldlM_cons]
    have : (addOne? month now c x).isSome := by
      unfold addOne?
      split
      · next u hu =>
        split
        · refine loop_some hm (by omega) ?_ (hl x List.mem_cons_self u hu)
          have h1 := Int.lt_ediv_add_one_mul_self (u - (now + month)) hm
          have h2 : (u - (now + month)) / month ≤ (((u - (now + month)) / month).toNat : Int) := Int.self_le_toNat _
          push_cast
          nlinarith
        · rfl
      · rfl
    obtain ⟨d, hd⟩ := Option.isSome_iff_exists.1 this
    rw [hd]
    exact ih d fun y hy => hl y (List.mem_cons_of_mem _ hy)

theorem upgrade_some {month : Int} {s t : State} (h : upgrade? month s = some t) :
    ∃ c, (deactivate s).prof.profiles.entries.foldlM (addOne? month s.prof.now) s.prof.sched = some c ∧
      t = { ref := (deactivate s).ref, prof := { s.prof with profiles := (deactivate s).prof.profiles, sched := c } } := by
  unfold upgrade? addMissing? at h
  rw [Option.map_eq_some_iff] at h
  obtain ⟨c, h1, h2⟩ := h
  have hr : (deactivate s).prof = { s.prof with profiles := (deactivate s).prof.profiles } := fold_rest _ s
  refine ⟨c, ?_, ?_⟩
  · rw [hr] at h1; exact h1
  · rw [← h2]; rw [hr]

/-! ### C82 -/

open Classical in
/-- **C82, the deactivation.** The upgrade takes away the subscription and the activity of exactly the accounts at the top of the
structure; an account there without a profile gets an empty one.  Everything else but the schedule stays as it was: all other records and
profiles, the other fields of these records, money, nicknames, cards, accounts and parameters. -/
theorem C82_deactivated {month : Int} {s t : State} (h : upgrade? month s = some t) :
    (∀ k, t.ref.get k = (s.ref.get k).map fun v => if v.referrer = none then { v with active := false } else v) ∧
    (∀ a, t.prof.profiles.get a =
      if Top s a then some { (s.prof.profiles.get a).getD {} with activeUntil := none } else s.prof.profiles.get a) ∧
    t.prof = { s.prof with profiles := t.prof.profiles, sched := t.prof.sched } := by
  obtain ⟨c, -, rfl⟩ := upgrade_some h
  exact ⟨deactivate_ref s, deactivate_prof s, rfl⟩

/-- **C82, the tasks.** No task is lost.  For every subscription that is left, a renewal is planned at its end and at every full month
before it, as far as these moments are more than a month away; and nothing else is planned. -/
theorem C82_planned {month : Int} {s t : State} (hm : 0 ≤ month) (h : upgrade? month s = some t) :
    (∀ x, Pending s.prof.sched x → Pending t.prof.sched x) ∧
    (∀ a p u, t.prof.profiles.get a = some p → p.activeUntil = some u → ∀ j : Nat, s.prof.now + month < u - j * month →
      Planned t.prof.sched a (u - j * month)) ∧
    (∀ x, Pending t.prof.sched x → Pending s.prof.sched x ∨ (x.handler = refreshHook ∧ ∃ a p u, ∃ j : Nat, x.data = [a] ∧
      t.prof.profiles.get a = some p ∧ p.activeUntil = some u ∧ x.time = u - j * month ∧ s.prof.now + month < x.time)) := by
  obtain ⟨c, hc, rfl⟩ := upgrade_some h
  obtain ⟨h1, h2⟩ := fold_grown _ hc
  refine ⟨h1.keeps, fun a p u hp hu j hj => ?_, fun x hx => ?_⟩
  · exact h2 a _ hm ⟨p, u, KV.mem_entries.2 hp, hu, hj, j, rfl⟩
  · refine (h1.news x hx).imp_right ?_
    rintro ⟨g1, a, g2, p, u, g3, g4, g5, j, g6⟩
    exact ⟨g1, a, p, u, j, g2, KV.mem_entries.1 g3, g4, g6, g5⟩

/-- **C82, termination.** The upgrade runs through, provided that a month is longer than nothing and every subscription ends in a year the
schedule knows. -/
theorem C82_runs {month : Int} {s : State} (hm : 0 < month) (h0 : 0 ≤ s.prof.now)
    (hl : ∀ a p u, s.prof.profiles.get a = some p → p.activeUntil = some u → u < Schedule.timeEnd) : (upgrade? month s).isSome := by
  have hr : (deactivate s).prof = { s.prof with profiles := (deactivate s).prof.profiles } := fold_rest _ s
  unfold upgrade? addMissing?
  rw [Option.isSome_map]
  refine fold_some hm (by rw [hr]; exact h0) _ _ ?_
  rintro ⟨a, p⟩ hx u hu
  have hx := KV.mem_entries.1 hx
  rw [deactivate_prof] at hx
  split at hx
  · injection hx with hx; subst hx; cases hu
  · exact hl a p u hx hu

/-- **C82, what must not be.** With a month of zero, or a subscription that ends after the year 2262, the chain stops for good. -/
theorem C82_stops {month : Int} {s : State} {a : Nat} {p : Profile.Profile} {u : Int} (ha : ¬ Top s a) (hp : s.prof.profiles.get a = some p)
    (hu : p.activeUntil = some u) (hlt : s.prof.now + month < u) (hbad : month ≤ 0 ∨ Schedule.timeEnd ≤ u) : upgrade? month s = none := by
  rcases ht : upgrade? month s with _ | t
  · rfl
  · exfalso
    obtain ⟨c, hc, -⟩ := upgrade_some ht
    have hmem : (a, p) ∈ (deactivate s).prof.profiles.entries := by
      rw [KV.mem_entries, deactivate_prof, if_neg ha]; exact hp
    clear ht
    generalize (deactivate s).prof.profiles.entries = l at hc hmem
    generalize s.prof.sched = c0 at hc
    induction l generalizing c0 with
    | nil => cases hmem
    | cons x l ih =>
      rw [List.foldlM_cons] at hc
      obtain ⟨d, h1, h2⟩ := Option.bind_eq_some_iff.1 hc
      rcases List.mem_cons.1 hmem with rfl | hx
      · unfold addOne? at h1
        rw [hu] at h1
        simp only [if_pos hlt] at h1
        rcases hbad with hb | hb
        · rw [loop_stuck hb hlt] at h1; cases h1
        · unfold loop? at h1
          rw [if_pos hlt] at h1
          obtain ⟨f, g1, -⟩ := Option.bind_eq_some_iff.1 h1
          have := (Schedule.schedule?_spec g1).1
          simp only [Schedule.inRange, decide_eq_true_eq] at this
          omega
      · exact ih hx d h2

/-- The states that follow upon `s` by plain operations (C48). -/
inductive After (T : Profile.TextOps) (s : Profile.State) : Profile.State → Prop where
  | refl : After T s s
  | step {t : Profile.State} (e : Profile.Env) (he : e.text = T) (op : Profile.Op) (hop : op.Plain t) (h : After T s t) :
      After T s (op.run e t)

/-- **C82, from then on.** Whatever state the upgrade finds: if the subscriptions which end within the month have their renewal, then after
the upgrade and forever after every running subscription has one, exactly at its end — also those that were created without (C48). -/
theorem C82_from_then_on {T : Profile.TextOps} {month : Int} {s t : State} (hm : 0 ≤ month) (h : upgrade? month s = some t)
    (hsoon : ∀ a p u, s.prof.profiles.get a = some p → p.activeUntil = some u → s.prof.now < u → u ≤ s.prof.now + month →
      Planned s.prof.sched a u)
    {r : Profile.State} (hr : After T t.prof r) {a : Nat} {p : Profile.Profile} {u : Int} (hp : r.profiles.get a = some p)
    (hu : p.activeUntil = some u) (hn : r.now < u) : Planned r.sched a u := by
  have key : Profile.Renew r := by
    clear hp hn hu
    induction hr with
    | refl =>
      intro a p u hp hu hn
      obtain ⟨h1, h2, -⟩ := C82_planned hm h
      obtain ⟨-, g2, g3⟩ := C82_deactivated h
      have hnow : t.prof.now = s.prof.now := by rw [g3]
      rw [hnow] at hn
      by_cases hlt : s.prof.now + month < u
      · have := h2 a p u hp hu 0 (by simpa using hlt)
        rw [show u - ((0 : Nat) : Int) * month = u by simp] at this
        exact this
      · rw [g2] at hp
        split at hp
        · injection hp with hp; subst hp; cases hu
        · obtain ⟨x, k1, k2⟩ := hsoon a p u hp hu hn (by omega)
          exact ⟨x, h1 x k1, k2⟩
    | step e he op hop _ ih => exact Profile.run_renew e op hop ih
  exact key a p u hp hu hn

/-- **C82, twice is once.** A renewal planned a second time for the same moment does no harm: the second reset of the monthly allowances
changes nothing. -/
theorem C82_reset_twice (q : Profile.Params) (p : Profile.Profile) :
    Profile.resetLimits q (Profile.resetLimits q p) = Profile.resetLimits q p := by
  unfold Profile.resetLimits
  simp only [Nat.not_lt_zero, if_false]
  split_ifs <;> simp_all

/-! ### What the upgrade leaves behind -/

theorem infoOf_deactivate {month : Int} {s t : State} (h : upgrade? month s = some t) (k : Nat) :
    Referral.infoOf t.ref k = { Referral.infoOf s.ref k with
      active := (Referral.infoOf s.ref k).active && (Referral.infoOf s.ref k).referrer.isSome } := by
  unfold Referral.infoOf
  rw [(C82_deactivated h).1]
  rcases s.ref.get k with _ | v
  · rfl
  · simp only [Option.map_some, Option.getD_some]
    split
    · next hr => rw [hr]; simp
    · next hr =>
      have : v.referrer.isSome = true := by
        cases hv : v.referrer with
        | none => exact absurd hv hr
        | some _ => rfl
      rw [this, Bool.and_true]

theorem keys_eq {V W : Type} {m : KV Nat V} {n : KV Nat W} (h : ∀ k, (m.get k).isSome = (n.get k).isSome) : m.keys = n.keys := by
  have hmem : ∀ k, k ∈ m.keys ↔ k ∈ n.keys := fun k => by
    rw [KV.mem_keys, KV.mem_keys, ← Option.isSome_iff_exists, ← Option.isSome_iff_exists, h]
  refine List.Perm.eq_of_pairwise' (r := (· < ·)) ?_ ?_ ((List.perm_ext_iff_of_nodup (KV.keys_nodup _) (KV.keys_nodup _)).2 hmem)
  · exact KV.keys_sorted m
  · exact KV.keys_sorted n

/-- **C82, the totals.** Sums over the levels of the structure (C24) stay right.  But every account that lost its activity goes on counting
itself as active: if one did and the numbers were right before, they are wrong afterwards. -/
theorem C82_totals_violation {month : Int} {s t : State} {top : Nat} (h : upgrade? month s = some t) (hs : Referral.TotalsMatch top s.ref) :
    (∀ a w L, 1 ≤ L → L ≤ top → (Referral.infoOf t.ref a).tot w L =
      ((Referral.below t.ref a L).map fun c => (Referral.infoOf t.ref c).tot w 0).sum) ∧
    (Referral.TotalsMatch top t.ref ↔ ∀ k, (Referral.infoOf s.ref k).active = true → (Referral.infoOf s.ref k).referrer.isSome = true) := by
  have ht : ∀ a, (Referral.infoOf t.ref a).tot = (Referral.infoOf s.ref a).tot := fun a => by rw [infoOf_deactivate h]
  have hb : ∀ a L, Referral.below t.ref a L = Referral.below s.ref a L := by
    intro a L
    have hk : t.ref.keys = s.ref.keys := keys_eq fun k => by rw [(C82_deactivated h).1, Option.isSome_map]
    have ha : ∀ c n, Referral.ancestor t.ref c n = Referral.ancestor s.ref c n := by
      intro c n
      induction n with
      | zero => unfold Referral.ancestor; rw [infoOf_deactivate h]
      | succ n ih =>
        unfold Referral.ancestor
        rw [ih]
        congr 1
        funext b
        rw [infoOf_deactivate h]
    unfold Referral.below
    rw [hk]
    congr 1
    funext c
    rw [ha, infoOf_deactivate h]
  have hl : ∀ a w L, 1 ≤ L → L ≤ top → (Referral.infoOf t.ref a).tot w L =
      ((Referral.below t.ref a L).map fun c => (Referral.infoOf t.ref c).tot w 0).sum := by
    intro a w L h1 h2
    simp only [ht, hb]
    exact hs.levels a w L h1 h2
  refine ⟨hl, fun g k hk => ?_, fun g => ⟨hl, fun a => ?_⟩⟩
  · have h1 := g.active k
    rw [infoOf_deactivate h] at h1
    simp only [hs.active k, hk, if_true, Bool.true_and] at h1
    by_contra hc
    rw [if_neg hc] at h1
    omega
  · rw [infoOf_deactivate h]
    simp only [hs.active a]
    by_cases ha : (Referral.infoOf s.ref a).active = true
    · rw [ha, g a ha]; rfl
    · rw [Bool.not_eq_true] at ha
      rw [ha]; rfl

/-- Account 7 at the top of the structure, with its own subscription, and account 5 below it, created with a subscription of three months. -/
def exampleRef : KV Nat Info := (Referral.run [(Referral.fine, .top (Referral.text 7)), (Referral.fine, .subscribe (Referral.text 7)),
  (Referral.fine, .register (Referral.text 5) (Referral.text 7) true)] Referral.plain).store

/-- Account 7 has paid for a month and wants to go on paying. -/
def examplePaid : Profile.State := Profile.Op.runAll Profile.exampleEnv [.payTariff 7 0, .updateProfile 7 [.autoPay true]]
  { Profile.exampleState with
    accounts := Profile.exampleState.accounts.set 7 1, nextAcc := 2
    profiles := (KV.empty.set 7 { cardNumber := 1 ^^^ 0x1A21A4B61B }).set 5
      { cardNumber := 0 ^^^ 0x1A21A4B61B, activeUntil := some (1000 + 3 * Profile.exampleMonth) } }

def exampleUpgrade : State := ⟨examplePaid, exampleRef⟩

theorem exampleRef_keys : exampleRef.keys = [Referral.text 5, Referral.text 7] := by decide +kernel

theorem exampleTop : Top exampleUpgrade 7 ∧ ¬ Top exampleUpgrade 5 := by
  have h7 : ((exampleRef.get (Referral.text 7)).map (·.referrer)) = some none := by decide +kernel
  have h5 : ((exampleRef.get (Referral.text 5)).map (·.referrer)) = some (some (Referral.text 7)) := by decide +kernel
  have he : exampleUpgrade.ref = exampleRef := by simp only [exampleUpgrade]
  unfold Top
  rw [he]
  constructor
  · obtain ⟨v, hv, hr⟩ := Option.map_eq_some_iff.1 h7
    exact ⟨Referral.text 7, v, hv, hr, rfl⟩
  · rintro ⟨k, v, hk, hv, h⟩
    have hm : k ∈ exampleRef.keys := KV.mem_keys.2 ⟨v, hk⟩
    rw [exampleRef_keys] at hm
    rcases List.mem_cons.1 hm with hm | hm
    · rw [hm] at hk
      rw [hk, Option.map_some, hv] at h5
      exact absurd h5 (by simp)
    · rw [List.mem_singleton] at hm
      rw [hm] at h
      exact absurd h (by decide)

-- the upgrade does its work: account 7 is inactive, account 5 has renewals at the end of its third and second month
example : ((upgrade? Profile.exampleMonth exampleUpgrade).map fun t => (t.prof.profiles.get 7).map (·.activeUntil)) = some (some none) ∧
    ((upgrade? Profile.exampleMonth exampleUpgrade).map fun t => t.prof.sched.store.entries.map fun x => (x.1, x.2.map (·.data))) =
      some [(1000 + Profile.exampleMonth, [[7]]), (1000 + 2 * Profile.exampleMonth, [[5]]), (1000 + 3 * Profile.exampleMonth, [[5]])] := by
  constructor
  · decide +kernel
  · decide +kernel

/-- **C82, the second subscription.** The account that still counts itself counts twice once it has subscribed again: one account, two
active ones. -/
theorem C82_counted_twice : ∃ t, upgrade? Profile.exampleMonth exampleUpgrade = some t ∧
    (Referral.infoOf t.ref (Referral.text 7)).active = false ∧ (Referral.infoOf t.ref (Referral.text 7)).tot .active 0 = 1 ∧
    (Referral.infoOf (Referral.step Referral.fine (.subscribe (Referral.text 7)) { Referral.plain with store := t.ref }).store
      (Referral.text 7)).tot .active 0 = 2 := by
  refine ⟨(upgrade? Profile.exampleMonth exampleUpgrade).getD exampleUpgrade, ?_, ?_, ?_, ?_⟩
  · have h : (upgrade? Profile.exampleMonth exampleUpgrade).isSome = true := by decide +kernel
    obtain ⟨t, ht⟩ := Option.isSome_iff_exists.1 h
    rw [ht]; rfl
  · decide +kernel
  · decide +kernel
  · decide +kernel

/-- **C82, charged for nothing.** The renewal of an account at the top is left in the schedule.  If the account has asked for automatic
payment, then at that moment the month is paid, the missing end of the subscription makes the task panic, and nothing is rolled back: the
money is gone, and there is no subscription. -/
theorem C82_charged_for_nothing : ∃ t, upgrade? Profile.exampleMonth exampleUpgrade = some t ∧
    (let r := Profile.block (fun _ => Profile.exampleEnv) (fun _ => Profile.exampleForeign) (1000 + Profile.exampleMonth) t.prof
     (Bank.balance r.bank 7).main < (Bank.balance t.prof.bank 7).main ∧
     (r.profiles.get 7).map (·.activeUntil) = some none) := by
  refine ⟨(upgrade? Profile.exampleMonth exampleUpgrade).getD exampleUpgrade, ?_, ?_, ?_⟩
  · have h : (upgrade? Profile.exampleMonth exampleUpgrade).isSome = true := by decide +kernel
    obtain ⟨t, ht⟩ := Option.isSome_iff_exists.1 h
    rw [ht]; rfl
  · decide +kernel
  · decide +kernel

end Verif.Deactivate
