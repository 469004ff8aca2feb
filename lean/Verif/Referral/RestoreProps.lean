import Verif.Referral.Restore
import Verif.Referral.Props
import Verif.Referral.Actives

/-! Property C95: version 2.1.0 puts the banishments in order (/repo/app/upgrade.go:90-257), see Restore.lean. -/
namespace Verif.Referral
open Verif.Schedule (Task)

/-- The scheduler keeps every task under its moment (`scheduleTask`, and the invariant `Inv` of Schedule/Lemmas.lean). -/
def Site.Timed (x : Site) : Prop := ∀ m, ∀ t ∈ x.at' m, t.time = m

/-! ### Proofs -/

theorem scheduled_spec (x : Site) :
    Aligned x x.scheduled ∧ (∀ m, x.scheduled.at' m = (x.at' m).filterMap x.verdict) ∧ (∀ d, (∀ m, ¬ x.Doomed d m) → x.scheduled.look d = x.look d) ∧
      (x.Timed → ∀ d m, x.Doomed d m → (∀ m', x.Doomed d m' → m' ≤ m) → Judged x d m (x.scheduled.look d)) := by
  have hget : ∀ p ∈ x.s.sched.store.entries, x.s.sched.store.get p.1 = some p.2 := fun p hp => KV.mem_entries.1 hp
  have hat : ∀ p ∈ x.s.sched.store.entries, x.at' p.1 = p.2 := fun p hp => by unfold Site.at'; rw [hget p hp]; rfl
  obtain ⟨a1, a2, a3, a4⟩ := fixMoments_spec x.s.sched.store.entries x x.s.sched.store.sorted hget
  refine ⟨a1, fun m => ?_, fun d hd => ?_, fun ht d m hm hl => ?_⟩
  · unfold Site.scheduled
    rw [a2]
    split
    · rfl
    · rename_i h
      have : x.at' m = [] := by
        unfold Site.at'
        cases hg : x.s.sched.store.get m with
        | none => rfl
        | some ts => exact absurd (List.mem_map.2 ⟨(m, ts), KV.mem_entries.2 hg, rfl⟩) h
      rw [this]; rfl
  · refine a3 d fun p hp hn => hd p.1 ?_
    unfold Site.Doomed; rw [hat p hp]; exact hn
  · have : ∃ ts, x.s.sched.store.get m = some ts := by
      obtain ⟨t, h, -⟩ := hm
      unfold Site.at' at h
      cases hg : x.s.sched.store.get m with
      | none => rw [hg] at h; cases h
      | some ts => exact ⟨ts, rfl⟩
    obtain ⟨ts, hts⟩ := this
    have hmem : (m, ts) ∈ x.s.sched.store.entries := KV.mem_entries.2 hts
    refine a4 (fun p hp t h => ht p.1 t (by rw [hat p hp]; exact h)) d (m, ts) hmem ?_ fun q hq hn => hl q.1 ?_
    · have := hat _ hmem
      unfold Site.Doomed at hm
      rw [show x.at' m = ts from this] at hm
      exact hm
    · unfold Site.Doomed; rw [hat q hq]; exact hn

theorem restored_ne (d : List Nat) (a : Nat) : restored d ≠ [a, 0] := by
  unfold restored
  split
  · simp
  · rename_i h; exact h a

theorem restored_restored (d : List Nat) : restored (restored d) = restored d := by
  have h := restored_ne d
  generalize restored d = d' at h
  unfold restored
  split
  · exact absurd rfl (h _)
  · rfl

theorem scheduled_doomed (x : Site) (d : List Nat) (m : Int) : x.scheduled.Doomed d m ↔ x.Doomed d m ∧ x.Idle d := by
  obtain ⟨-, h, -⟩ := scheduled_spec x
  unfold Site.Doomed
  rw [h]
  constructor
  · rintro ⟨t, ht, h1, rfl⟩
    obtain ⟨u, hu, e⟩ := List.mem_filterMap.1 ht
    by_cases hb : u.handler = banishHook
    · by_cases hi : x.Idle (restored u.data)
      · rw [verdict_idle hb hi] at e
        cases e
        dsimp only
        rw [restored_restored]
        exact ⟨⟨u, hu, hb, rfl⟩, hi⟩
      · rw [verdict_busy hb hi] at e; cases e
    · rw [verdict_other hb] at e
      cases e; exact absurd h1 hb
  · rintro ⟨⟨t, ht, h1, rfl⟩, hi⟩
    exact ⟨_, List.mem_filterMap.2 ⟨t, ht, verdict_idle h1 hi⟩, h1, restored_restored _⟩

/-! ### Theorems -/

/-- C95: the first loop drops the banishments of accounts that are in business, already banished, or about to be compressed, turns the bytes
of an address into its text in the others, and leaves all other tasks and the order alone. -/
theorem C95_tasks (x : Site) (m : Int) : x.scheduled.at' m = (x.at' m).filterMap x.verdict := (scheduled_spec x).2.1 m

/-- C95: no task of banishment holds the bytes of an address any more. -/
theorem C95_texts (x : Site) (m : Int) (t : Task) (ht : t ∈ x.scheduled.at' m) (hb : t.handler = banishHook) (a : Addr) : t.data ≠ [a, 0] := by
  rw [C95_tasks] at ht
  obtain ⟨u, -, e⟩ := List.mem_filterMap.1 ht
  by_cases hu : u.handler = banishHook
  · by_cases hi : x.Idle (restored u.data)
    · rw [verdict_idle hu hi] at e
      cases e
      exact restored_ne _ _
    · rw [verdict_busy hu hi] at e; cases e
  · rw [verdict_other hu] at e
    cases e; exact absurd hb hu

/-- C95: the record of an account without a task of banishment stays as it is. -/
theorem C95_others (x : Site) (d : List Nat) (h : ∀ m, ¬ x.Doomed d m) : x.scheduled.look d = x.look d := (scheduled_spec x).2.2.1 d h

/-- C95: the record of an account with tasks of banishment tells the date of the last one afterwards if the account is out of business, and
none if it is not; a compression to come that the scheduler does not know is forgotten; nothing else in the record changes. -/
theorem C95_records (x : Site) (ht : x.Timed) (d : List Nat) (m : Int) (h : x.Doomed d m) (hl : ∀ m', x.Doomed d m' → m' ≤ m) :
    (x.scheduled.look d).bare = (x.look d).bare ∧ (x.Idle d → (x.scheduled.look d).banishmentAt = some m) ∧
      (¬ x.Idle d → (x.scheduled.look d).banishmentAt = none) ∧
      (x.scheduled.look d).compressionAt =
        (x.look d).compressionAt.filter fun c => decide (c ≤ x.s.now) || (x.at' c).any fun t => t.handler == compressionHook && t.data == namedBy d := by
  have j := (scheduled_spec x).2.2.2 ht d m h hl
  refine ⟨j.bare, j.kept, j.cleared, ?_⟩
  cases hc : (x.look d).compressionAt with
  | none =>
    rcases j.due with e | e
    · rw [e, hc]; rfl
    · rw [e]; rfl
  | some c =>
    by_cases hq : c ≤ x.s.now
    · rw [show (some c).filter _ = some c by simp [hq]]
      by_contra hne
      obtain ⟨c', e1, e2, -⟩ := j.forgotten (by rw [hc]; exact hne)
      rw [hc] at e1; cases e1; omega
    · cases hk : expected x.s c (namedBy d) with
      | true =>
        have hk' : ((x.at' c).any fun t => t.handler == compressionHook && t.data == namedBy d) = true := hk
        rw [Option.filter_some, hk', Bool.or_true, if_pos rfl]
        by_contra hne
        obtain ⟨c', e1, -, e3⟩ := j.forgotten (by rw [hc]; exact hne)
        rw [hc] at e1; cases e1; rw [hk] at e3; cases e3
      | false =>
        have hk' : ((x.at' c).any fun t => t.handler == compressionHook && t.data == namedBy d) = false := hk
        rw [Option.filter_some, hk']
        simp only [hq, decide_false, Bool.or_self, Bool.false_eq_true, if_false]
        rcases j.due with e | e
        · rw [hc] at e
          have := j.open' c e (by omega)
          rw [hk] at this; cases this
        · exact e

/-- C95: if an account has at most one date of banishment in the scheduler, and one at all if its record tells a date, then record and scheduler
agree afterwards. -/
theorem C95_agree_partial (x : Site) (ht : x.Timed) (d : List Nat) (h1 : ∀ m m', x.Doomed d m → x.Doomed d m' → m = m')
    (h2 : (x.look d).banishmentAt ≠ none → ∃ m, x.Doomed d m) (m : Int) :
    (x.scheduled.look d).banishmentAt = some m ↔ x.scheduled.Doomed d m := by
  rw [scheduled_doomed]
  by_cases h : ∃ m', x.Doomed d m'
  · obtain ⟨m', hm⟩ := h
    obtain ⟨-, e1, e2, -⟩ := C95_records x ht d m' hm fun q hq => (h1 q m' hq hm).le
    by_cases hi : x.Idle d
    · rw [e1 hi]
      constructor
      · intro h; cases h; exact ⟨hm, hi⟩
      · intro h; rw [h1 m m' h.1 hm]
    · rw [e2 hi]
      exact ⟨fun h => by simp at h, fun h => absurd h.2 hi⟩
  · have hn : ∀ m', ¬ x.Doomed d m' := fun m' hm => h ⟨m', hm⟩
    rw [C95_others x d hn]
    exact ⟨fun e => absurd (h2 (by rw [e]; simp)) h, fun e => absurd ⟨m, e.1⟩ h⟩

/-- C95: who is to be banished after the first loop is out of business. -/
theorem C95_fair (x : Site) (d : List Nat) (m : Int) (h : x.scheduled.Doomed d m) : x.Doomed d m ∧ x.Idle d ∧ x.scheduled.Idle d := by
  obtain ⟨h1, h2⟩ := (scheduled_doomed x d m).1 h
  exact ⟨h1, h2, ((scheduled_spec x).1.idle d).2 h2⟩

/-! #### The second loop -/

theorem fixRecords_calm (e : Env) (l : List (Key × Info)) : ∀ s : State, (∀ p ∈ l, p.1 = text (addrOf p.1) → (p.2.banished && p.2.active) = false) →
    ∃ t, fixRecords e l s = some t ∧ t.sched = s.sched ∧ t.purse = s.purse ∧ t.index = s.index ∧
      ∀ k, t.store.get k = if k ∈ l.map Prod.fst ∧ k ≠ text (addrOf k) then none else s.store.get k := by
  induction l with
  | nil => exact fun s _ => ⟨s, rfl, rfl, rfl, rfl, fun k => by simp⟩
  | cons p l ih =>
    obtain ⟨j, r⟩ := p
    intro s h
    unfold fixRecords
    split
    · rename_i hj
      obtain ⟨t, a1, a2, a3, a4, a5⟩ := ih { s with store := s.store.erase j } fun q hq => h q (List.mem_cons_of_mem _ hq)
      refine ⟨t, a1, a2, a3, a4, fun k => ?_⟩
      rw [a5]
      dsimp only
      rw [KV.get_erase]
      by_cases hk : k = j
      · subst hk
        rw [if_pos rfl, ite_self, if_pos ⟨List.mem_cons_self, hj⟩]
      · rw [if_neg hk]
        have hmem : k ∈ ((j, r) :: l).map Prod.fst ↔ k ∈ l.map Prod.fst := ⟨fun q => (List.mem_cons.1 q).resolve_left hk, fun q => List.mem_cons_of_mem _ q⟩
        simp only [hmem]
    · rename_i hj
      have hj : j = text (addrOf j) := by simpa using hj
      rw [if_neg (by rw [h (j, r) List.mem_cons_self hj]; simp)]
      obtain ⟨t, a1, a2, a3, a4, a5⟩ := ih s fun q hq => h q (List.mem_cons_of_mem _ hq)
      refine ⟨t, a1, a2, a3, a4, fun k => ?_⟩
      rw [a5]
      by_cases hk : k = j
      · subst hk
        rw [if_neg fun q => q.2 hj, if_neg fun q => q.2 hj]
      · have hmem : k ∈ ((j, r) :: l).map Prod.fst ↔ k ∈ l.map Prod.fst := ⟨fun q => (List.mem_cons.1 q).resolve_left hk, fun q => List.mem_cons_of_mem _ q⟩
        simp only [hmem]

/-- C95: if nobody is banished and active, the upgrade succeeds, and apart from what the first loop does it deletes the records that are not
stored under the text of an address in lowercase, and nothing else. -/
theorem C95_rubbish (e : Env) (x : Site) (h : ∀ k, (infoOf x.s.store k).banished = true → (infoOf x.s.store k).active = false) :
    ∃ z, x.upgrade e = some z ∧ (∀ d, z.strays d = none) ∧ (∀ m, z.at' m = (x.at' m).filterMap x.verdict) ∧ z.s.purse = x.scheduled.s.purse ∧
      ∀ a, z.s.store.get (text a) = x.scheduled.s.store.get (text a) ∧ z.s.store.get (upperText a) = none := by
  have al := (scheduled_spec x).1
  obtain ⟨t, a1, a2, a3, -, a5⟩ := fixRecords_calm e x.scheduled.s.store.entries x.scheduled.s fun p hp hk => by
    have e0 : x.scheduled.look [p.1] = p.2 := by
      show infoOf _ _ = _
      unfold infoOf; rw [KV.mem_entries.1 hp]; rfl
    have e1 : (x.scheduled.look [p.1]).active = (x.look [p.1]).active := (congrArg Info.active (al.bare [p.1]) :)
    have e2 : (x.scheduled.look [p.1]).banished = (x.look [p.1]).banished := (congrArg Info.banished (al.bare [p.1]) :)
    rw [← e0, e1, e2]
    have := h p.1
    cases hb : (x.look [p.1]).banished with
    | false => rfl
    | true => rw [show (x.look [p.1]).active = false from this hb]; rfl
  refine ⟨⟨t, fun _ => none⟩, by unfold Site.upgrade; rw [a1]; rfl, fun _ => rfl, fun m => ?_, a3, fun a => ⟨?_, ?_⟩⟩
  · rw [← C95_tasks]; unfold Site.at'; rw [a2]
  · show t.store.get _ = _
    rw [a5, if_neg fun q => q.2 (by simp [text, addrOf])]
  · show t.store.get _ = _
    rw [a5]
    cases hg : x.scheduled.s.store.get (upperText a) with
    | none => simp
    | some r => rw [if_pos ⟨List.mem_map.2 ⟨_, KV.mem_entries.2 hg, rfl⟩, by unfold upperText text addrOf; omega⟩]

/-! #### Unfair banishments -/

theorem comeBack_flags {e : Env} {k j : Key} {s : State} (hj : j ≠ k) :
    (infoOf (comeBack e k s).2.store j).banished = (infoOf s.store j).banished := by
  have := bunch_view (Q := fun I => (I j).banished = (infoOf s.store j).banished) (e := e) (Framed.comeBackBody k) (s := s) rfl fun t ht => by
    obtain ⟨-, parent, n, -, hv⟩ := comeBackBody_ok ht
    rw [hv, climbV_all (π := Info.banished) (g := bump _ (addKid _)) (bump_all (fun _ _ => rfl) (fun _ => rfl)), upd_ne _ _ hj]
    rfl
  exact this

theorem fixRecords_back (e : Env) (l : List (Key × Info)) : ∀ s t : State, (l.map Prod.fst).Nodup → (∀ p ∈ l, p.1 = text (addrOf p.1)) →
    (∀ p ∈ l, (infoOf s.store p.1).banished = p.2.banished) → Good s → fixRecords e l s = some t →
    Good t ∧ (∀ j, (∀ p ∈ l, p.1 = j → (p.2.banished && p.2.active) = false) → (infoOf t.store j).banished = (infoOf s.store j).banished) ∧
      ∀ p ∈ l, (p.2.banished && p.2.active) = true → (infoOf t.store p.1).banished = false ∨ ∃ u, (comeBack e p.1 u).1 = .err := by
  induction l with
  | nil => intro s t _ _ _ hg h; cases h; exact ⟨hg, fun _ _ => rfl, fun p hp => by cases hp⟩
  | cons p l ih =>
    obtain ⟨k, r⟩ := p
    intro s t hn hlow hb hg h
    rw [List.map_cons, List.nodup_cons] at hn
    have hne : ∀ q ∈ l, q.1 ≠ k := fun q hq hk => hn.1 (List.mem_map.2 ⟨q, hq, hk⟩)
    have hk := hlow (k, r) List.mem_cons_self
    unfold fixRecords at h
    rw [if_neg (by simpa using hk)] at h
    cases hr : (r.banished && r.active) with
    | false =>
      rw [hr] at h
      simp only [Bool.false_eq_true, if_false] at h
      obtain ⟨b1, b2, b3⟩ := ih s t hn.2 (fun q hq => hlow q (List.mem_cons_of_mem _ hq)) (fun q hq => hb q (List.mem_cons_of_mem _ hq)) hg h
      refine ⟨b1, fun j hj => b2 j fun q hq => hj q (List.mem_cons_of_mem _ hq), fun q hq hq2 => ?_⟩
      rcases List.mem_cons.1 hq with rfl | hq
      · rw [hr] at hq2; cases hq2
      · exact b3 q hq hq2
    | true =>
      rw [hr] at h
      simp only [if_true] at h
      have hbk : (infoOf s.store k).banished = true := by
        rw [hb (k, r) List.mem_cons_self]
        exact (Bool.and_eq_true_iff.1 hr).1
      have key : ∀ u, (comeBack e k s).2 = u → fixRecords e l u = some t → Good t ∧
          (∀ j, (∀ p ∈ (k, r) :: l, p.1 = j → (p.2.banished && p.2.active) = false) → (infoOf t.store j).banished = (infoOf s.store j).banished) ∧
          (infoOf t.store k).banished = (infoOf u.store k).banished ∧
          ∀ p ∈ l, (p.2.banished && p.2.active) = true → (infoOf t.store p.1).banished = false ∨ ∃ u, (comeBack e p.1 u).1 = .err := by
        intro u hu h
        have hgu : Good u := hu ▸ comeBack_good hg hbk
        obtain ⟨b1, b2, b3⟩ := ih u t hn.2 (fun q hq => hlow q (List.mem_cons_of_mem _ hq))
          (fun q hq => by rw [← hu, comeBack_flags (hne q hq)]; exact hb q (List.mem_cons_of_mem _ hq)) hgu h
        refine ⟨b1, fun j hj => ?_, b2 k fun q hq hqk => absurd hqk (hne q hq), b3⟩
        have hjk : j ≠ k := fun e => by have := hj (k, r) List.mem_cons_self e.symm; rw [hr] at this; cases this
        rw [b2 j fun q hq => hj q (List.mem_cons_of_mem _ hq), ← hu, comeBack_flags hjk]
      rcases hc : comeBack e k s with ⟨res, u⟩
      rw [hc] at h
      cases res with
      | panic => cases h
      | err =>
        obtain ⟨c1, c2, c3, c4⟩ := key u (by rw [hc]) h
        refine ⟨c1, c2, fun q hq hq2 => ?_⟩
        rcases List.mem_cons.1 hq with rfl | hq
        · exact .inr ⟨s, by rw [hc]⟩
        · exact c4 q hq hq2
      | ok a =>
        obtain ⟨c1, c2, c3, c4⟩ := key u (by rw [hc]) h
        refine ⟨c1, c2, fun q hq hq2 => ?_⟩
        rcases List.mem_cons.1 hq with rfl | hq
        · exact .inl (by rw [c3]; exact comeBack_banished hc)
        · exact c4 q hq hq2

theorem save_has {x : Site} {k : Key} (h : x.s.store.has k = true) (d : List Nat) (v : Info) : (x.save d v).s.store.has k = true := by
  unfold Site.save
  split
  · show (x.s.store.set _ v).has k = true
    unfold KV.has at h ⊢
    rw [KV.get_set]; split
    · rfl
    · exact h
  · exact h

theorem fixTask_has {x : Site} {k : Key} (h : x.s.store.has k = true) (t : Task) : (fixTask x t).2.s.store.has k = true := by
  unfold fixTask
  dsimp only
  split <;> split <;> split <;> first | exact save_has (save_has h _ _) _ _ | exact save_has h _ _ | exact h

theorem fixTasks_has (l : List Task) : ∀ {x : Site} {k : Key}, x.s.store.has k = true → (fixTasks l x).2.s.store.has k = true := by
  induction l with
  | nil => exact fun h => h
  | cons t l ih =>
    intro x k h
    unfold fixTasks
    split
    · exact ih (fixTask_has h t)
    · exact ih h

theorem fixMoments_has (L : List (Int × List Task)) : ∀ {x : Site} {k : Key}, x.s.store.has k = true → (fixMoments L x).s.store.has k = true := by
  induction L with
  | nil => exact fun h => h
  | cons p L ih =>
    intro x k h
    unfold fixMoments
    refine ih ?_
    split
    · exact fixTasks_has p.2 h
    · exact fixTasks_has p.2 h

theorem treeOf_alike {x y : Site} (h : Aligned x y) : treeOf (view y.s.store) = treeOf (view x.s.store) := by
  have hb : ∀ k, (infoOf y.s.store k).bare = (infoOf x.s.store k).bare := fun k => h.bare [k]
  unfold treeOf
  congr 1
  · funext k; exact (congrArg Info.referrer (hb k) :)
  · funext k; exact (congrArg Info.referrals (hb k) :)
  · funext k; exact (congrArg Info.banished (hb k) :)

theorem good_of_consistent {s : State} (h : Consistent s.store) (rank : Key → Nat)
    (hr : ∀ c p, (infoOf s.store c).referrer = some p → rank p < rank c ∧ s.store.has p = true) : Good s := by
  refine ⟨h.once, fun p c => ⟨h.nowhere c p, fun q => h.listed c p q.1 q.2⟩, ?_, fun c p q => (hr c p q).2⟩
  intro c
  refine Subrelation.accessible (r := InvImage (· < ·) rank) ?_ (InvImage.accessible rank (Nat.lt_wfRel.wf.apply _))
  intro a b hab
  exact (hr _ _ hab).1

/-- C95: if all texts are in lowercase and the structure is in order, it stays in order; everybody who was banished though active is not
banished any more, or their return ended with an error; for all others it stays as it was. -/
theorem C95_returned (e : Env) (x z : Site) (rank : Key → Nat) (h : x.upgrade e = some z) (hc : Consistent x.s.store)
    (hr : ∀ c p, (infoOf x.s.store c).referrer = some p → rank p < rank c ∧ x.s.store.has p = true)
    (hlow : ∀ k, x.scheduled.s.store.has k = true → k = text (addrOf k)) :
    Consistent z.s.store ∧
      (∀ k, (infoOf x.s.store k).banished = true → (infoOf x.s.store k).active = true →
        (infoOf z.s.store k).banished = false ∨ ∃ u, (comeBack e k u).1 = .err) ∧
      ∀ k, ¬ ((infoOf x.s.store k).banished = true ∧ (infoOf x.s.store k).active = true) →
        (infoOf z.s.store k).banished = (infoOf x.s.store k).banished := by
  have al := (scheduled_spec x).1
  have hg := good_of_consistent hc rank hr
  have hg' : Good x.scheduled.s := by
    unfold Good
    rw [treeOf_alike al]
    exact ⟨hg.nodup, hg.mem, hg.acc, fun c p q => fixMoments_has _ (hg.here c p q)⟩
  have ea : ∀ k, (infoOf x.scheduled.s.store k).active = (infoOf x.s.store k).active := fun k => (congrArg Info.active (al.bare [k]) :)
  have eb : ∀ k, (infoOf x.scheduled.s.store k).banished = (infoOf x.s.store k).banished := fun k => (congrArg Info.banished (al.bare [k]) :)
  have hi : ∀ p ∈ x.scheduled.s.store.entries, infoOf x.scheduled.s.store p.1 = p.2 := fun p hp => by
    unfold infoOf; rw [KV.mem_entries.1 hp]; rfl
  unfold Site.upgrade at h
  rw [Option.map_eq_some_iff] at h
  obtain ⟨t, h1, rfl⟩ := h
  obtain ⟨b1, b2, b3⟩ := fixRecords_back e _ _ t x.scheduled.s.store.keys_nodup (fun p hp => hlow p.1 (by unfold KV.has; rw [KV.mem_entries.1 hp]; rfl))
    (fun p hp => by rw [hi p hp]) hg' h1
  refine ⟨b1.consistent, fun k q1 q2 => ?_, fun k q => ?_⟩
  · have hk : ∃ r, x.scheduled.s.store.get k = some r := by
      cases hk : x.scheduled.s.store.get k with
      | none => rw [← eb, infoOf, hk] at q1; cases q1
      | some r => exact ⟨r, rfl⟩
    obtain ⟨r, hk⟩ := hk
    have hm := KV.mem_entries.2 hk
    refine b3 (k, r) hm ?_
    rw [← hi _ hm, ea, eb, q1, q2]; rfl
  · rw [← eb]
    refine b2 k fun p hp e => ?_
    rw [← hi p hp, e, ea, eb]
    simpa using q

/-! ### Cases and what remains wrong -/

def muddleRecords : KV Nat Info :=
  (((((KV.empty.set (text 0) { status := 1, referrals := [text 1, text 2, text 3, text 4], active := true }).set
    (text 1) { status := 1, referrer := some (text 0) }).set
    (text 2) { status := 1, referrer := some (text 0), active := true, banishmentAt := some 50 }).set
    (text 3) { status := 1, referrer := some (text 0), compressionAt := some 40 }).set
    (text 4) { status := 1, referrer := some (text 0), compressionAt := some 45, banishmentAt := some 60 }).set
    (text 5) { referrer := some (text 0), active := true, banished := true }

def muddleTasks : KV Int (List Task) :=
  (KV.empty.set 40 [⟨40, compressionHook, [text 3], 0⟩]).set 50
    [⟨50, banishHook, [1, 0], 1⟩, ⟨50, banishHook, [text 2], 2⟩, ⟨50, banishHook, [text 3], 3⟩, ⟨50, banishHook, [text 4], 4⟩,
      ⟨50, downgradeHook, [text 3], 5⟩]

/-- Five accounts below a first one.  Account 1 is out of business and its banishment holds bytes; account 2 is in business; account 3 is to be
compressed first; account 4 has lost its compression; account 5 is banished though active. -/
def muddle : Site := ⟨{ store := muddleRecords, sched := ⟨muddleTasks, 6⟩, now := 30, day := 10 }, fun d => if d = [7, 7] then some { banished := true } else none⟩

example : muddle.scheduled.at' 50 = [⟨50, banishHook, [text 1], 1⟩, ⟨50, banishHook, [text 4], 4⟩, ⟨50, downgradeHook, [text 3], 5⟩] ∧
    (muddle.scheduled.look [text 1]).banishmentAt = some 50 ∧ (muddle.scheduled.look [text 2]).banishmentAt = none ∧
    (muddle.scheduled.look [text 4]).banishmentAt = some 50 ∧ (muddle.scheduled.look [text 4]).compressionAt = none ∧
    (muddle.scheduled.look [text 3]).compressionAt = some 40 := by decide +kernel

example : ((muddle.upgrade fine).any fun z => decide ((infoOf z.s.store (text 5)).banished = false ∧
    (infoOf z.s.store (text 0)).referrals = [text 1, text 2, text 3, text 4, text 5] ∧ (z.strays [7, 7]).isNone)) = true := by decide +kernel

theorem timed_of_check {x : Site} (h : x.s.sched.store.entries.all (fun p => p.2.all fun t => decide (t.time = p.1)) = true) : x.Timed := by
  intro m t ht
  unfold Site.at' at ht
  cases hg : x.s.sched.store.get m with
  | none => rw [hg] at ht; cases ht
  | some ts =>
    rw [hg] at ht
    have := List.all_eq_true.1 h _ (KV.mem_entries.2 hg)
    simpa using List.all_eq_true.1 this t ht

example : muddle.Timed := timed_of_check (by decide +kernel)

theorem info_cases {st : KV Nat Info} {P : Key → Info → Prop} (h : ∀ q ∈ st.entries, P q.1 q.2) (h0 : ∀ k, P k {}) (k : Key) : P k (infoOf st k) := by
  unfold infoOf
  cases hg : st.get k with
  | none => exact h0 k
  | some r => exact h (k, r) (KV.mem_entries.2 hg)

/-- The hypotheses of `C95_returned` hold there. -/
theorem muddle_consistent : Consistent muddle.s.store ∧ (∀ c p, (infoOf muddle.s.store c).referrer = some p → p < c ∧ muddle.s.store.has p = true) ∧
    ∀ k, muddle.scheduled.s.store.has k = true → k = text (addrOf k) := by
  have up : ∀ c p, (infoOf muddle.s.store c).referrer = some p → p < c ∧ muddle.s.store.has p = true := fun c =>
    info_cases (P := fun c v => ∀ p, v.referrer = some p → p < c ∧ muddle.s.store.has p = true)
      (fun q hq p hp => by
        have h : ∀ q ∈ muddle.s.store.entries, q.2.referrer.all (fun p => decide (p < q.1) && muddle.s.store.has p) = true := by decide +kernel
        have := h q hq
        rw [hp] at this
        simpa using this)
      (fun _ p hp => by cases hp) c
  refine ⟨⟨fun p => ?_, fun c p h1 h2 => ?_, fun c p h => ?_, fun c n h => ?_⟩, up, fun k hk => ?_⟩
  · exact info_cases (P := fun _ v => v.referrals.Nodup) (by decide +kernel) (fun _ => List.nodup_nil) p
  · exact info_cases (P := fun c v => v.referrer = some p → v.banished = false → c ∈ (infoOf muddle.s.store p).referrals)
      (fun q hq e1 e2 => by
        have h : ∀ q ∈ muddle.s.store.entries, q.2.referrer.all (fun p => q.2.banished || (infoOf muddle.s.store p).referrals.contains q.1) = true := by
          decide +kernel
        have := h q hq
        rw [e1, e2] at this
        simpa using this)
      (fun _ e => by cases e) c h1 h2
  · exact info_cases (P := fun p v => c ∈ v.referrals → (infoOf muddle.s.store c).referrer = some p ∧ (infoOf muddle.s.store c).banished = false)
      (fun q hq e => by
        have h : ∀ q ∈ muddle.s.store.entries, ∀ c ∈ q.2.referrals, (infoOf muddle.s.store c).referrer = some q.1 ∧ (infoOf muddle.s.store c).banished = false := by
          decide +kernel
        exact h q hq c e)
      (fun _ e => by cases e) p h
  · have : ∀ n a, ancestor muddle.s.store c n = some a → a < c := by
      intro n
      induction n with
      | zero => exact fun a ha => (up c a ha).1
      | succ n ih =>
        intro a ha
        unfold ancestor at ha
        rw [Option.bind_eq_some_iff] at ha
        obtain ⟨b, hb, ha⟩ := ha
        exact lt_trans (up b a ha).1 (ih b hb)
    exact absurd (this n c h) (lt_irrefl c)
  · have h : ∀ q ∈ muddle.scheduled.s.store.entries, q.1 = text (addrOf q.1) := by decide +kernel
    unfold KV.has at hk
    obtain ⟨r, hr⟩ := Option.isSome_iff_exists.1 hk
    exact h (k, r) (KV.mem_entries.2 hr)

/-- An account out of business with two tasks of banishment, one holding bytes and one holding the text. -/
def twice : Site :=
  let tasks := (KV.empty.set 50 [⟨50, banishHook, [1, 0], 0⟩]).set 60 [⟨60, banishHook, [text 1], 1⟩]
  ⟨{ store := KV.empty.set (text 1) { status := 1 }, sched := ⟨tasks, 2⟩, now := 30, day := 10 }, fun _ => none⟩

/-- The full claim fails: an account with two tasks keeps both; its record tells the second date, it is banished at the first. -/
theorem C95_two_dates_violation : ∃ (x : Site) (d : List Nat), x.Timed ∧ (x.scheduled.look d).banishmentAt = some 60 ∧ x.scheduled.Doomed d 50 := by
  refine ⟨twice, [text 1], timed_of_check (by decide +kernel), by decide +kernel, ⟨50, banishHook, [text 1], 0⟩, ?_, rfl, rfl⟩
  have : twice.scheduled.at' 50 = [⟨50, banishHook, [text 1], 0⟩] := by decide +kernel
  rw [this]; exact List.mem_cons_self

/-- The full claim fails: a date in the record of an account without a task stays, and the account is never banished. -/
theorem C95_no_task_violation : ∃ (x : Site) (d : List Nat), x.Timed ∧ (x.scheduled.look d).banishmentAt = some 60 ∧ ∀ m, ¬ x.scheduled.Doomed d m := by
  refine ⟨⟨{ store := KV.empty.set (text 1) { status := 1, banishmentAt := some 60 }, now := 30, day := 10 }, fun _ => none⟩, [text 1],
    timed_of_check (by decide +kernel), by decide +kernel, fun m h => ?_⟩
  obtain ⟨⟨t, ht, -⟩, -⟩ := (scheduled_doomed _ _ _).1 h
  cases ht

/-- An account whose referrer is written in capitals (C26). -/
def capitals : Site :=
  let records := (KV.empty.set (upperText 1) { status := 1, referrals := [text 2] }).set (text 2) { status := 1, referrer := some (upperText 1) }
  ⟨{ store := records, now := 30, day := 10 }, fun _ => none⟩

/-- A finding about the second loop: it deletes the records of accounts written in capitals, though others have them as their referrer. -/
theorem C95_capitals_violation : ∃ (x : Site) (c p : Key), x.s.store.has p = true ∧ (x.upgrade fine).any (fun z =>
    decide ((infoOf z.s.store c).referrer = some p ∧ (infoOf z.s.store c).banished = false ∧ z.s.store.has p = false)) = true :=
  ⟨capitals, text 2, upperText 1, by decide +kernel, by decide +kernel⟩

/-- A finding about the first loop: a task for an account that is not in the structure brings it a record, which bars it from registering. -/
theorem C95_stranger_violation : ∃ (x : Site) (k : Key), x.s.store.has k = false ∧ (x.upgrade fine).any (fun z => z.s.store.has k) = true :=
  ⟨{ twice with s := { twice.s with store := KV.empty } }, text 1, by decide +kernel, by decide +kernel⟩

end Verif.Referral
