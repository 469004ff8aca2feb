import Verif.Referral.RefreshCases
import Verif.Referral.Deadlines4

/-!
Property C86, first part: version 2.4.5 announces the banishments that are missing
(`ScheduleMissingBanishmentAndRefreshReferralStatuses`, /repo/app/upgrade.go:898-938).
-/
namespace Verif.Referral
open Verif.Schedule (Pending)

/-! ### Model -/

/-- upgrade.go:924-926: should be on the way out, but has no date.  `AmountOf(...).Int64()` panics beyond 64 bits; amounts are below that. -/
def lapsed (s : State) (k : Key) : Bool :=
  !(infoOf s.store k).active && decide (s.delegated k ≤ s.dust) && !(infoOf s.store k).banished && (infoOf s.store k).banishmentAt.isNone &&
    (match (infoOf s.store k).compressionAt with
     | none => true
     | some c => decide (c < s.now))

/-- The distance of two dates, upgrade.go:910 (`DayNanos * 15` is taken to fit in 64 bits). -/
def State.shift (s : State) : Int := (s.day * 15).tdiv 86400

/-- `Iterate`, keeper.go:657-690, with the callback of upgrade.go:914-936; `at'` is `newBanishmentTime`.  The callback and the scheduler
work outside of the bunch updater, hence the record is read from the store. -/
def announceLoop (at' : Int) : List Key → Act Unit
  | [] => pure ()
  | k :: l => do
    let s ← M.get
    if lapsed s k then do
      request (.schedule (at' + s.shift) banishHook [k])
      must (update k true fun _ => pure ({ infoOf s.store k with banishmentAt := some (at' + s.shift) }, ()))
      announceLoop (at' + s.shift) l
    else do
      must (update k true fun v => pure (v, ()))
      announceLoop at' l

/-- `ScheduleMissingBanishmentAndRefreshReferralStatuses`, upgrade.go:898-938 -/
def announce (e : Env) : Act Unit := do
  newBunch
  let s ← M.get
  announceLoop (s.now + s.day.tdiv 24) s.store.keys
  must (commit e)

/-! ### Specification -/

/-- The account is out of business and does not know when it will be banished. -/
structure Lapsed (s : State) (k : Key) (r : Info) : Prop where
  active : r.active = false
  poor : s.delegated k ≤ s.dust
  present : r.banished = false
  unannounced : r.banishmentAt = none
  uncompressed : ∀ c, r.compressionAt = some c → c < s.now

theorem lapsed_iff {s : State} {k : Key} {r : Info} (h : s.store.get k = some r) : lapsed s k = true ↔ Lapsed s k r := by
  unfold lapsed
  rw [infoOf_get h]
  simp only [Bool.and_eq_true, Bool.not_eq_true', decide_eq_true_eq, Option.isNone_iff_eq_none]
  constructor
  · rintro ⟨⟨⟨⟨h1, h2⟩, h3⟩, h4⟩, h5⟩
    refine ⟨h1, h2, h3, h4, fun c hc => ?_⟩
    rw [hc] at h5
    simpa using h5
  · intro h
    refine ⟨⟨⟨⟨h.active, h.poor⟩, h.present⟩, h.unannounced⟩, ?_⟩
    cases hc : r.compressionAt with
    | none => rfl
    | some c => simpa using h.uncompressed c hc

/-- The first date is an hour and a quarter of a minute away, each further one a quarter of a minute later, in the order of the store
(all in the time of the chain, whose day may be shorter). -/
def newDate (s : State) (ls : List Key) (k : Key) : Int := s.now + s.day.tdiv 24 + s.shift * (ls.idxOf k + 1)

/-! ### The demands depend on the level sums only -/

def SameTot (a b : KV Nat Info) : Prop := ∀ c, (a.get c).map Info.tot = (b.get c).map Info.tot

theorem SameTot.symm {a b : KV Nat Info} (h : SameTot a b) : SameTot b a := fun c => (h c).symm

theorem SameTot.any {a b : KV Nat Info} (h : SameTot a b) {P : Info → Bool} (hP : ∀ v w : Info, v.tot = w.tot → P v = P w) (c : Key) :
    (a.get c).any P = (b.get c).any P := by
  have := h c
  cases ha : a.get c with
  | none =>
    cases hb : b.get c with
    | none => rfl
    | some w => rw [ha, hb] at this; simp at this
  | some v =>
    cases hb : b.get c with
    | none => rw [ha, hb] at this; simp at this
    | some w => rw [ha, hb] at this; exact hP _ _ (Option.some.inj this)

theorem SameTot.met {a b : KV Nat Info} (h : SameTot a b) (v : Info) (d : Demand) : d.Met a v ↔ d.Met b v := by
  have k : ∀ P : Info → Bool, (∀ v w : Info, v.tot = w.tot → P v = P w) → v.kids a P = v.kids b P := by
    intro P hP
    unfold Info.kids
    congr 1
    funext c
    exact h.any hP c
  have k1 := k (fun x => decide (d.each ≤ x.tot .active 1)) (fun v w hh => by simp only [hh])
  have k2 : ∀ n : Int, v.kids a (fun x => decide (n ≤ x.team)) = v.kids b (fun x => decide (n ≤ x.team)) := fun n =>
    k _ (fun v w hh => by unfold Info.team; rw [hh])
  constructor
  · rintro ⟨h1, h2, h3⟩
    exact ⟨h1, by rw [← k1]; exact h2, fun n hn => by rw [← k2]; exact h3 n hn⟩
  · rintro ⟨h1, h2, h3⟩
    exact ⟨h1, by rw [k1]; exact h2, fun n hn => by rw [k2]; exact h3 n hn⟩

theorem SameTot.deserves {a b : KV Nat Info} (h : SameTot a b) (v : Info) (q : Nat) : Deserves a v q ↔ Deserves b v q := by
  unfold Deserves
  simp only [h.met]

theorem SameTot.best {a b : KV Nat Info} (h : SameTot a b) {v : Info} {q r : Nat} (g : Best a v q r) : Best b v q r :=
  ⟨g.exists', g.above, fun p h1 h2 h3 => (h.deserves v p).1 (g.earned p h1 h2 h3), fun p h1 h2 h3 h4 => g.last p h1 h2 h3 ((h.deserves v p).2 h4)⟩

theorem SameTot.tame {a b : KV Nat Info} (h : SameTot a b) {v : Info} (g : Tame a v) : Tame b v := by
  refine ⟨g.money, fun c hc => ?_⟩
  obtain ⟨x, h1, h2, h3⟩ := g.kids c hc
  have := h c
  rw [h1] at this
  cases hb : b.get c with
  | none => rw [hb] at this; cases this
  | some y =>
    rw [hb] at this
    have ht : x.tot = y.tot := by simpa using this
    exact ⟨y, rfl, by rw [← ht]; exact h2, by unfold Info.team at *; rw [← ht]; exact h3⟩

theorem SameTot.checked {a b : KV Nat Info} (h : SameTot a b) {now day : Int} {x y : Schedule.State} {k : Key} {v n : Info}
    (hs : ∀ d hook, Booked x d hook k → Booked y d hook k) (g : Checked a now day x k v n) : Checked b now day y k v n := by
  refine ⟨g.rest, fun hd => ?_, fun hd => ?_⟩
  · obtain ⟨h1, h2⟩ := g.deserved ((h.deserves _ _).2 hd)
    exact ⟨h1, h.best h2⟩
  · obtain ⟨h1, h2⟩ := g.undeserved (fun hh => hd ((h.deserves _ _).1 hh))
    refine ⟨h1, h2.imp id fun ⟨h3, h4, h5⟩ => ⟨h3, h4, hs _ _ h5⟩⟩

/-! ### The loop -/

/-- The record the check starts from. -/
def announced (s : State) (at' : Int) (ls : List Key) (k : Key) : Info :=
  if lapsed s k then { infoOf s.store k with banishmentAt := some (at' + s.shift * (ls.idxOf k + 1)) } else infoOf s.store k

structure Notified (o : State) (at' : Int) (l : List Key) (s t : State) : Prop where
  same : SameTot t.work o.store
  frame : Frame s t
  others : ∀ k, k ∉ l → t.work.get k = s.work.get k
  checked : ∀ k ∈ l, Checked o.store o.now o.day t.sched k (announced o at' (l.filter (lapsed o)) k) (infoOf t.work k)
  booked : ∀ k ∈ l, lapsed o k = true → Booked t.sched (at' + o.shift * ((l.filter (lapsed o)).idxOf k + 1)) banishHook k
  books : Grow s t

theorem request_frame {r : Schedule.Req} {s t : State} (h : request r s = (.ok (), t)) : ∃ u, r.exec? s.sched = some u ∧ t = { s with sched := u } := by
  unfold request at h
  rw [M.get_bind_ok, M.bind_ok_iff] at h
  obtain ⟨u, s1, h1, h2⟩ := h
  cases hr : r.exec? s.sched with
  | none => rw [hr] at h1; simp at h1
  | some v =>
    rw [hr] at h1
    simp only [M.orPanic_some, Prod.mk.injEq, Res.ok.injEq] at h1
    obtain ⟨rfl, rfl⟩ := h1
    cases h2
    exact ⟨v, rfl, rfl⟩

theorem update_notified {o : State} {k : Key} {s t : State} {w : Info} (f : Info → Act (Info × Unit)) (hf : f (infoOf s.work k) = fun s => (.ok (w, ()), s))
    (hfr : ∀ v, Framed (f v)) (hfb : ∀ v, Books (f v))
    (hd : s.now = o.now) (hy : s.day = o.day) (ha : SameTot s.work o.store) (hh : o.store.has k = true)
    (hw : w.tot = (infoOf o.store k).tot) (ht : Tame o.store w) (hl : w.status ≤ 9) (h : update k true f s = (.ok (), t)) :
    SameTot t.work o.store ∧ Frame s t ∧ (∀ j, j ≠ k → t.work.get j = s.work.get j) ∧
      Checked o.store o.now o.day t.sched k w (infoOf t.work k) ∧ Grow s t := by
  have hfr' := (Framed.update (k := k) (check := true) hfr).of h
  have hb := (Books.update (k := k) (check := true) hfb).of h
  obtain ⟨w', s1, h1, h2, h3⟩ := C63_check h
  rw [hf] at h1
  cases h1
  have c := h2 (ha.symm.tame ht) hl
  have hc := c.rest
  refine ⟨?_, hfr', ?_, ?_, hb⟩
  · intro j
    rw [h3, KV.get_set]
    split
    · next hj =>
      subst hj
      rw [Option.map_some, core_eq_tot hc, hw]
      unfold infoOf
      unfold KV.has at hh
      cases hg : o.store.get j with
      | none => rw [hg] at hh; cases hh
      | some v => rfl
    · exact ha j
  · intro j hj
    rw [h3, KV.get_set_ne _ _ hj]
  · rw [← hd, ← hy]
    exact ha.checked (fun _ _ hx => hx) c

theorem lapsed_frame {s t : State} (h : Frame s t) (k : Key) : lapsed t k = lapsed s k := by
  unfold lapsed State.delegated
  rw [h.store, h.purse, h.dust, h.now]

theorem shift_frame {s t : State} (h : Frame s t) : t.shift = s.shift := by unfold State.shift; rw [h.day]

theorem loop_notified {o : State} : ∀ {l : List Key} (_ : l.Nodup) {at' : Int} {s t : State} (_ : Frame o s) (_ : SameTot s.work o.store)
    (_ : ∀ k ∈ l, s.work.get k = o.store.get k) (_ : ∀ k ∈ l, o.store.has k = true)
    (_ : ∀ k ∈ l, Tame o.store (infoOf o.store k) ∧ (infoOf o.store k).status ≤ 9)
    (_ : announceLoop at' l s = (.ok (), t)), Notified o at' l s t := by
  intro l
  induction l with
  | nil =>
    intro _ at' s t _ ha _ _ _ h
    unfold announceLoop at h
    obtain ⟨-, rfl⟩ := Prod.mk.inj h
    exact ⟨ha, .refl _, fun _ _ => rfl, fun _ hj => absurd hj (by simp), fun _ hj => absurd hj (by simp), .refl _⟩
  | cons k l ih =>
    intro hn at' s t hfr ha hk hh ht h
    rw [List.nodup_cons] at hn
    unfold announceLoop at h
    rw [M.get_bind_ok] at h
    have hlap : lapsed s k = lapsed o k := lapsed_frame hfr k
    have hshift := shift_frame hfr
    have tail : ∀ {u : State} {at'' : Int}, SameTot u.work o.store → Frame s u → (∀ j, j ≠ k → u.work.get j = s.work.get j) →
        announceLoop at'' l u = (.ok (), t) → Notified o at'' l u t := by
      intro u at'' h1 h2 h3 h4
      refine ih hn.2 (hfr.trans h2) h1 (fun j hj => ?_) (fun j hj => hh j (by simp [hj])) (fun j hj => ht j (by simp [hj])) h4
      rw [h3 j (fun e => hn.1 (e ▸ hj))]
      exact hk j (by simp [hj])
    by_cases hl : lapsed o k = true
    · rw [hlap, if_pos hl, hshift, hfr.store] at h
      rw [M.bind_ok_iff] at h
      obtain ⟨_, s1, h1, h⟩ := h
      rw [M.bind_ok_iff] at h
      obtain ⟨_, u, h2, h⟩ := h
      rw [must_ok_iff] at h2
      have hbook := booked_of_schedule h1
      have hgrow := (Books.schedule _ _ _).of h1
      obtain ⟨x, -, rfl⟩ := request_frame h1
      have f1 : Frame s { s with sched := x } := ⟨rfl, rfl, rfl, rfl, rfl, rfl, rfl, fun _ h => h⟩
      have tk := (ht k (by simp)).1
      obtain ⟨e1, e2, e3, e4, e5⟩ := update_notified (o := o) (s := { s with sched := x })
        (w := { infoOf o.store k with banishmentAt := some (at' + o.shift) }) _ rfl (fun _ => (Still.pure _).framed) (fun _ => .pure _)
        hfr.now hfr.day ha (hh k (by simp)) rfl ⟨tk.money, tk.kids⟩ (ht k (by simp)).2 h2
      have r2 := tail e1 (f1.trans e2) e3 h
      have hfl : (k :: l).filter (lapsed o) = k :: l.filter (lapsed o) := by rw [List.filter_cons, if_pos hl]
      have hidx : ∀ j, j ∈ l → lapsed o j = true → ((k :: l).filter (lapsed o)).idxOf j = (l.filter (lapsed o)).idxOf j + 1 := by
        intro j hj hlj
        rw [hfl, List.idxOf_cons_ne]
        exact fun e => hn.1 (e ▸ hj)
      have hidx0 : ((k :: l).filter (lapsed o)).idxOf k = 0 := by rw [hfl, List.idxOf_cons_self]
      have hrec : announced o at' ((k :: l).filter (lapsed o)) k = { infoOf o.store k with banishmentAt := some (at' + o.shift) } := by
        unfold announced
        rw [if_pos hl, hidx0]
        norm_num
      refine ⟨r2.same, (f1.trans e2).trans r2.frame, fun j hj => ?_, fun j hj => ?_, fun j hj hlj => ?_, (hgrow.trans e5).trans r2.books⟩
      · simp only [List.mem_cons, not_or] at hj
        rw [r2.others j hj.2]
        exact e3 j hj.1
      · rcases List.mem_cons.1 hj with rfl | hj
        · have e : infoOf t.work j = infoOf u.work j := by unfold infoOf; rw [r2.others j hn.1]
          rw [e, hrec]
          exact SameTot.checked (fun _ => rfl) (fun d hook hb => r2.books.2 d hook j hb) e4
        · have := r2.checked j hj
          have hr : announced o at' ((k :: l).filter (lapsed o)) j = announced o (at' + o.shift) (l.filter (lapsed o)) j := by
            unfold announced
            by_cases hlj : lapsed o j = true
            · rw [if_pos hlj, if_pos hlj, hidx j hj hlj]
              have : at' + o.shift * (((l.filter (lapsed o)).idxOf j + 1 : Nat) + 1) = at' + o.shift + o.shift * ((l.filter (lapsed o)).idxOf j + 1) := by
                push_cast
                ring
              rw [this]
            · rw [if_neg hlj, if_neg hlj]
          rw [hr]
          exact this
      · rcases List.mem_cons.1 hj with rfl | hj
        · rw [hidx0]
          have := r2.books.2 _ _ _ (e5.2 _ _ _ hbook)
          norm_num
          exact this
        · have := r2.booked j hj hlj
          rw [hidx j hj hlj]
          have e : at' + o.shift * (((l.filter (lapsed o)).idxOf j + 1 : Nat) + 1) = at' + o.shift + o.shift * ((l.filter (lapsed o)).idxOf j + 1) := by
            push_cast
            ring
          rw [e]
          exact this
    · rw [hlap, if_neg hl] at h
      rw [M.bind_ok_iff] at h
      obtain ⟨_, u, h2, h⟩ := h
      rw [must_ok_iff] at h2
      have hi : infoOf s.work k = infoOf o.store k := by unfold infoOf; rw [hk k (by simp)]
      obtain ⟨e1, e2, e3, e4, e5⟩ := update_notified (o := o) (s := s) (w := infoOf o.store k) _ (by rw [hi]; rfl) (fun _ => (Still.pure _).framed) (fun _ => .pure _)
        hfr.now hfr.day ha (hh k (by simp)) rfl (ht k (by simp)).1 (ht k (by simp)).2 h2
      have r2 := tail e1 e2 e3 h
      have hfl : (k :: l).filter (lapsed o) = l.filter (lapsed o) := by rw [List.filter_cons, if_neg hl]
      refine ⟨r2.same, e2.trans r2.frame, fun j hj => ?_, fun j hj => ?_, fun j hj hlj => ?_, e5.trans r2.books⟩
      · simp only [List.mem_cons, not_or] at hj
        rw [r2.others j hj.2]
        exact e3 j hj.1
      · rcases List.mem_cons.1 hj with rfl | hj
        · have e : infoOf t.work j = infoOf u.work j := by unfold infoOf; rw [r2.others j hn.1]
          have hr : announced o at' ((j :: l).filter (lapsed o)) j = infoOf o.store j := by unfold announced; rw [if_neg hl]
          rw [e, hr]
          exact SameTot.checked (fun _ => rfl) (fun d hook hb => r2.books.2 d hook j hb) e4
        · rw [hfl]; exact r2.checked j hj
      · rcases List.mem_cons.1 hj with rfl | hj
        · exact absurd hlj hl
        · rw [hfl]; exact r2.booked j hj hlj

theorem announce_inv {e : Env} {s t : State} (h : announce e s = (.ok (), t)) :
    ∃ u, announceLoop (s.now + s.day.tdiv 24) s.store.keys { s with work := s.store, calls := [] } = (.ok (), u) ∧ t = { u with store := u.work } := by
  unfold announce newBunch at h
  rw [M.modify_bind_ok, M.get_bind_ok, M.bind_ok_iff] at h
  obtain ⟨_, u, h1, h2⟩ := h
  refine ⟨u, h1, ?_⟩
  rw [must_ok_iff] at h2
  unfold commit at h2
  rw [M.modify_bind_ok, M.get_bind_ok, M.errIf_ok_iff] at h2
  exact h2.2

theorem announce_notified {e : Env} {s t : State} (h : announce e s = (.ok (), t))
    (ht : ∀ k r, s.store.get k = some r → Tame s.store r ∧ r.status ≤ 9) :
    ∃ u, t = { u with store := u.work } ∧ Notified { s with work := s.store, calls := [] } (s.now + s.day.tdiv 24) s.store.keys { s with work := s.store, calls := [] } u := by
  obtain ⟨u, h1, rfl⟩ := announce_inv h
  have has : ∀ k ∈ s.store.keys, ∃ r, s.store.get k = some r := fun k hk => KV.mem_keys.1 hk
  refine ⟨u, rfl, ?_⟩
  exact loop_notified (o := { s with work := s.store, calls := [] }) s.store.keys_nodup (.refl _) (fun _ => rfl) (fun _ _ => rfl)
    (fun k hk => by obtain ⟨v, hv⟩ := has k hk; unfold KV.has; rw [hv]; rfl)
    (fun k hk => by obtain ⟨v, hv⟩ := has k hk; rw [infoOf_get hv]; exact ht k v hv) h1

/-! ### The property -/

/-- C86: version 2.4.5 gives every account out of business that has no date of banishment one, a quarter of a minute apart in the order of
the store, each backed by a task; apart from that it does what a refresh does (C80): every record is checked, nothing else of it changes, no
record comes or goes, and no task is lost. -/
theorem C86_announced (e : Env) (s t : State) (h : announce e s = (.ok (), t))
    (ht : ∀ k r, s.store.get k = some r → Tame s.store r ∧ r.status ≤ 9) :
    ∃ ls : List Key, ls.Nodup ∧ ls.Sublist s.store.keys ∧ (∀ k, k ∈ ls ↔ ∃ r, s.store.get k = some r ∧ Lapsed s k r) ∧
    (∀ k, s.store.get k = none → t.store.get k = none) ∧
    (∀ k r, s.store.get k = some r → ∃ r', t.store.get k = some r' ∧
      (Lapsed s k r → r'.banishmentAt = some (newDate s ls k) ∧ Booked t.sched (newDate s ls k) banishHook k ∧
        Checked s.store s.now s.day t.sched k { r with banishmentAt := some (newDate s ls k) } r') ∧
      (¬ Lapsed s k r → Checked s.store s.now s.day t.sched k r r')) ∧
    (∀ d hook k, Booked s.sched d hook k → Booked t.sched d hook k) := by
  obtain ⟨u, rfl, n⟩ := announce_notified h ht
  refine ⟨s.store.keys.filter (lapsed s), s.store.keys_nodup.filter _, List.filter_sublist, fun k => ?_, fun k hk => ?_, fun k r hr => ?_, n.books.2⟩
  · rw [List.mem_filter]
    constructor
    · rintro ⟨h1, h2⟩
      obtain ⟨r, hr⟩ := KV.mem_keys.1 h1
      exact ⟨r, hr, (lapsed_iff hr).1 h2⟩
    · rintro ⟨r, hr, hl⟩
      exact ⟨KV.mem_keys.2 ⟨r, hr⟩, (lapsed_iff hr).2 hl⟩
  · have := n.same k
    rw [hk] at this
    simpa using this
  · have hs := n.same k
    rw [hr] at hs
    show ∃ r', u.work.get k = some r' ∧ _
    cases hg : u.work.get k with
    | none => rw [hg] at hs; cases hs
    | some r' =>
      have hk := KV.mem_keys.2 ⟨r, hr⟩
      have c : Checked s.store s.now s.day u.sched k (announced s (s.now + s.day.tdiv 24) (s.store.keys.filter (lapsed s)) k) (infoOf u.work k) :=
        n.checked k hk
      rw [infoOf_get hg] at c
      unfold announced at c
      rw [infoOf_get hr] at c
      refine ⟨r', rfl, fun hl => ?_, fun hl => ?_⟩
      · have hb := (lapsed_iff hr).2 hl
        rw [if_pos hb] at c
        exact ⟨congrArg Info.banishmentAt c.rest, n.booked k hk hb, c⟩
      · rw [if_neg (fun hb => hl ((lapsed_iff hr).1 hb))] at c
        exact c

/-- C86: if the scheduler knew of every date in the records before (C65), it does after. -/
theorem C86_safe (e : Env) (s t : State) (h : announce e s = (.ok (), t))
    (ht : ∀ k r, s.store.get k = some r → Tame s.store r ∧ r.status ≤ 9) (hs : Safe s) : Safe t := by
  obtain ⟨ls, -, -, -, hnone, hsome, hgrow⟩ := C86_announced e s t h ht
  obtain ⟨u, rfl, n⟩ := announce_notified h ht
  have hnow : u.now = s.now := n.frame.now
  intro κ k d _ hd hn
  have hn : s.now < d := by rw [← hnow]; exact hn
  cases hr : s.store.get k with
  | none =>
    have : infoOf u.work k = {} := by
      have := hnone k hr
      unfold infoOf
      rw [show u.work.get k = none from this]
      rfl
    rw [show infoOf ({ u with store := u.work } : State).store k = infoOf u.work k from rfl, this] at hd
    cases κ <;> cases hd
  | some r =>
    obtain ⟨r', hr', hl, hnl⟩ := hsome k r hr
    have hi : infoOf s.store k = r := infoOf_get hr
    rw [infoOf_get hr'] at hd
    have old : ∀ κ, r.date κ = some d → Booked u.sched d κ.hook k := fun κ hκ =>
      hgrow _ _ _ (hs κ k d id (by rw [hi]; exact hκ) hn)
    have part : ∀ v : Info, Checked s.store s.now s.day u.sched k v r' → v.downgradeAt = r.downgradeAt →
        r'.downgradeAt = some d → Booked u.sched d Fate.downgrade.hook k := by
      intro v c hv hx
      by_cases hdes : Deserves s.store v (if v.status = 8 then 9 else v.status)
      · rw [(c.deserved hdes).1] at hx; cases hx
      · rcases (c.undeserved hdes).2 with ⟨y, h1, h2⟩ | ⟨-, h2, x, h3⟩
        · rw [h2] at hx
          exact old .downgrade (show r.downgradeAt = some d by rw [← hv, h1]; exact hx)
        · rw [h2] at hx
          cases hx
          exact ⟨x, h3⟩
    by_cases hL : Lapsed s k r
    · obtain ⟨h1, h2, c⟩ := hl hL
      cases κ with
      | downgrade => exact part _ c rfl hd
      | compression =>
        have e1 := congrArg Info.referrer c.rest
        have e2 := congrArg Info.compressionAt c.rest
        refine old .compression ?_
        have hd : (if r'.referrer.isSome then r'.compressionAt else none) = some d := hd
        have e1 : r'.referrer = r.referrer := e1
        have e2 : r'.compressionAt = r.compressionAt := e2
        rw [e1, e2] at hd
        exact hd
      | banishment =>
        have hd : r'.banishmentAt = some d := hd
        rw [h1] at hd
        cases hd
        exact h2
    · have c := hnl hL
      cases κ with
      | downgrade => exact part _ c rfl hd
      | compression =>
        have e1 : r'.referrer = r.referrer := (congrArg Info.referrer c.rest :)
        have e2 : r'.compressionAt = r.compressionAt := (congrArg Info.compressionAt c.rest :)
        have hd : (if r'.referrer.isSome then r'.compressionAt else none) = some d := hd
        rw [e1, e2] at hd
        exact old .compression hd
      | banishment =>
        have e1 : r'.banishmentAt = r.banishmentAt := (congrArg Info.banishmentAt c.rest :)
        have hd : r'.banishmentAt = some d := hd
        rw [e1] at hd
        exact old .banishment hd

/-! ### It goes through -/

theorem announceLoop_succeeds {o : State} (l : List Key) (at' : Int) (s : State) (ho : Frame o s) (hr : Ready s)
    (hb : ∀ k, (infoOf s.work k).tot = (infoOf o.store k).tot)
    (ha : ∀ k, Affordable (infoOf o.store k)) (hl : ∀ k, (infoOf o.store k).status ≤ 9)
    (hc : ∀ k, ∀ c ∈ (infoOf o.store k).activeReferrals, s.work.has c = true)
    (ht : ∀ i : Nat, i < (l.filter (lapsed o)).length → Schedule.inRange (at' + o.shift * (i + 1)) = true) :
    ∃ t, announceLoop at' l s = (.ok (), t) := by
  induction l generalizing at' s with
  | nil => exact ⟨s, rfl⟩
  | cons k l ih =>
    have next : ∀ {t : State} {w : Info} (f : Info → Act (Info × Unit)) (s1 : State), f (infoOf s1.work k) s1 = (.ok (w, ()), s1) → (∀ v, Framed (f v)) →
        update k true f s1 = (.ok (), t) → s1.work = s.work → Frame s s1 → w.tot = (infoOf o.store k).tot →
        Frame o t ∧ (∀ j, (infoOf t.work j).tot = (infoOf o.store j).tot) ∧ (∀ j, ∀ c ∈ (infoOf o.store j).activeReferrals, t.work.has c = true) := by
      intro t w f s1 hf hfr hu hw hs1 htot
      have f2 := (Framed.update (k := k) (check := true) hfr).of hu
      refine ⟨(ho.trans hs1).trans f2, fun j => ?_, fun j c hj => f2.grows c (by rw [hw]; exact hc j c hj)⟩
      obtain ⟨w', s2, h3, -, hv, -⟩ := update_ok hu
      rw [hf] at h3
      cases h3
      have : core (infoOf t.work j) = _ := congrFun hv j
      by_cases hj : j = k
      · subst hj
        rw [upd_self] at this
        rw [core_eq_tot this, ← htot]
      · rw [upd_ne _ _ hj, hw] at this
        rw [core_eq_tot this, hb j]
    unfold announceLoop
    rw [M.bind_ok (M.get_apply s), lapsed_frame ho k, shift_frame ho, ho.store]
    by_cases hk : lapsed o k = true
    · rw [if_pos hk]
      have hfl : (k :: l).filter (lapsed o) = k :: l.filter (lapsed o) := by rw [List.filter_cons, if_pos hk]
      rw [hfl] at ht
      have t0 := ht 0 (by simp)
      norm_num at t0
      obtain ⟨s1, h1⟩ := schedule_succeeds t0 banishHook [k] s
      obtain ⟨x, -, rfl⟩ := request_frame h1
      have r1 : Ready { s with sched := x } := ⟨⟨hr.low.store, hr.low.work⟩, hr.stored, hr.soon⟩
      obtain ⟨t, h2, h3⟩ := update_succeeds (k := k) (f := fun _ => pure ({ infoOf o.store k with banishmentAt := some (at' + o.shift) }, ()))
        (s := { s with sched := x }) (s1 := { s with sched := x }) (w := { infoOf o.store k with banishmentAt := some (at' + o.shift) }) (a := ()) rfl
        ((ha k).congr fun _ => rfl) (hl k) (fun c hc' => hc k c hc') r1
      obtain ⟨n1, n2, n3⟩ := next (w := { infoOf o.store k with banishmentAt := some (at' + o.shift) }) _ { s with sched := x } rfl (fun _ => (Still.pure _).framed) h2 rfl ⟨rfl, rfl, rfl, rfl, rfl, rfl, rfl, fun _ h => h⟩ rfl
      obtain ⟨u, hu⟩ := ih (at' + o.shift) t n1 h3 n2 n3 (fun i hi => by
        have := ht (i + 1) (by simpa using hi)
        have e : at' + o.shift * (((i + 1 : Nat) : Int) + 1) = at' + o.shift + o.shift * (i + 1) := by push_cast; ring
        rw [e] at this
        exact this)
      refine ⟨u, ?_⟩
      rw [M.bind_ok h1, M.bind_ok (must_ok_iff.2 h2)]
      exact hu
    · rw [if_neg hk]
      have hfl : (k :: l).filter (lapsed o) = l.filter (lapsed o) := by rw [List.filter_cons, if_neg hk]
      rw [hfl] at ht
      obtain ⟨t, h2, h3⟩ := update_succeeds (k := k) (f := fun v => pure (v, ())) (s := s) (s1 := s) (w := infoOf s.work k) (a := ()) rfl
        ((ha k).congr fun j => by rw [hb k]) (hr.low.work k) (fun c hc' => hr.stored k c hc') hr
      obtain ⟨n1, n2, n3⟩ := next (w := infoOf s.work k) _ s rfl (fun _ => (Still.pure _).framed) h2 rfl ⟨rfl, rfl, rfl, rfl, rfl, rfl, rfl, fun _ h => h⟩ (hb k)
      obtain ⟨u, hu⟩ := ih at' t n1 h3 n2 n3 ht
      refine ⟨u, ?_⟩
      rw [M.bind_ok (must_ok_iff.2 h2)]
      exact hu

/-- C86: it does not stop the chain, if the callbacks of other modules succeed and the dates are before 2263. -/
theorem C86_goes_through (e : Env) (he : ∀ x k, e.call x k = true) (s : State)
    (ht : ∀ k r, s.store.get k = some r → Tame s.store r ∧ r.status ≤ 9) (hn : Schedule.inRange (s.now + 2 * s.day) = true)
    (hd : ∀ i : Nat, i < s.store.keys.length → Schedule.inRange (s.now + s.day.tdiv 24 + s.shift * (i + 1)) = true) :
    ∃ t, announce e s = (.ok (), t) := by
  have cases' : ∀ k, (∃ r, s.store.get k = some r ∧ infoOf s.store k = r) ∨ infoOf s.store k = {} := by
    intro k
    cases h : s.store.get k with
    | none => right; unfold infoOf; rw [h]; rfl
    | some r => exact .inl ⟨r, rfl, infoOf_get h⟩
  have hlow : LowSt s.store := by
    intro k
    rcases cases' k with ⟨r, h1, h2⟩ | h
    · rw [h2]; exact (ht k r h1).2
    · rw [h]; exact Nat.zero_le 9
  have hkids : ∀ a, ∀ c ∈ (infoOf s.store a).activeReferrals, s.store.has c = true := by
    intro a c hc
    rcases cases' a with ⟨r, h1, h2⟩ | h
    · rw [h2] at hc
      obtain ⟨x, hx, -⟩ := (ht a r h1).1.kids c hc
      unfold KV.has; rw [hx]; rfl
    · rw [h] at hc; simp at hc
  have hr : Ready { s with work := s.store, calls := [] } := ⟨⟨hlow, hlow⟩, hkids, hn⟩
  obtain ⟨t, h⟩ := announceLoop_succeeds (o := { s with work := s.store, calls := [] }) s.store.keys (s.now + s.day.tdiv 24) { s with work := s.store, calls := [] }
    (.refl _) hr (fun _ => rfl) (by
    intro k n hn
    rcases cases' k with ⟨r, h1, h2⟩ | h
    · rw [h2, delegatedUpTo_sum]
      have := (ht k r h1).1.money n hn
      norm_num at this ⊢
      exact this
    · rw [h, delegatedUpTo_sum]
      simp) hlow hkids (fun i hi => hd i (lt_of_lt_of_le hi (List.length_filter_le _ _)))
  refine ⟨{ t with store := t.work }, ?_⟩
  unfold announce newBunch
  rw [M.modify_bind_ok, M.get_bind_ok, M.bind_ok h, must_ok_iff]
  unfold commit
  rw [M.modify_bind_ok, M.get_bind_ok, M.errIf_ok_iff]
  refine ⟨?_, rfl⟩
  rw [Bool.not_eq_false', List.all_eq_true]
  intro x _
  exact he _ _

end Verif.Referral
