import Verif.Referral.Earned3
import Verif.Referral.Accept
import Verif.Referral.Deadlines
import Verif.Referral.Retire4

/-!
C80: the refresh of all statuses, at the end of the import of profiles (/repo/x/profile/keeper/genesis.go:67-71) and in the upgrade
`RefreshReferralStatuses` (/repo/app/upgrade.go:418-429).
-/
namespace Verif.Referral
open Verif.Schedule (Pending)

/-- `Iterate` with a callback that changes nothing and asks for the check of every account, /repo/x/referral/keeper/keeper.go:657-696.
Errors are turned into panics, which stop the chain. -/
def refresh (e : Env) : Act Unit := do
  newBunch
  let s ← M.get
  M.forEach s.store.keys fun k => must (update k true fun v => pure (v, ()))
  must (commit e)

/-! ### The requirements do not depend on statuses -/

/-- The stores agree but for statuses and dates of downgrade. -/
def Alike (a b : KV Nat Info) : Prop := ∀ c, (a.get c).map core = (b.get c).map core

theorem core_eq_tot {v w : Info} (h : core v = core w) : v.tot = w.tot := by
  have := congrArg Info.tot h
  exact this

theorem Alike.any {a b : KV Nat Info} (h : Alike a b) {P : Info → Bool} (hP : ∀ v w, core v = core w → P v = P w) (c : Key) :
    (a.get c).any P = (b.get c).any P := by
  have := h c
  cases ha : a.get c with
  | none =>
    cases hb : b.get c with
    | none => rfl
    | some w => rw [ha, hb] at this; simp at this
  | some v =>
    cases hb : b.get c with
    | none => rw [ha, hb] at this; simp at this
    | some w => rw [ha, hb] at this; exact hP _ _ (Option.some.inj this)

theorem Alike.met {a b : KV Nat Info} (h : Alike a b) (v : Info) (d : Demand) : d.Met a v ↔ d.Met b v := by
  have k : ∀ P : Info → Bool, (∀ v w, core v = core w → P v = P w) → v.kids a P = v.kids b P := by
    intro P hP
    unfold Info.kids
    congr 1
    funext c
    exact h.any hP c
  have tot : ∀ v w : Info, core v = core w → v.tot = w.tot := fun v w hh => core_eq_tot hh
  have k1 := k (fun x => decide (d.each ≤ x.tot .active 1)) (fun v w hh => by simp only [tot v w hh])
  have k2 : ∀ n : Int, v.kids a (fun x => decide (n ≤ x.team)) = v.kids b (fun x => decide (n ≤ x.team)) := fun n =>
    k _ (fun v w hh => by unfold Info.team; rw [tot v w hh])
  constructor
  · rintro ⟨h1, h2, h3⟩
    exact ⟨h1, by rw [← k1]; exact h2, fun n hn => by rw [← k2]; exact h3 n hn⟩
  · rintro ⟨h1, h2, h3⟩
    exact ⟨h1, by rw [k1]; exact h2, fun n hn => by rw [k2]; exact h3 n hn⟩

theorem Alike.deserves {a b : KV Nat Info} (h : Alike a b) (v : Info) (q : Nat) : Deserves a v q ↔ Deserves b v q := by
  unfold Deserves
  simp only [h.met]

theorem Alike.best {a b : KV Nat Info} (h : Alike a b) {v : Info} {q r : Nat} (g : Best a v q r) : Best b v q r :=
  ⟨g.exists', g.above, fun p h1 h2 h3 => (h.deserves v p).1 (g.earned p h1 h2 h3), fun p h1 h2 h3 h4 => g.last p h1 h2 h3 ((h.deserves v p).2 h4)⟩

theorem Alike.tame {a b : KV Nat Info} (h : Alike a b) {v : Info} (g : Tame a v) : Tame b v := by
  refine ⟨g.money, fun c hc => ?_⟩
  obtain ⟨x, h1, h2, h3⟩ := g.kids c hc
  have := h c
  rw [h1] at this
  cases hb : b.get c with
  | none => rw [hb] at this; cases this
  | some y =>
    rw [hb] at this
    have ht : x.tot = y.tot := by
      simp only [Option.map_some, Option.some.injEq] at this
      exact core_eq_tot this
    exact ⟨y, rfl, by rw [← ht]; exact h2, by unfold Info.team at *; rw [← ht]; exact h3⟩

theorem Checked.alike {a b : KV Nat Info} (h : Alike a b) {now day : Int} {x y : Schedule.State} {k : Key} {v n : Info}
    (hs : ∀ d hook, Booked x d hook k → Booked y d hook k) (g : Checked a now day x k v n) : Checked b now day y k v n := by
  refine ⟨g.rest, fun hd => ?_, fun hd => ?_⟩
  · obtain ⟨h1, h2⟩ := g.deserved ((h.deserves _ _).2 hd)
    exact ⟨h1, h.best h2⟩
  · obtain ⟨h1, h2⟩ := g.undeserved (fun hh => hd ((h.deserves _ _).1 hh))
    refine ⟨h1, h2.imp id fun ⟨h3, h4, h5⟩ => ⟨h3, h4, hs _ _ h5⟩⟩

/-! ### The loop -/

structure Round (st : KV Nat Info) (now day : Int) (l : List Key) (s t : State) : Prop where
  alike : Alike t.work st
  frame : Frame s t
  others : ∀ k, k ∉ l → t.work.get k = s.work.get k
  checked : ∀ k ∈ l, Checked st now day t.sched k (infoOf st k) (infoOf t.work k)
  books : Grow s t

theorem update_round {st : KV Nat Info} {k : Key} {s t : State} (ha : Alike s.work st) (hk : s.work.get k = st.get k) (hh : st.has k = true)
    (ht : Tame st (infoOf st k)) (hl : (infoOf st k).status ≤ 9) (h : update k true (fun v => pure (v, ())) s = (.ok (), t)) :
    Round st s.now s.day [k] s t := by
  have hf := (Framed.update (k := k) (check := true) (f := fun v => pure (v, ())) (fun v => (Still.pure _).framed)).of h
  have hb := (Books.update (k := k) (check := true) (f := fun v => pure (v, ())) (fun v => .pure _)).of h
  obtain ⟨w, s1, h1, h2, h3⟩ := C63_check h
  simp only [M.pure_apply, Prod.mk.injEq, Res.ok.injEq, and_true] at h1
  obtain ⟨rfl, rfl⟩ := h1
  have hi : infoOf s.work k = infoOf st k := by unfold infoOf; rw [hk]
  rw [hi] at h2
  have ha' : Alike st s.work := fun c => (ha c).symm
  have c := h2 (ha'.tame ht) hl
  have hc := c.rest
  refine ⟨?_, hf, ?_, ?_, hb⟩
  · intro j
    rw [h3, KV.get_set]
    split
    · next hj =>
      subst hj
      rw [Option.map_some, hc]
      unfold infoOf
      unfold KV.has at hh
      cases hg : st.get j with
      | none => rw [hg] at hh; cases hh
      | some v => rfl
    · exact ha j
  · intro j hj
    rw [h3, KV.get_set_ne _ _ (by simpa using hj)]
  · intro j hj
    rw [List.mem_singleton] at hj
    subst hj
    exact c.alike ha fun _ _ hx => hx

theorem loop_round {st : KV Nat Info} {l : List Key} (hn : l.Nodup) {s t : State} (ha : Alike s.work st)
    (hk : ∀ k ∈ l, s.work.get k = st.get k) (hh : ∀ k ∈ l, st.has k = true)
    (ht : ∀ k ∈ l, Tame st (infoOf st k) ∧ (infoOf st k).status ≤ 9)
    (h : M.forEach l (fun k => must (update k true fun v => pure (v, ()))) s = (.ok (), t)) : Round st s.now s.day l s t := by
  induction l generalizing s with
  | nil =>
    rw [M.forEach_nil] at h
    obtain ⟨-, rfl⟩ := Prod.mk.inj h
    exact ⟨ha, .refl _, fun _ _ => rfl, fun _ hj => absurd hj (by simp), .refl _⟩
  | cons k l ih =>
    rw [M.forEach_cons, M.bind_ok_iff] at h
    obtain ⟨_, u, h1, h2⟩ := h
    rw [must_ok_iff] at h1
    rw [List.nodup_cons] at hn
    have r1 := update_round ha (hk k (by simp)) (hh k (by simp)) (ht k (by simp)).1 (ht k (by simp)).2 h1
    have r2 := ih hn.2 r1.alike (fun j hj => by
      rw [r1.others j (by rintro hh; rw [List.mem_singleton] at hh; exact hn.1 (hh ▸ hj))]
      exact hk j (by simp [hj])) (fun j hj => hh j (by simp [hj])) (fun j hj => ht j (by simp [hj])) h2
    rw [r1.frame.now, r1.frame.day] at r2
    refine ⟨r2.alike, r1.frame.trans r2.frame, fun j hj => ?_, fun j hj => ?_, r1.books.trans r2.books⟩
    · simp only [List.mem_cons, not_or] at hj
      rw [r2.others j hj.2, r1.others j (by simpa using hj.1)]
    · rcases List.mem_cons.1 hj with rfl | hj
      · have c := r1.checked j (by simp)
        have e : infoOf t.work j = infoOf u.work j := by unfold infoOf; rw [r2.others j hn.1]
        rw [e]
        exact c.alike (fun _ => rfl) (fun d hook hb => r2.books.2 d hook j hb)
      · exact r2.checked j hj

theorem refresh_inv {e : Env} {s t : State} (h : refresh e s = (.ok (), t)) :
    ∃ u, M.forEach s.store.keys (fun k => must (update k true fun v => pure (v, ()))) { s with work := s.store, calls := [] } = (.ok (), u) ∧
      t = { u with store := u.work } := by
  unfold refresh newBunch at h
  rw [M.modify_bind_ok, M.get_bind_ok, M.bind_ok_iff] at h
  obtain ⟨_, u, h1, h2⟩ := h
  refine ⟨u, h1, ?_⟩
  rw [must_ok_iff] at h2
  unfold commit at h2
  rw [M.modify_bind_ok, M.get_bind_ok, M.errIf_ok_iff] at h2
  exact h2.2

/-! ### The property -/

/-- C80: after a refresh, every account is treated as its structure demands – whatever the order of accounts, since the requirements do not
depend on anybody's status: a deserved status is kept and the best one reached from it given, an undeserved one gets a date of downgrade
backed by a task, unless it has one already; nothing else of any record changes, and none comes or goes. -/
theorem C80_refresh (e : Env) (s t : State) (h : refresh e s = (.ok (), t))
    (ht : ∀ k r, s.store.get k = some r → Tame s.store r ∧ r.status ≤ 9) :
    (∀ k, s.store.get k = none → t.store.get k = none) ∧
    ∀ k r, s.store.get k = some r → ∃ r', t.store.get k = some r' ∧ Checked s.store s.now s.day t.sched k r r' := by
  obtain ⟨u, h1, rfl⟩ := refresh_inv h
  have hi : ∀ k r, s.store.get k = some r → infoOf s.store k = r := fun k r hr => infoOf_get hr
  have has : ∀ k ∈ s.store.keys, ∃ r, s.store.get k = some r := fun k hk => KV.mem_keys.1 hk
  have r := loop_round (st := s.store) s.store.keys_nodup (s := { s with work := s.store, calls := [] }) (fun _ => rfl) (fun _ _ => rfl)
    (fun k hk => by obtain ⟨v, hv⟩ := has k hk; unfold KV.has; rw [hv]; rfl)
    (fun k hk => by obtain ⟨v, hv⟩ := has k hk; rw [hi k v hv]; exact ht k v hv) h1
  refine ⟨fun k hk => ?_, fun k v hv => ?_⟩
  · have := r.alike k
    rw [hk] at this
    simpa using this
  · have := r.alike k
    rw [hv] at this
    show ∃ r', u.work.get k = some r' ∧ _
    cases hg : u.work.get k with
    | none => rw [hg] at this; cases this
    | some v' =>
      refine ⟨v', rfl, ?_⟩
      have := r.checked k (KV.mem_keys.2 ⟨v, hv⟩)
      rw [hi k v hv, infoOf_get hg] at this
      exact this

/-! ### It goes through -/

theorem view_of_alike {a b : KV Nat Info} (h : Alike a b) : view a = view b := by
  funext k
  show core (infoOf a k) = core (infoOf b k)
  have := h k
  unfold infoOf
  cases ha : a.get k with
  | none =>
    cases hb : b.get k with
    | none => rfl
    | some w => rw [ha, hb] at this; simp at this
  | some v =>
    cases hb : b.get k with
    | none => rw [ha, hb] at this; simp at this
    | some w => rw [ha, hb] at this; exact Option.some.inj this

theorem loop_succeeds (l : List Key) (s : State) (hr : Ready s) (ha : ∀ k, Affordable (view s.work k)) :
    ∃ t, M.forEach l (fun k => must (update k true fun v => pure (v, ()))) s = (.ok (), t) := by
  induction l generalizing s with
  | nil => exact ⟨s, rfl⟩
  | cons k l ih =>
    obtain ⟨t, h1, h2⟩ := update_succeeds (k := k) (f := fun v => pure (v, ())) (s := s) (s1 := s) (w := infoOf s.work k) (a := ()) rfl
      ((ha k).congr fun _ => rfl) (hr.low.work k) (fun c hc => hr.stored k c hc) hr
    obtain ⟨w, s1, h3, -, hv, -⟩ := update_ok h1
    cases h3
    have hv : view t.work = view s.work := by
      rw [hv]
      funext j
      by_cases hj : j = k
      · subst hj; rw [upd_self]; rfl
      · rw [upd_ne _ _ hj]
    obtain ⟨u, hu⟩ := ih t h2 (by rw [hv]; exact ha)
    refine ⟨u, ?_⟩
    rw [M.forEach_cons, M.bind_ok (must_ok_iff.2 h1)]
    exact hu

/-- C80: the refresh does not stop the chain, if the callbacks of other modules succeed. -/
theorem C80_goes_through (e : Env) (he : ∀ x k, e.call x k = true) (s : State)
    (ht : ∀ k r, s.store.get k = some r → Tame s.store r ∧ r.status ≤ 9) (hn : Schedule.inRange (s.now + 2 * s.day) = true) :
    ∃ t, refresh e s = (.ok (), t) := by
  have cases' : ∀ k, (∃ r, s.store.get k = some r ∧ infoOf s.store k = r) ∨ infoOf s.store k = {} := by
    intro k
    cases h : s.store.get k with
    | none => right; unfold infoOf; rw [h]; rfl
    | some r => exact .inl ⟨r, rfl, infoOf_get h⟩
  have hlow : LowSt s.store := by
    intro k
    rcases cases' k with ⟨r, h1, h2⟩ | h
    · rw [h2]; exact (ht k r h1).2
    · rw [h]; exact Nat.zero_le 9
  have hr : Ready { s with work := s.store, calls := [] } := by
    refine ⟨⟨hlow, hlow⟩, ?_, hn⟩
    intro a c hc
    have hc : c ∈ (infoOf s.store a).activeReferrals := hc
    show s.store.has c = true
    rcases cases' a with ⟨r, h1, h2⟩ | h
    · rw [h2] at hc
      obtain ⟨x, hx, -⟩ := (ht a r h1).1.kids c hc
      unfold KV.has; rw [hx]; rfl
    · rw [h] at hc; simp at hc
  obtain ⟨t, h⟩ := loop_succeeds s.store.keys _ hr (by
    intro k
    refine Affordable.congr (v := infoOf s.store k) ?_ fun _ => rfl
    intro n hn
    rcases cases' k with ⟨r, h1, h2⟩ | h
    · rw [h2, delegatedUpTo_sum]
      have := (ht k r h1).1.money n hn
      norm_num at this ⊢
      exact this
    · rw [h, delegatedUpTo_sum]
      simp)
  refine ⟨{ t with store := t.work }, ?_⟩
  unfold refresh newBunch
  rw [M.modify_bind_ok, M.get_bind_ok, M.bind_ok h, must_ok_iff]
  unfold commit
  rw [M.modify_bind_ok, M.get_bind_ok, M.errIf_ok_iff]
  refine ⟨?_, rfl⟩
  rw [Bool.not_eq_false', List.all_eq_true]
  intro x _
  exact he _ _

/-! ### From then on -/

theorem earned_view {a b : KV Nat Info} (h : view a = view b) {v : Info} (g : Earned a v) : Earned b v := by
  intro d hd
  obtain ⟨h1, h2⟩ := g d hd
  refine ⟨h1, ?_⟩
  have : ∀ c, (infoOf b c).tot = (infoOf a c).tot := fun c => core_eq_tot (congrFun h c).symm
  simp only [this]
  exact h2

/-- What the loop keeps, without assumptions on the numbers: the records but for statuses and dates, and the index. -/
theorem loop_clears (l : List Key) (s t : State) (h : M.forEach l (fun k => must (update k true fun v => pure (v, ()))) s = (.ok (), t))
    (D : Key → Prop) (hD : Fair D s.work) :
    view t.work = view s.work ∧ (∀ k, s.work.has k = true → t.work.has k = true) ∧ Fair (fun k => D k ∧ k ∉ l) t.work ∧
    (∀ x, Held (fun _ => True) x s → Held (fun _ => True) x t) := by
  induction l generalizing s D with
  | nil =>
    rw [M.forEach_nil] at h
    obtain ⟨-, rfl⟩ := Prod.mk.inj h
    exact ⟨rfl, fun _ h => h, hD.mono fun j hj => ⟨hj, by simp⟩, fun _ h => h⟩
  | cons k l ih =>
    rw [M.forEach_cons, M.bind_ok_iff] at h
    obtain ⟨_, u, h1, h2⟩ := h
    rw [must_ok_iff] at h1
    obtain ⟨w, s1, n, h3, h4, h5, h6⟩ := update_checked h1
    cases h3
    have hf := (Framed.update (k := k) (check := true) (f := fun v => pure (v, ())) (fun v => (Still.pure _).framed)).of h1
    have hv : view u.work = view s.work := by
      rw [h4, view_set, h5]
      funext j
      by_cases hj : j = k
      · subst hj; rw [upd_self]; rfl
      · rw [upd_ne _ _ hj]
    have hfair : Fair (fun j => D j ∧ j ≠ k) u.work := by
      intro j hj hd
      refine earned_view hv.symm ?_
      by_cases hk : j = k
      · subst hk
        rw [h4, infoOf_set, if_pos rfl] at hd ⊢
        exact h6 hd
      · rw [h4, infoOf_set, if_neg hk] at hd ⊢
        exact hD j (fun hh => hj ⟨hh, hk⟩) hd
    obtain ⟨e1, e2, e3, e4⟩ := ih u h2 _ hfair
    refine ⟨e1.trans hv, fun j hj => e2 j (hf.grows j hj), e3.mono fun j hj => ⟨hj.1.1, ?_⟩, fun x hx => e4 x ?_⟩
    · simp only [List.mem_cons, not_or]; exact ⟨hj.1.2, hj.2⟩
    · exact update_idle lenient_true h1 hx (Idle.pure _) fun w s1 h => ⟨trivial, by cases h; rfl⟩

theorem refresh_clears {e : Env} {s t : State} (h : refresh e s = (.ok (), t)) :
    view t.store = view s.store ∧ (∀ k, s.store.has k = true → t.store.has k = true) ∧ AllFair t.store ∧ (∀ x, HeldS (fun _ => True) x s → HeldS (fun _ => True) x t) := by
  obtain ⟨u, h1, rfl⟩ := refresh_inv h
  obtain ⟨e1, e2, e3, e4⟩ := loop_clears _ _ _ h1 (fun k => s.store.has k = true) (by
    intro k hk _
    have : infoOf s.store k = {} := infoOf_of_not_has (by simpa using hk)
    show Earned s.store (infoOf s.store k)
    rw [this]
    exact earned_low (Nat.zero_le 1))
  refine ⟨e1, e2, e3.mono ?_, fun x hx => e4 x hx⟩
  rintro k ⟨hk, hn⟩
  unfold KV.has at hk
  obtain ⟨v, hv⟩ := Option.isSome_iff_exists.1 hk
  exact hn (KV.mem_keys.2 ⟨v, hv⟩)

/-- C80: whatever statuses the genesis file gave – from the refresh at its end, a status higher than the structure allows has a date of
downgrade, through every later execution.  This is `C64_status_earned_partial` without an assumption on the genesis file; the same is
missing. -/
theorem C80_from_then_on_partial (l0 l : List (Env × Op)) (e : Env) (s t : State) (h0 : s.start) (h1 : Along activesOk l0 s)
    (hr : refresh e (run l0 s) = (.ok (), t)) (h : Along fairOk l t) (k : Key) (hk : (infoOf (run l t).store k).downgradeAt = none) :
    Earned (run l t).store (infoOf (run l t).store k) := by
  obtain ⟨g1, l1⟩ := run_listed l0 s h0 h1
  obtain ⟨e1, e2, e3, -⟩ := refresh_clears hr
  have g2 : Good t := by
    unfold Good at g1 ⊢
    rw [e1]
    exact ⟨g1.nodup, g1.mem, g1.acc, fun c p hp => e2 p (g1.here c p hp)⟩
  have l2 : Listed t := by unfold Listed at l1 ⊢; rw [e1]; exact l1
  have := Along.run (P := fun s => Good s ∧ Listed s ∧ AllFair s.store)
    (fun e op s hs h => ⟨step_good e op s hs.1 h.actives.structure, step_listed e op s hs.1 hs.2.1 h.actives, step_fair e op s hs.1 hs.2.1 hs.2.2 h⟩)
    l _ ⟨g2, l2, e3⟩ h
  exact this.2.2 k id hk

/-- C80: the index of high statuses stays exact. -/
theorem C80_index (e : Env) (s t : State) (h : refresh e s = (.ok (), t)) (hs : Sync s.index fun k => (infoOf s.store k).status) :
    Sync t.index fun k => (infoOf t.store k).status :=
  ((refresh_clears h).2.2.2 True ⟨fun _ => trivial, fun _ => hs⟩).2 trivial

end Verif.Referral
