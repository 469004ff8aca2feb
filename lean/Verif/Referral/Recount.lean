import Verif.Referral.RelocateCases

/-!
Property C88: version 2.0.1 corrects the lists of active referrals (`RecalculateActiveReferrals`, /repo/app/upgrade.go:45-88).
-/
namespace Verif.Referral
open Verif.Schedule (Pending)

/-! ### Model -/

/-- `arl`, upgrade.go:50-62.  `Get` answers an empty record for accounts that do not exist (keeper.go:1080-1088). -/
def activeAmong (st : KV Nat Info) (l : List Key) : List Key := l.filter fun c => (infoOf st c).active

/-- `changed`, upgrade.go:63-78 -/
def outdated (st : KV Nat Info) (r : Info) : Bool :=
  r.activeReferrals.any (fun a => !(activeAmong st r.referrals).contains a) || (activeAmong st r.referrals).any (fun a => !r.activeReferrals.contains a)

/-- `Iterate`, keeper.go:657-690, with the callback of upgrade.go:49-85 -/
def recountLoop : List Key → Act Unit
  | [] => pure ()
  | k :: l => do
    let s ← M.get
    if outdated s.store (infoOf s.store k) then
      must (update k true fun _ => pure ({ infoOf s.store k with activeReferrals := activeAmong s.store (infoOf s.store k).referrals }, ()))
    else pure ()
    recountLoop l

/-- `RecalculateActiveReferrals`, upgrade.go:45-88 -/
def recount (e : Env) : Act Unit := do
  newBunch
  let s ← M.get
  recountLoop s.store.keys
  must (commit e)

/-! ### Specification -/

/-- The list names exactly the active ones among the referrals. -/
def Current (st : KV Nat Info) (r : Info) : Prop := ∀ a, a ∈ r.activeReferrals ↔ a ∈ r.referrals ∧ ∃ v, st.get a = some v ∧ v.active = true

theorem mem_activeAmong {st : KV Nat Info} {l : List Key} {a : Key} : a ∈ activeAmong st l ↔ a ∈ l ∧ ∃ v, st.get a = some v ∧ v.active = true := by
  unfold activeAmong
  rw [List.mem_filter]
  refine and_congr_right fun _ => ?_
  unfold infoOf
  cases st.get a with
  | none =>
    constructor
    · intro h; cases h
    · rintro ⟨_, h, _⟩; cases h
  | some v => exact ⟨fun h => ⟨v, rfl, h⟩, fun ⟨w, h1, h2⟩ => by cases h1; exact h2⟩

theorem outdated_iff {st : KV Nat Info} {r : Info} : outdated st r = false ↔ Current st r := by
  unfold outdated Current
  simp only [Bool.or_eq_false_iff, List.any_eq_false, Bool.not_eq_true', Bool.not_eq_false, List.contains_iff_mem]
  simp only [← mem_activeAmong]
  exact ⟨fun h a => ⟨fun ha => h.1 a ha, fun ha => h.2 a ha⟩, fun h => ⟨fun a ha => (h a).1 ha, fun a ha => (h a).2 ha⟩⟩

/-! ### The loop -/

structure Recounted (o : State) (l : List Key) (s t : State) : Prop where
  same : SameTot t.work o.store
  frame : Frame s t
  others : ∀ k, k ∉ l → t.work.get k = s.work.get k
  right : ∀ k ∈ l, outdated o.store (infoOf o.store k) = false → t.work.get k = s.work.get k
  wrong : ∀ k ∈ l, outdated o.store (infoOf o.store k) = true →
    Checked o.store o.now o.day t.sched k { infoOf o.store k with activeReferrals := activeAmong o.store (infoOf o.store k).referrals } (infoOf t.work k)
  books : Grow s t

theorem loop_recounted {o : State} : ∀ {l : List Key} (_ : l.Nodup) {s t : State} (_ : Frame o s) (_ : SameTot s.work o.store)
    (_ : ∀ k ∈ l, o.store.has k = true)
    (_ : ∀ k ∈ l, Tame o.store { infoOf o.store k with activeReferrals := activeAmong o.store (infoOf o.store k).referrals } ∧ (infoOf o.store k).status ≤ 9)
    (_ : recountLoop l s = (.ok (), t)), Recounted o l s t := by
  intro l
  induction l with
  | nil =>
    intro _ s t _ ha _ _ h
    unfold recountLoop at h
    obtain ⟨-, rfl⟩ := Prod.mk.inj h
    exact ⟨ha, .refl _, fun _ _ => rfl, fun _ hj => absurd hj (by simp), fun _ hj => absurd hj (by simp), .refl _⟩
  | cons k l ih =>
    intro hn s t hfr ha hh ht h
    rw [List.nodup_cons] at hn
    unfold recountLoop at h
    rw [M.get_bind_ok, hfr.store] at h
    by_cases ho : outdated o.store (infoOf o.store k) = true
    · rw [if_pos ho, M.bind_ok_iff] at h
      obtain ⟨_, u, h2, h⟩ := h
      rw [must_ok_iff] at h2
      obtain ⟨e1, e2, e3, e4, e5⟩ := update_notified (o := o) (s := s)
        (w := { infoOf o.store k with activeReferrals := activeAmong o.store (infoOf o.store k).referrals }) _ rfl (fun _ => (Still.pure _).framed) (fun _ => .pure _)
        hfr.now hfr.day ha (hh k (by simp)) rfl (ht k (by simp)).1 (ht k (by simp)).2 h2
      have r2 := ih hn.2 (hfr.trans e2) e1 (fun j hj => hh j (by simp [hj])) (fun j hj => ht j (by simp [hj])) h
      refine ⟨r2.same, e2.trans r2.frame, fun j hj => ?_, fun j hj hr => ?_, fun j hj hr => ?_, e5.trans r2.books⟩
      · simp only [List.mem_cons, not_or] at hj
        rw [r2.others j hj.2, e3 j hj.1]
      · rcases List.mem_cons.1 hj with rfl | hj
        · rw [ho] at hr; cases hr
        · rw [r2.right j hj hr, e3 j (fun e => hn.1 (e ▸ hj))]
      · rcases List.mem_cons.1 hj with rfl | hj
        · have e : infoOf t.work j = infoOf u.work j := by unfold infoOf; rw [r2.others j hn.1]
          rw [e]
          exact SameTot.checked (fun _ => rfl) (fun d hook hb => r2.books.2 d hook j hb) e4
        · exact r2.wrong j hj hr
    · rw [if_neg ho] at h
      have r2 := ih hn.2 hfr ha (fun j hj => hh j (by simp [hj])) (fun j hj => ht j (by simp [hj])) h
      refine ⟨r2.same, r2.frame, fun j hj => ?_, fun j hj hr => ?_, fun j hj hr => ?_, r2.books⟩
      · simp only [List.mem_cons, not_or] at hj
        exact r2.others j hj.2
      · rcases List.mem_cons.1 hj with rfl | hj
        · exact r2.others j hn.1
        · exact r2.right j hj hr
      · rcases List.mem_cons.1 hj with rfl | hj
        · exact absurd hr ho
        · exact r2.wrong j hj hr

/-! ### The property -/

/-- C88: after the upgrade every list of active referrals names exactly the active ones among the referrals, by the records as they are then.  Records
whose list was right stay as they were; of the others only the list, the status and the date of downgrade may change, as the check of the status demands. -/
theorem C88_recounted (e : Env) (s t : State) (h : recount e s = (.ok (), t))
    (ht : ∀ k r, s.store.get k = some r → Tame s.store { r with activeReferrals := r.referrals.filter fun c => (infoOf s.store c).active } ∧ r.status ≤ 9) :
    (∀ k, s.store.get k = none → t.store.get k = none) ∧
    (∀ k r, s.store.get k = some r → ∃ r', t.store.get k = some r' ∧ Current t.store r' ∧
      (Current s.store r → r' = r) ∧
      (¬ Current s.store r → r'.activeReferrals.Sublist r.referrals ∧
        Checked s.store s.now s.day t.sched k { r with activeReferrals := r'.activeReferrals } r')) ∧
    (∀ d hook k, Booked s.sched d hook k → Booked t.sched d hook k) := by
  unfold recount newBunch at h
  rw [M.modify_bind_ok, M.get_bind_ok, M.bind_ok_iff] at h
  obtain ⟨_, u, h1, h2⟩ := h
  rw [must_ok_iff] at h2
  unfold commit at h2
  rw [M.modify_bind_ok, M.get_bind_ok, M.errIf_ok_iff] at h2
  obtain ⟨-, rfl⟩ := h2
  have has : ∀ k ∈ s.store.keys, ∃ r, s.store.get k = some r := fun k hk => KV.mem_keys.1 hk
  have n : Recounted { s with work := s.store, calls := [] } s.store.keys { s with work := s.store, calls := [] } u :=
    loop_recounted (o := { s with work := s.store, calls := [] }) s.store.keys_nodup (.refl _) (fun _ => rfl)
      (fun k hk => by obtain ⟨v, hv⟩ := has k hk; show (s.store.get k).isSome = true; rw [hv]; rfl)
      (fun k hk => by
        obtain ⟨v, hv⟩ := has k hk
        show Tame s.store { infoOf s.store k with activeReferrals := activeAmong s.store (infoOf s.store k).referrals } ∧ (infoOf s.store k).status ≤ 9
        rw [infoOf_get hv]
        exact ht k v hv) h1
  have key : ∀ k r, s.store.get k = some r → ∃ r', u.work.get k = some r' ∧ r'.active = r.active ∧ r'.referrals = r.referrals ∧ Current s.store r' ∧
      (Current s.store r → r' = r) ∧
      (¬ Current s.store r → r'.activeReferrals.Sublist r.referrals ∧
        Checked s.store s.now s.day u.sched k { r with activeReferrals := r'.activeReferrals } r') := by
    intro k r hr
    have hk := KV.mem_keys.2 ⟨r, hr⟩
    have hi : infoOf s.store k = r := infoOf_get hr
    by_cases hc : Current s.store r
    · have := n.right k hk (by show outdated s.store (infoOf s.store k) = false; rw [hi]; exact outdated_iff.2 hc)
      exact ⟨r, this.trans hr, rfl, rfl, hc, fun _ => rfl, fun g => absurd hc g⟩
    · have ho : outdated s.store (infoOf s.store k) = true := by
        rw [hi, ← Bool.not_eq_false]
        exact fun g => hc (outdated_iff.1 g)
      have c : Checked s.store s.now s.day u.sched k { infoOf s.store k with activeReferrals := activeAmong s.store (infoOf s.store k).referrals } (infoOf u.work k) :=
        n.wrong k hk ho
      rw [hi] at c
      have hs := n.same k
      cases hg : u.work.get k with
      | none => rw [hg] at hs; rw [show ({ s with work := s.store, calls := [] } : State).store.get k = some r from hr] at hs; cases hs
      | some r' =>
        rw [infoOf_get hg] at c
        have a1 : r'.activeReferrals = activeAmong s.store r.referrals := (congrArg Info.activeReferrals c.rest :)
        have a2 : r'.active = r.active := (congrArg Info.active c.rest :)
        have a3 : r'.referrals = r.referrals := (congrArg Info.referrals c.rest :)
        refine ⟨r', rfl, a2, a3, fun a => ?_, fun g => absurd g hc, fun _ => ⟨?_, ?_⟩⟩
        · rw [a1, a3]
          exact mem_activeAmong
        · rw [a1]
          exact List.filter_sublist
        · rw [a1]
          exact c
  have gone : ∀ k, s.store.get k = none → u.work.get k = none := by
    intro k hk
    have := n.same k
    rw [show ({ s with work := s.store, calls := [] } : State).store.get k = none from hk] at this
    simpa using this
  refine ⟨gone, fun k r hr => ?_, n.books.2⟩
  obtain ⟨r', g1, -, -, g4, g5, g6⟩ := key k r hr
  refine ⟨r', g1, fun a => ?_, g5, g6⟩
  rw [g4 a]
  refine and_congr_right fun _ => ?_
  show _ ↔ ∃ v, u.work.get a = some v ∧ v.active = true
  constructor
  · rintro ⟨v, h1, h2⟩
    obtain ⟨v', h3, h4, -⟩ := key a v h1
    exact ⟨v', h3, by rw [h4]; exact h2⟩
  · rintro ⟨v', h3, h4⟩
    cases hv : s.store.get a with
    | none => rw [gone a hv] at h3; cases h3
    | some v =>
      obtain ⟨v'', h5, h6, -⟩ := key a v hv
      rw [h3] at h5
      cases h5
      exact ⟨v, rfl, by rw [← h6]; exact h4⟩

/-! ### It goes through -/

theorem recountLoop_succeeds {o : State} (l : List Key) (s : State) (ho : Frame o s) (hr : Ready s)
    (ha : ∀ k, Affordable (infoOf o.store k)) (hl : ∀ k, (infoOf o.store k).status ≤ 9) (hc : ∀ c, o.store.has c = true → s.work.has c = true) :
    ∃ t, recountLoop l s = (.ok (), t) := by
  induction l generalizing s with
  | nil => exact ⟨s, rfl⟩
  | cons k l ih =>
    unfold recountLoop
    rw [M.bind_ok (M.get_apply s), ho.store]
    by_cases hk : outdated o.store (infoOf o.store k) = true
    · rw [if_pos hk]
      obtain ⟨t, h2, h3⟩ := update_succeeds (k := k)
        (f := fun _ => pure ({ infoOf o.store k with activeReferrals := activeAmong o.store (infoOf o.store k).referrals }, ()))
        (s := s) (s1 := s) (w := { infoOf o.store k with activeReferrals := activeAmong o.store (infoOf o.store k).referrals }) (a := ()) rfl
        ((ha k).congr fun _ => rfl) (hl k) (fun c hc' => by
          obtain ⟨-, v, hv, -⟩ := mem_activeAmong.1 hc'
          exact hc c (by unfold KV.has; rw [hv]; rfl)) hr
      have f2 := (Framed.update (k := k) (check := true) (fun _ => (Still.pure _).framed)).of h2
      obtain ⟨u, hu⟩ := ih t (ho.trans f2) h3 (fun c h => f2.grows c (hc c h))
      refine ⟨u, ?_⟩
      rw [M.bind_ok (must_ok_iff.2 h2)]
      exact hu
    · rw [if_neg hk]
      exact ih s ho hr hc

/-- C88: it does not stop the chain, if the callbacks of other modules succeed. -/
theorem C88_goes_through (e : Env) (he : ∀ x k, e.call x k = true) (s : State)
    (ht : ∀ k r, s.store.get k = some r → Tame s.store { r with activeReferrals := r.referrals.filter fun c => (infoOf s.store c).active } ∧ r.status ≤ 9)
    (hk : ∀ k r, s.store.get k = some r → ∀ c ∈ r.activeReferrals, ∃ v, s.store.get c = some v)
    (hn : Schedule.inRange (s.now + 2 * s.day) = true) : ∃ t, recount e s = (.ok (), t) := by
  have cases' : ∀ k, (∃ r, s.store.get k = some r ∧ infoOf s.store k = r) ∨ infoOf s.store k = {} := by
    intro k
    cases h : s.store.get k with
    | none => right; unfold infoOf; rw [h]; rfl
    | some r => exact .inl ⟨r, rfl, infoOf_get h⟩
  have hlow : LowSt s.store := by
    intro k
    rcases cases' k with ⟨r, h1, h2⟩ | h
    · rw [h2]; exact (ht k r h1).2
    · rw [h]; exact Nat.zero_le 9
  have hr : Ready { s with work := s.store, calls := [] } := by
    refine ⟨⟨hlow, hlow⟩, ?_, hn⟩
    intro a c hc
    have hc : c ∈ (infoOf s.store a).activeReferrals := hc
    show s.store.has c = true
    rcases cases' a with ⟨r, h1, h2⟩ | h
    · rw [h2] at hc
      obtain ⟨x, hx⟩ := hk a r h1 c hc
      unfold KV.has; rw [hx]; rfl
    · rw [h] at hc; simp at hc
  obtain ⟨t, h⟩ := recountLoop_succeeds (o := { s with work := s.store, calls := [] }) s.store.keys { s with work := s.store, calls := [] }
    (.refl _) hr (by
    intro k n hn
    show 0 ≤ (infoOf s.store k).delegatedUpTo n ∧ _
    rcases cases' k with ⟨r, h1, h2⟩ | h
    · rw [show infoOf ({ s with work := s.store, calls := [] } : State).store k = infoOf s.store k from rfl, h2, delegatedUpTo_sum]
      have := (ht k r h1).1.money n hn
      norm_num at this ⊢
      exact this
    · rw [show infoOf ({ s with work := s.store, calls := [] } : State).store k = infoOf s.store k from rfl, h, delegatedUpTo_sum]
      simp) hlow (fun _ h => h)
  refine ⟨{ t with store := t.work }, ?_⟩
  unfold recount newBunch
  rw [M.modify_bind_ok, M.get_bind_ok, M.bind_ok h, must_ok_iff]
  unfold commit
  rw [M.modify_bind_ok, M.get_bind_ok, M.errIf_ok_iff]
  refine ⟨?_, rfl⟩
  rw [Bool.not_eq_false', List.all_eq_true]
  intro x _
  exact he _ _

/-! ### Examples -/

/-- The network of `founded`, in which the list of account 2 still names account 8 (a referral of account 4, active), not account 6, and that of
account 4 names nobody. -/
def miscounted : State :=
  let s := run founded empty0
  { s with store := (s.store.set 2 { infoOf s.store 2 with activeReferrals := [8, 4] }).set 4 { infoOf s.store 4 with activeReferrals := [] } }

/-- A check of the premises -/
def countableB (st : KV Nat Info) : Bool :=
  st.keys.all fun k => tameB st { infoOf st k with activeReferrals := (infoOf st k).referrals.filter fun c => (infoOf st c).active } &&
    decide ((infoOf st k).status ≤ 9) && (infoOf st k).activeReferrals.all fun c => st.has c

theorem countable_of_check {st : KV Nat Info} (h : countableB st = true) :
    (∀ k r, st.get k = some r → Tame st { r with activeReferrals := r.referrals.filter fun c => (infoOf st c).active } ∧ r.status ≤ 9) ∧
    (∀ k r, st.get k = some r → ∀ c ∈ r.activeReferrals, ∃ v, st.get c = some v) := by
  have key : ∀ k r, st.get k = some r → (tameB st { r with activeReferrals := r.referrals.filter fun c => (infoOf st c).active } = true ∧ r.status ≤ 9) ∧
      ∀ c ∈ r.activeReferrals, st.has c = true := by
    intro k r hr
    have := List.all_eq_true.1 h k (KV.mem_keys.2 ⟨r, hr⟩)
    rw [infoOf_get hr, Bool.and_eq_true, Bool.and_eq_true, decide_eq_true_eq, List.all_eq_true] at this
    exact this
  refine ⟨fun k r hr => ⟨tame_of_check (key k r hr).1.1, (key k r hr).1.2⟩, fun k r hr c hc => ?_⟩
  have := (key k r hr).2 c hc
  unfold KV.has at this
  exact Option.isSome_iff_exists.1 this

/-- `C88_recounted` and `C88_goes_through` apply to it; account 2, whose list was wrong, gets status 2. -/
example : ((∀ k r, miscounted.store.get k = some r →
      Tame miscounted.store { r with activeReferrals := r.referrals.filter fun c => (infoOf miscounted.store c).active } ∧ r.status ≤ 9) ∧
    (∀ k r, miscounted.store.get k = some r → ∀ c ∈ r.activeReferrals, ∃ v, miscounted.store.get c = some v)) ∧
    Schedule.inRange (miscounted.now + 2 * miscounted.day) = true ∧ (∃ t, recount yes miscounted = (.ok (), t)) ∧
    [2, 4, 6].map (fun k => ((infoOf miscounted.store k).activeReferrals, (infoOf miscounted.store k).status)) = [([8, 4], 1), ([], 1), ([12, 14], 1)] ∧
    [2, 4, 6].map (fun k => ((infoOf (recount yes miscounted).2.store k).activeReferrals, (infoOf (recount yes miscounted).2.store k).status)) =
      [([4, 6], 2), ([8, 10], 1), ([12, 14], 1)] := by
  have h := countable_of_check (st := miscounted.store) (by decide +kernel)
  exact ⟨h, by decide +kernel, C88_goes_through yes (fun _ _ => rfl) _ h.1 h.2 (by decide +kernel), by decide +kernel, by decide +kernel⟩

/-- The list of account 6 names account 12 twice. -/
def repeated : State :=
  let s := run founded empty0
  { s with store := s.store.set 6 { infoOf s.store 6 with activeReferrals := [12, 14, 12] } }

/-- C88 fails for names that appear twice: such a list is taken for right (only sets are compared, upgrade.go:63-78) and the account goes on counting
one referral as two. -/
theorem C88_repeated_violation : ∃ (s t : State) (k : Key), recount yes s = (.ok (), t) ∧ (infoOf t.store k).referrals.Nodup ∧
    ¬ (infoOf t.store k).activeReferrals.Nodup := by
  have h1 : (recount yes repeated).1 = .ok () := by decide +kernel
  have h2 : (infoOf (recount yes repeated).2.store 6).referrals.Nodup := by decide +kernel
  have h3 : ¬ (infoOf (recount yes repeated).2.store 6).activeReferrals.Nodup := by decide +kernel
  rcases hr : recount yes repeated with ⟨r, t⟩
  rw [hr] at h1 h2 h3
  have h1 : r = .ok () := h1
  rw [h1] at hr
  exact ⟨repeated, t, 6, hr, h2, h3⟩

end Verif.Referral
