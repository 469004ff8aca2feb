import Verif.Referral.RestartOrder
import Verif.Referral.Orderly

/-! Property C102: the new chain does start. -/
namespace Verif.Referral

/-! ### One change of balance -/

theorem commit_fine_res {e : Env} (he : ∀ c k, e.call c k = true) (b : Bool) (u : State) : ∃ t, (if b then commit e else pure () : Act Unit) u = (.ok (), t) := by
  cases b with
  | false => exact ⟨u, rfl⟩
  | true => exact ⟨_, commit_fine he u⟩

theorem setPurse_succeeds {e : Env} (he : ∀ c k, e.call c k = true) {u : State} {a : Addr} {p : Purse} (ht : Tally 10 u) (hl : Listed u) (hlow : LowSt u.store)
    (h1 : ∀ c, 0 ≤ (infoOf u.store c).tot .delegated 0) (h2 : 0 ≤ p.delegated)
    (h3 : (u.store.keys.map fun c => (infoOf u.store c).tot .delegated 0).sum + p.delegated < 9223372036854775808)
    (h4 : Schedule.inRange (u.now + 2 * u.day) = true) (h5 : Schedule.inRange (u.now + 30 * u.day) = true)
    (h6 : ∀ x, (infoOf u.store (text a)).banishmentAt = some x → Schedule.inRange x = true) : ∃ t, setPurse e a p u = (.ok (), t) := by
  have hd : ∀ w : State, w.purse = (fun b => if b = a then p else u.purse b) → w.delegated (text a) = p.delegated := by
    intro w hw
    unfold State.delegated
    rw [hw]
    show (if addrOf (text a) = a then p else _).delegated = _
    rw [if_pos (show addrOf (text a) = a from Nat.mul_div_cancel_left (n := 2) a (by decide))]
  have key : Welcome (text a) ({ u with purse := fun b => if b = a then p else u.purse b, work := u.store, calls := [] }) := by
    refine ⟨⟨⟨hlow, hlow⟩, ?_, h4⟩, ht, h1, by rw [hd _ rfl]; exact h2, by rw [hd _ rfl]; exact h3, h5, h6⟩
    intro x c hc
    have := ((hl.mem x c).1 hc).1
    cases hh : u.store.has c with
    | true => rfl
    | false =>
      have hr : (infoOf u.store c).referrer = some x := this
      rw [infoOf_of_not_has hh] at hr
      cases hr
  obtain ⟨b, w, hw⟩ := balanceBody_succeeds key
  have e0 : setPurse e a p u = (balanceBody (text a) >>= fun b => if b then commit e else pure ())
    { u with purse := fun b => if b = a then p else u.purse b, work := u.store, calls := [] } := rfl
  rw [e0, M.bind_ok hw]
  exact commit_fine_res he b w

/-! ### The bank -/

/-- The delegations on record -/
def staked (u : State) : Int := (u.store.keys.map fun c => (infoOf u.store c).tot .delegated 0).sum

theorem own_delegated {s u : State} (hm : Midway 10 s u) {k : Key} (hk : u.store.has k = true) :
    (infoOf u.store k).tot .delegated 0 = (u.purse (addrOf k)).delegated :=
  (hm.kempt.ledger.fit.own k hk id).2

theorem own_nonneg {s u : State} (hm : Midway 10 s u) (hn : ∀ a, 0 ≤ (u.purse a).delegated) (k : Key) : 0 ≤ (infoOf u.store k).tot .delegated 0 := by
  cases hh : u.store.has k with
  | true => rw [own_delegated hm hh]; exact hn _
  | false => rw [infoOf_of_not_has hh]

theorem keys_perm {s u t : State} (hu : Midway 10 s u) (ht : Midway 10 s t) : t.store.keys.Perm u.store.keys := by
  refine (List.perm_ext_iff_of_nodup t.store.keys_nodup u.store.keys_nodup).2 fun k => ?_
  rw [mem_keys_of_has, mem_keys_of_has, hu.has, ht.has]

theorem staked_purse {s u t : State} (hu : Midway 10 s u) (ht : Midway 10 s t) {a : Addr} {p : Purse} (hp : 0 ≤ p.delegated)
    (hn : ∀ a, 0 ≤ (u.purse a).delegated) (h : t.purse = fun b => if b = a then p else u.purse b) : staked t ≤ staked u + p.delegated := by
  have e1 : staked t = (u.store.keys.map fun c => if c = text a then p.delegated else (infoOf u.store c).tot .delegated 0).sum := by
    unfold staked
    rw [((keys_perm hu ht).map _).sum_eq]
    congr 1
    refine List.map_congr_left fun c hc => ?_
    have hc := mem_keys_of_has.1 hc
    have hc' : t.store.has c = true := by rw [ht.has, ← hu.has]; exact hc
    rw [own_delegated ht hc', h]
    dsimp only
    have hus := hu.kempt.ledger.usual c hc
    by_cases hca : c = text a
    · rw [if_pos hca, if_pos]
      rw [hca]; exact Nat.mul_div_cancel_left (n := 2) a (by decide)
    · rw [if_neg hca, if_neg, own_delegated hu hc]
      rintro rfl
      exact hca hus.symm
  rw [e1, sum_map_upd u.store.keys_nodup (fun c => (infoOf u.store c).tot .delegated 0) _ (text a) fun c hc => if_neg hc]
  unfold staked
  have := own_nonneg hu hn (text a)
  split
  · rw [if_pos rfl]; linarith
  · linarith

theorem date_known {s u : State} (hm : Midway 10 s u) (k : Key) (x : Int) (h : (infoOf u.store k).banishmentAt = some x) : Schedule.inRange x = true := by
  cases hh : u.store.has k with
  | true => exact (hm.kempt.ledger.fit.kin k hh).date x h
  | false => rw [infoOf_of_not_has hh] at h; cases h

theorem setPurse_outer {e : Env} {a : Addr} {p : Purse} {u t : State} (h : setPurse e a p u = (.ok (), t)) : t.now = u.now ∧ t.day = u.day := by
  unfold setPurse at h
  rw [M.modify_bind_ok] at h
  have := (bunch_cases (e := e) (.balanceBody (text a)) ({ u with purse := fun b => if b = a then p else u.purse b } : State)).1
  unfold onBalanceChanged at h
  rw [h] at this
  exact ⟨this.now, this.day⟩

theorem purses_succeed {e : Env} (he : ∀ c k, e.call c k = true) {s : State} : ∀ (l : List (Addr × Purse)) (u : State), Midway 10 s u →
    (∀ k, (infoOf u.store k).active = false) → (∀ k, (infoOf s.store k).banished = true → (s.purse (addrOf k)).delegated ≤ u.dust) →
    (∀ x ∈ l, s.purse x.1 = x.2) → LowSt u.store → (∀ a, 0 ≤ (u.purse a).delegated) → (∀ x ∈ l, 0 ≤ x.2.delegated) →
    staked u + (l.map fun x => x.2.delegated).sum < 9223372036854775808 →
    Schedule.inRange (u.now + 2 * u.day) = true → Schedule.inRange (u.now + 30 * u.day) = true →
    ∃ t, M.forEach l (fun x => must (setPurse e x.1 x.2)) u = (.ok (), t) ∧ LowSt t.store ∧ (∀ a, 0 ≤ (t.purse a).delegated) ∧
      staked t ≤ staked u + (l.map fun x => x.2.delegated).sum ∧ t.now = u.now ∧ t.day = u.day
  | [], u, _, _, _, _, hlow, hn, _, _, _, _ => ⟨u, rfl, hlow, hn, by simp, rfl, rfl⟩
  | x :: l, u, hm, ha, hb, hp, hlow, hn, hx, hsum, h4, h5 => by
    rw [List.map_cons, List.sum_cons] at hsum ⊢
    have hx0 := hx x List.mem_cons_self
    have hrest : 0 ≤ (l.map fun x => x.2.delegated).sum := List.sum_nonneg (by
      intro y hy
      obtain ⟨z, hz, rfl⟩ := List.mem_map.1 hy
      exact hx z (List.mem_cons_of_mem _ hz))
    obtain ⟨w, h1⟩ := setPurse_succeeds (a := x.1) (p := x.2) he hm.kempt.tally hm.kempt.listed hlow (own_nonneg hm hn) hx0
      (by unfold staked at hsum; linarith) h4 h5 (date_known hm _)
    obtain ⟨m1, a1, d1, p1⟩ := midway_purse le_rfl hm ha hb (hp x List.mem_cons_self) h1
    obtain ⟨n1, n2⟩ := setPurse_outer h1
    have low1 : LowSt w.store := by
      have := ((Keeps.setPurse e x.1 x.2) { u with work := u.store } ⟨hlow, hlow⟩).1
      rw [show setPurse e x.1 x.2 { u with work := u.store } = setPurse e x.1 x.2 u from rfl, h1] at this
      exact this.store
    have hn1 : ∀ a, 0 ≤ (w.purse a).delegated := by
      intro a
      rw [p1]
      dsimp only
      split
      · exact hx0
      · exact hn a
    have hst := staked_purse hm m1 hx0 hn p1
    obtain ⟨t, g1, g2, g3, g4, g5, g6⟩ := purses_succeed he l w m1 a1 (by rw [d1]; exact hb) (fun y hy => hp y (List.mem_cons_of_mem _ hy)) low1 hn1
      (fun y hy => hx y (List.mem_cons_of_mem _ hy)) (by linarith) (by rw [n1, n2]; exact h4) (by rw [n1, n2]; exact h5)
    refine ⟨t, ?_, g2, g3, by linarith, g5.trans n1, g6.trans n2⟩
    rw [M.forEach_cons, M.bind_ok (must_ok h1)]
    exact g1

/-! ### The profiles -/

theorem update_unchecked {α : Type} {k : Key} {f : Info → Act (Info × α)} {s s1 : State} {w : Info} {a : α} (hf : f (infoOf s.work k) s = (.ok (w, a), s1)) :
    update k false f s = (.ok a, { s1 with work := s1.work.set k w }) := by
  unfold update
  rw [recover_ok_iff, M.bind_ok (M.get_apply s), M.bind_ok hf]
  rfl

theorem climb_unchecked {f : Nat → Key → Info → Act Info} (hf : ∀ l k v s, ∃ w, f l k v s = (.ok w, s)) :
    ∀ (n l : Nat) (p : Option Key) (s : State), ∃ t, climb false f n l p s = (.ok (), t)
  | 0, _, _, s => ⟨s, rfl⟩
  | _ + 1, _, none, s => ⟨s, rfl⟩
  | n + 1, l, some k, s => by
    obtain ⟨w, hw⟩ := hf l k (infoOf s.work k) s
    have h := update_unchecked (k := k) (f := fun v => do let w ← f l k v; pure (w, v.referrer)) (s := s) (s1 := s) (w := w) (a := (infoOf s.work k).referrer)
      (by rw [M.bind_ok hw]; rfl)
    obtain ⟨t, ht⟩ := climb_unchecked hf n (l + 1) (infoOf s.work k).referrer { s with work := s.work.set k w }
    refine ⟨t, ?_⟩
    unfold climb
    rw [M.bind_ok h]
    exact ht

theorem setActive_succeeds {e : Env} (he : ∀ c k, e.call c k = true) {u : State} {k : Key}
    (h6 : ∀ x, (infoOf u.store k).banishmentAt = some x → Schedule.inRange x = true) : ∃ t, setActive e k true false u = (.ok (), t) := by
  have key : ∃ b t, activeBody k true false { u with work := u.store, calls := [] } = (.ok b, t) := by
    unfold activeBody
    rw [M.bind_ok (M.get_apply _)]
    split
    · exact ⟨_, _, rfl⟩
    · have hself : ∃ w s1, activateSelf k true (infoOf u.store k) { u with work := u.store, calls := [] } = (.ok (w, (infoOf u.store k).referrer), s1) := by
        unfold activateSelf
        rw [M.bind_ok (M.get_apply _)]
        cases hb : (infoOf u.store k).banishmentAt with
        | none => exact ⟨_, _, rfl⟩
        | some x =>
          obtain ⟨s1, h1⟩ := delete_succeeds (h6 x hb) banishHook [k] { u with work := u.store, calls := [] }
          have aux : ∀ (w : Info) (b : Option Key), ((request (.delete x banishHook [k]) >>= fun _ => (pure w : Act Info)) >>= fun w => (pure (w, b) : Act _))
              { u with work := u.store, calls := [] } = (.ok (w, b), s1) := by
            intro w b
            rw [M.bind_ok (show (request (.delete x banishHook [k]) >>= fun _ => (pure w : Act Info)) _ = (.ok w, s1) by rw [M.bind_ok h1]; rfl)]
            rfl
          exact ⟨_, s1, aux _ _⟩
      obtain ⟨w, s1, hself⟩ := hself
      rw [M.bind_ok (update_unchecked hself)]
      obtain ⟨t, ht⟩ := climb_unchecked (f := fun l _ v =>
        let w := v.add (people true) l
        pure (if l = 1 then
          { w with activeReferrals := if true then addSorted v.activeReferrals k else removeOrdered v.activeReferrals k }
        else w)) (fun l k v s => ⟨_, rfl⟩) 10 1 (infoOf u.store k).referrer { s1 with work := s1.work.set k w }
      rw [M.bind_ok ht]
      rw [Bool.not_true, Bool.and_false]
      exact ⟨_, _, rfl⟩
  obtain ⟨b, w, hw⟩ := key
  have e0 : setActive e k true false u = (activeBody k true false >>= fun b => if b then commit e else pure ()) { u with work := u.store, calls := [] } := rfl
  rw [e0, M.bind_ok hw]
  exact commit_fine_res he b w

theorem setActive_outer {e : Env} {k : Key} {u t : State} (h : setActive e k true false u = (.ok (), t)) : t.now = u.now ∧ t.day = u.day := by
  have := (bunch_cases (e := e) (.activeBody k true false) u).1
  unfold setActive at h
  rw [h] at this
  exact ⟨this.now, this.day⟩

theorem actives_succeed {e : Env} (he : ∀ c k, e.call c k = true) {s : State} (hs : Kempt 10 s) : ∀ (l : List Key) (u : State), Midway 10 s u →
    (∀ k ∈ l, (infoOf s.store k).active = true) → LowSt u.store →
    ∃ t, M.forEach l (fun k => must (setActive e k true false)) u = (.ok (), t) ∧ LowSt t.store ∧ t.now = u.now ∧ t.day = u.day
  | [], u, _, _, hlow => ⟨u, rfl, hlow, rfl, rfl⟩
  | k :: l, u, hm, hl, hlow => by
    obtain ⟨w, h1⟩ := setActive_succeeds (k := k) he (date_known hm k)
    obtain ⟨m1, -, -⟩ := midway_active le_rfl hs hm (hl k List.mem_cons_self) h1
    obtain ⟨n1, n2⟩ := setActive_outer h1
    have low1 : LowSt w.store := by
      have := ((Keeps.setActive e k true false) { u with work := u.store } ⟨hlow, hlow⟩).1
      rw [show setActive e k true false { u with work := u.store } = setActive e k true false u from rfl, h1] at this
      exact this.store
    obtain ⟨t, g1, g2, g3, g4⟩ := actives_succeed he hs l w m1 (fun y hy => hl y (List.mem_cons_of_mem _ hy)) low1
    refine ⟨t, ?_, g2, g3.trans n1, g4.trans n2⟩
    rw [M.forEach_cons, M.bind_ok (must_ok h1)]
    exact g1

/-! ### The check of statuses -/

theorem refresh_succeeds {e : Env} (he : ∀ c k, e.call c k = true) {u : State} (hr : Ready { u with work := u.store, calls := [] })
    (ha : ∀ k, Affordable (infoOf u.store k)) : ∃ t, refresh e u = (.ok (), t) := by
  obtain ⟨t, h⟩ := loop_succeeds u.store.keys _ hr fun k => Affordable.congr (v := infoOf u.store k) (ha k) fun _ => rfl
  refine ⟨{ t with store := t.work }, ?_⟩
  unfold refresh newBunch
  rw [M.modify_bind_ok, M.get_bind_ok, M.bind_ok h, must_ok_iff]
  exact commit_fine he t

/-! ### The property -/

theorem restart_succeeds {e : Env} (he : ∀ c k, e.call c k = true) {s s0 : State} (hs : Kempt 10 s) (hlow : LowSt s.store) (h0 : Unborn s0)
    {purses : List (Addr × Purse)} {active : List Key} (hd : Described s purses active)
    (hb : ∀ k, (infoOf s.store k).banished = true → (s.purse (addrOf k)).delegated ≤ s0.dust)
    (hn : ∀ x ∈ purses, 0 ≤ x.2.delegated) (hsum : (purses.map fun x => x.2.delegated).sum < 9223372036854775808)
    (h4 : Schedule.inRange (s0.now + 2 * s0.day) = true) (h5 : Schedule.inRange (s0.now + 30 * s0.day) = true) :
    ∃ g t, exportGenesis s.store = some g ∧ restart e g purses active s0 = (.ok (), t) := by
  obtain ⟨g, t0, h1, h2, -, h3⟩ := import_export he hs.tally.good (fun k hk => hs.tally.tidy.leaf k hk) h0
  have ho := importGenesis_outs e g s0
  rw [h2] at ho
  have hp0 : ∀ a, t0.purse a = {} := fun a => by rw [ho.purse]; exact h0.purse a
  obtain ⟨m0, a0⟩ := midway_import hs hp0 h3
  have low0 : LowSt t0.store := by
    intro k
    obtain ⟨q1, q2, q3⟩ := newborn_of (fun k hk => hs.tally.tidy.leaf k hk) h3 k
    cases hh : s.store.has k with
    | false => rw [q3 hh]; exact Nat.zero_le 9
    | true =>
      rcases (q2 hh).status with hbk | h | h
      · have := h3 k
        rw [hh, if_neg (by simp), if_pos hbk] at this
        rw [infoOf_get this]; exact Nat.zero_le 9
      · rw [h]; decide
      · rw [h]; exact hlow k
  have nn0 : ∀ a, 0 ≤ (t0.purse a).delegated := fun a => by rw [hp0]
  have st0 : staked t0 = 0 := by
    unfold staked
    apply List.sum_eq_zero
    intro x hx
    obtain ⟨c, hc, rfl⟩ := List.mem_map.1 hx
    rw [own_delegated m0 (mem_keys_of_has.1 hc), hp0]
  obtain ⟨t1, g1, low1, nn1, st1, n1, d1⟩ := purses_succeed he purses t0 m0 a0 (by rw [ho.dust]; exact hb) hd.right low0 nn0 hn (by rw [st0]; linarith)
    (by rw [ho.now, ho.day]; exact h4) (by rw [ho.now, ho.day]; exact h5)
  obtain ⟨m1, a1, p1⟩ := midway_purses le_rfl purses t0 t1 m0 a0 (by rw [ho.dust]; exact hb) hd.right g1
  obtain ⟨t2, g2, low2, n2, d2⟩ := actives_succeed he hs active t1 m1 (fun k hk => (hd.active k).1 hk) low1
  obtain ⟨m2, a2, p2⟩ := midway_actives le_rfl hs active t1 t2 m1 (fun k hk => (hd.active k).1 hk) g2
  have nn2 : ∀ a, 0 ≤ (t2.purse a).delegated := by rw [p2]; exact nn1
  have st2 : staked t2 = staked t1 := by
    unfold staked
    rw [((keys_perm m1 m2).map _).sum_eq]
    congr 1
    refine List.map_congr_left fun c hc => ?_
    have hc := mem_keys_of_has.1 hc
    have hc' : t2.store.has c = true := by rw [m2.has, ← m1.has]; exact hc
    rw [own_delegated m1 hc, own_delegated m2 hc', p2]
  have hready : Ready { t2 with work := t2.store, calls := [] } := by
    refine ⟨⟨low2, low2⟩, fun x c hc => ?_, ?_⟩
    · have := ((m2.kempt.listed.mem x c).1 hc).1
      show t2.store.has c = true
      cases hh : t2.store.has c with
      | true => rfl
      | false =>
        have hr : (infoOf t2.store c).referrer = some x := this
        rw [infoOf_of_not_has hh] at hr
        cases hr
    · show Schedule.inRange (t2.now + 2 * t2.day) = true
      rw [n2, d2, n1, d1, ho.now, ho.day]; exact h4
  obtain ⟨t, g3⟩ := refresh_succeeds he hready fun k => by
    refine Affordable.congr (v := view t2.store k) ?_ fun _ => rfl
    refine Neat.affordable m2.kempt.tally (K := t2.store.keys) (own_nonneg m2 nn2) (fun c hc => ?_) ?_ k
    · show (infoOf t2.store c).tot .delegated 0 = 0
      rw [mem_keys_of_has] at hc
      rw [infoOf_of_not_has (by simpa using hc)]
    · have : staked t2 < 18446744073709551616 := by rw [st2]; linarith
      exact this
  refine ⟨g, t, h1, ?_⟩
  unfold restart
  rw [M.bind_ok h2, M.bind_ok g1, M.bind_ok g2]
  exact g3

/-- C102: if the callbacks of other modules succeed, no delegation in the file of the bank is negative, all of them together fit in 64 bits and
the dates are before 2263, then the new chain does start, with the network of the old one on all ten levels. -/
theorem C102_starts_partial (l : List (Env × Op)) (s : State) (h0 : s.start) (hw : s.work = KV.empty) (ha : Along acceptOk l s) (hx : Along exactOk l s)
    (e : Env) (he : ∀ x k, e.call x k = true) (s0 : State) (hu : Unborn s0) (purses : List (Addr × Purse)) (active : List Key)
    (hd : Described (run l s) purses active)
    (hb : ∀ k, (infoOf (run l s).store k).banished = true → ((run l s).purse (addrOf k)).delegated ≤ s0.dust)
    (hn : ∀ x ∈ purses, 0 ≤ x.2.delegated) (hsum : (purses.map fun x => x.2.delegated).sum < 9223372036854775808)
    (h2 : Schedule.inRange (s0.now + 2 * s0.day) = true) (h3 : Schedule.inRange (s0.now + 30 * s0.day) = true) :
    ∃ g t, exportGenesis (run l s).store = some g ∧ restart e g purses active s0 = (.ok (), t) ∧
      ∀ k, t.store.has k = (run l s).store.has k ∧ Carried 10 (infoOf (run l s).store k) (infoOf t.store k) := by
  have ht : Along (totalsOk 10) l s := along_imp (fun _ _ h => h.1) ha
  have hk := run_kempt le_rfl l s h0 ht hx
  obtain ⟨g, t, h4, h5⟩ := restart_succeeds he hk (accept_inv l s h0 hw ha).2.2.store hu hd hb hn hsum h2 h3
  obtain ⟨g', h6, h7⟩ := C102_same_network_partial 10 le_rfl l s h0 ht hx e he s0 hu purses active hd hb
  cases h4.symm.trans h6
  exact ⟨g, t, h4, h5, h7 t h5⟩

/-- `C102_starts_partial` applies to the family of `Referral/Restart.lean`. -/
example : ∃ g t, exportGenesis (run family empty0).store = some g ∧
    restart yes g [(3, { main := 5000000 }), (2, { delegated := 70000000 })] [4] empty0 = (.ok (), t) ∧
    ∀ k, t.store.has k = (run family empty0).store.has k ∧ Carried 10 (infoOf (run family empty0).store k) (infoOf t.store k) := by
  obtain ⟨f1, ⟨r1, r2, r3, r4, r5, r6, r7, -⟩, f3⟩ := family_runs
  refine C102_starts_partial family empty0 f1 rfl
    ⟨⟨r1, trivial⟩, ⟨r2, trivial⟩, ⟨r3, trivial⟩, ⟨r4, trivial⟩, ⟨r5, trivial⟩, ⟨r6, trivial⟩, ⟨r7, (show 1 ≤ 9 by decide)⟩, trivial⟩ f3 yes (fun _ _ => rfl) empty0
    ⟨rfl, rfl, fun _ => rfl⟩ _ _ family_described (fun k hk => ?_) (by decide) (by decide) (by decide +kernel) (by decide +kernel)
  cases hh : (run family empty0).store.has k with
  | false => rw [infoOf_of_not_has hh] at hk; cases hk
  | true =>
    have hall : (run family empty0).store.keys.all (fun k => decide ((infoOf (run family empty0).store k).banished = true →
      ((run family empty0).purse (addrOf k)).delegated ≤ empty0.dust)) = true := by decide +kernel
    exact of_decide_eq_true (List.all_eq_true.1 hall k (mem_keys_of_has.2 hh)) hk

end Verif.Referral
