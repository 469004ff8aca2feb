import Verif.Referral.Retire2

/-! Properties C74 and C75: accounts that are out of business, and the index of high statuses; compression, banishment, transitions. -/
namespace Verif.Referral
open Relation

variable {P : Info → Prop} {x : Prop}

theorem Settled.busy {v : Info} (h : Settled v) {c : Key} (hc : c ∈ v.referrals) : ¬ Retired v := by
  intro hr
  rw [(h.retired hr).1] at hc
  cases hc

theorem Retired.of_core {v w : Info} (h : core v = core w) (hv : Retired v) : Retired w := by
  have h1 : v.referrer = w.referrer := (congrArg Info.referrer h : (core v).referrer = _)
  have h2 : v.active = w.active := (congrArg Info.active h : (core v).active = _)
  have h3 : v.compressionAt = w.compressionAt := (congrArg Info.compressionAt h : (core v).compressionAt = _)
  exact ⟨by rw [← h1]; exact hv.1, by rw [← h2]; exact hv.2.1, by rw [← h3]; exact hv.2.2⟩

/-! ### Coming back -/

theorem attach_held (hl : Lenient P) {k : Key} {c d : Int} {p : Option Key} {s t : State} (hs : Held P x s)
    (hp : ∀ a, p = some a → ∀ f, P { infoOf s.work a with tot := f, referrals := (infoOf s.work a).referrals ++ [k] })
    (h : attach k c d p s = (.ok (), t)) : Held P x t := by
  cases p with
  | none => simp [attach] at h; rw [← h]; exact hs
  | some p =>
    unfold attach at h
    rw [M.bind_ok_iff] at h
    obtain ⟨next, s1, h1, h⟩ := h
    have d1 : Held P x s1 := by
      refine update_idle hl h1 hs (.pure _) fun w s2 h2 => ?_
      simp at h2
      rw [← h2.1.1]
      exact ⟨hp p rfl ((infoOf s.work p).add (money c d) 1).tot, rfl⟩
    split at h
    · simp at h; rw [← h]; exact d1
    · refine climb_held hl (fun _ _ _ => .pure _) ?_ 9 2 next s1 t (by omega) h d1
      intro l k v s w s1 _ h
      simp at h
      rw [← h.1]
      rfl

/-- Back in the tree -/
theorem Settled.back {v : Info} (h : Settled v) (hb : v.banished = true) {p : Option Key} {y z : Option Int} (hy : y = none) :
    Settled { v with referrer := p, banished := false, banishmentAt := y, compressionAt := z, status := 1 } := by
  have hr := h.banished hb
  refine ⟨fun hc => (by cases hc), fun hc => absurd hy hc, fun hc => ?_, fun _ => ⟨(h.retired hr).1, (h.retired hr).2.1, (show 1 < 5 by decide)⟩⟩
  have hc : v.active = true := hc
  rw [hr.2.1] at hc
  cases hc

theorem comeBackBody_held {k : Key} {s t : State} {b : Bool} (hs : Held Settled x s) (hb : (infoOf s.work k).banished = true)
    (h : comeBackBody k s = (.ok b, t)) : Held Settled x t ∧ b = true := by
  have hk := hs.1 k
  have hr := hk.banished hb
  unfold comeBackBody at h
  rw [M.bind_ok_iff] at h
  obtain ⟨r, s1, h1, h⟩ := h
  obtain ⟨w, s2, h2, hw⟩ := update_plain h1
  rw [M.get_bind_ok, M.orPanic_bind_ok] at h2
  obtain ⟨p, hp, h2⟩ := h2
  simp at h2
  obtain ⟨⟨rfl, rfl⟩, rfl⟩ := h2
  have d1 : Held Settled x s1 := by
    refine update_held Settled.lenient h1 fun w' s1' h3 => ?_
    rw [M.get_bind_ok, M.orPanic_bind_ok] at h3
    obtain ⟨p', -, h3⟩ := h3
    simp at h3
    obtain ⟨⟨rfl, -⟩, rfl⟩ := h3
    exact (hs.mid k).change (hk.back hb rfl) (.inr ⟨(show 1 < 5 by decide), (hk.retired hr).2.2⟩)
  rw [M.bind_ok_iff] at h
  obtain ⟨_, s3, h3, h⟩ := h
  simp at h
  obtain ⟨rfl, rfl⟩ := h
  refine ⟨attach_held Settled.lenient d1 ?_ h3, rfl⟩
  intro a ha f
  have ha : p = some a := ha
  rw [ha] at hp
  have hopen := (openAncestor_trans hp).2
  have hak : a ≠ k := by
    rintro rfl
    rw [settled_closed hk hb] at hopen
    cases hopen
  have e : infoOf s1.work a = infoOf s.work a := by rw [hw, infoOf_set, if_neg hak]
  rw [e]
  exact (hs.1 a).lists (a := (infoOf s.work a).activeReferrals) fun hc => absurd hc (not_retired_of_open hopen)

theorem returnIfBanished_held {e : Env} {k : Key} {s t : State} (hs : HeldS Settled x s) (h : returnIfBanished e k s = (.ok (), t)) :
    HeldS Settled x t := by
  unfold returnIfBanished at h
  rw [M.get_bind_ok] at h
  split at h
  · rename_i hb
    refine bunch_held_ok (.comeBackBody _) hs h fun b t ht => ?_
    obtain ⟨h1, rfl⟩ := comeBackBody_held (s := s.fresh) hs.fresh hb ht
    exact ⟨h1, fun hc => by cases hc⟩
  · simp at h; rw [← h]; exact hs

/-! ### Balances -/

theorem reviveDelegator_mid {now : Int} {k : Key} {v w : Info} {s t : State} (hs : Held (Timely now) x s) (hv : infoOf s.work k = v)
    (h : reviveDelegator k v s = (.ok w, t)) : Mid (Timely now) x k w t := by
  have hk : Timely now v := by rw [← hv]; exact hs.1 k
  unfold reviveDelegator at h
  rw [M.bind_ok_iff] at h
  obtain ⟨v1, s1, h1, h⟩ := h
  have fin : s1.work = s.work ∧ s1.index = s.index ∧ v1 = { v with banishmentAt := none } := by
    cases hb : v.banishmentAt with
    | some y =>
      rw [hb] at h1
      dsimp only at h1
      rw [M.bind_ok_iff] at h1
      obtain ⟨_, s2, h2, h1⟩ := h1
      simp at h1
      obtain ⟨rfl, rfl⟩ := h1
      exact ⟨((Idle.request _).of h2).1, ((Idle.request _).of h2).2, rfl⟩
    | none =>
      rw [hb] at h1
      simp at h1
      obtain ⟨rfl, rfl⟩ := h1
      refine ⟨rfl, rfl, ?_⟩
      rw [← hb]
  obtain ⟨e1, e2, hv1⟩ := fin
  have d1 : Held (Timely now) x s1 := hs.same e1 e2
  have hb1 : v1.banished = v.banished := by rw [hv1]
  split at h
  · rename_i hb
    rw [hb1] at hb
    have hr := hk.1.banished hb
    rw [M.get_bind_ok, M.orPanic_bind_ok] at h
    obtain ⟨p, hp, h⟩ := h
    rw [M.bind_ok_iff] at h
    obtain ⟨_, s2, h2, h⟩ := h
    simp at h
    obtain ⟨rfl, rfl⟩ := h
    have d2 : Held (Timely now) x s2 := by
      refine attach_held (Timely.lenient now) d1 ?_ h2
      intro a ha f
      have hopen : (infoOf s1.work a).closed s1.now s1.month = false := by
        have e : v1.referrer = (infoOf s1.work k).referrer := by rw [hv1, e1, hv]
        rw [ha, e] at hp
        exact (openAncestor_trans hp).2
      have ht := d1.1 a
      exact ⟨ht.1.lists (a := (infoOf s1.work a).activeReferrals) fun hc => absurd hc (not_retired_of_open hopen), ht.2⟩
    have hst : (infoOf s2.work k).status < 5 := by
      have e3 : (infoOf s2.work k).banished = true := by
        have := climbV_all (π := Info.banished) (bump_all (d := money (v1.tot .coins 0) (v1.tot .delegated 0)) (L := addKid k) (fun _ _ => rfl) fun _ => rfl)
          10 1 p (view s1.work) k
        rw [← attach_ok h2] at this
        have this : (infoOf s2.work k).banished = (infoOf s1.work k).banished := this
        rw [this, e1, hv, hb]
      exact ((d2.1 k).1.retired ((d2.1 k).1.banished e3)).2.2
    refine (d2.mid k).change ⟨?_, ?_⟩ (.inr ⟨(show 1 < 5 by decide), hst⟩)
    · rw [hv1]
      exact hk.1.back hb rfl
    · intro t _ hc
      rw [hv1] at hc
      have hc : v.compressionAt = some t := hc
      rw [hr.2.2] at hc
      cases hc
  · simp at h
    obtain ⟨rfl, rfl⟩ := h
    refine (d1.mid k).change ?_ (.inl (by rw [hv1, e1, hv]))
    rw [hv1]
    exact ⟨⟨hk.1.banished, fun hc => absurd rfl hc, hk.1.active, hk.1.retired⟩, hk.2⟩

theorem delegationChanged_mid {k : Key} {v w : Info} {d : Int} {s t : State} (hs : Held (Timely s.now) x s) (hv : infoOf s.work k = v)
    (h : delegationChanged k v d s = (.ok w, t)) : Mid (Timely s.now) x k w t := by
  have hk : Timely s.now v := by rw [← hv]; exact hs.1 k
  have hm : Mid (Timely s.now) x k v s := by rw [← hv]; exact hs.mid k
  unfold delegationChanged at h
  rw [M.get_bind_ok] at h
  split at h
  · simp at h; obtain ⟨rfl, rfl⟩ := h; exact hm
  · rename_i ha
    rw [M.orPanic_bind_ok] at h
    obtain ⟨d', -, h⟩ := h
    split at h
    · split at h
      · rename_i hc
        obtain ⟨hc1, hc2, -, hc3⟩ := hc
        have e := (Idle.scheduleBanishment k v).of h
        obtain ⟨hw, -⟩ := scheduleBanishment_ok h
        have href : v.referrer ≠ none := Option.isSome_iff_ne_none.1 hc1
        have hcomp : v.compressionAt = none := by
          cases hq : v.compressionAt with
          | none => rfl
          | some q =>
            have := hk.2 q href hq
            rw [hq] at hc3
            simp [overdue] at hc3
            omega
        have hr : Retired v := ⟨href, by simpa using ha, hcomp⟩
        refine (hm.same e.1 e.2).change ?_ (.inl (by rw [hw]))
        rw [hw]
        exact ⟨⟨fun _ => hr, fun _ => hr, hk.1.active, hk.1.retired⟩, hk.2⟩
      · simp at h; obtain ⟨rfl, rfl⟩ := h; exact hm
    · exact reviveDelegator_mid hs hv h

theorem balanceBody_held {k : Key} {s t : State} {b : Bool} (hs : Held (Timely s.now) x s) (h : balanceBody k s = (.ok b, t)) :
    Held (Timely s.now) x t ∧ (b = false → t = s) := by
  unfold balanceBody at h
  rw [M.get_bind_ok] at h
  split at h
  · simp at h
    exact ⟨by rw [← h.2]; exact hs, fun _ => h.2.symm⟩
  rw [M.bind_ok_iff] at h
  obtain ⟨r, s1, h1, h⟩ := h
  have d1 : Held (Timely s.now) x s1 := by
    refine update_held (Timely.lenient _) h1 fun w s2 h2 => ?_
    unfold ownBalance at h2
    rw [M.get_bind_ok] at h2
    rw [M.bind_ok_iff] at h2
    obtain ⟨v1, s3, h3, h2⟩ := h2
    simp at h2
    obtain ⟨⟨rfl, -⟩, rfl⟩ := h2
    have key : Mid (Timely s.now) x k v1 s3 := by
      split at h3
      · simp at h3
        obtain ⟨rfl, rfl⟩ := h3
        exact hs.mid k
      · rw [M.bind_ok_iff] at h3
        obtain ⟨_, s4, h4, h3⟩ := h3
        have e4 : s4 = { s with calls := s4.calls } := by
          unfold addCall at h4; simp at h4; rw [← h4]
        have w4 : s4.work = s.work := by rw [e4]
        have n4 : s4.now = s.now := by rw [e4]
        have i4 : s4.index = s.index := by rw [e4]
        rw [← n4] at hs ⊢
        exact delegationChanged_mid (hs.same w4 i4) (by rw [w4]) h3
    exact key.change ((Timely.lenient _).tot v1 _ key.2.1) (.inl rfl)
  rw [M.bind_ok_iff] at h
  obtain ⟨_, s2, h2, h⟩ := h
  simp at h
  obtain ⟨rfl, rfl⟩ := h
  refine ⟨?_, fun hc => by cases hc⟩
  split at h2
  · simp at h2; rw [← h2]; exact d1
  · refine climb_first (Timely.lenient _) (fun _ _ _ => .bind (.ite (.pure _) (.addCall _ _)) fun _ => .pure _) ?_ h2 d1 ?_
    · intro l k v s w s1 _ h
      rw [M.bind_ok_iff] at h
      obtain ⟨_, _, -, h⟩ := h
      simp at h
      rw [← h.1]
      rfl
    · intro a w s3 _ h
      rw [M.bind_ok_iff] at h
      obtain ⟨_, _, -, h⟩ := h
      simp at h
      rw [← h.1]
      exact ⟨(Timely.lenient _).tot _ _ (d1.1 a), rfl⟩

/-- No compression is overdue. -/
def OnTime (s : State) : Prop := ∀ k t, (infoOf s.store k).referrer ≠ none → (infoOf s.store k).compressionAt = some t → s.now ≤ t

theorem HeldS.timely {s : State} (h : HeldS Settled x s) (ht : OnTime s) : HeldS (Timely s.now) x s := ⟨fun j => ⟨h.1 j, ht j⟩, h.2⟩

theorem HeldS.settled {s : State} {now : Int} (h : HeldS (Timely now) x s) : HeldS Settled x s := ⟨fun j => (h.1 j).1, h.2⟩

theorem setPurse_held {e : Env} {a : Addr} {p : Purse} {s : State} (hs : HeldS (Timely s.now) x s)
    (hx : x → (setPurse obliging a p s).1 = .ok ()) : HeldS (Timely s.now) x (setPurse e a p s).2 := by
  unfold setPurse at hx ⊢
  rw [M.bind_ok (M.modify_apply _ s)] at hx ⊢
  exact bunch_held (s := { s with purse := fun b => if b = a then p else s.purse b }) (.balanceBody _) hs
    (fun b t ht => balanceBody_held (s := State.fresh { s with purse := fun b => if b = a then p else s.purse b }) hs ht) fun h => bunch_body (hx h)

theorem setPurse_now {e : Env} {a : Addr} {p : Purse} {s : State} : (setPurse e a p s).2.now = s.now := by
  unfold setPurse
  rw [M.bind_ok (M.modify_apply _ s)]
  generalize hs' : ({ s with purse := fun b => if b = a then p else s.purse b } : State) = s'
  have e : s'.now = s.now := by rw [← hs']
  have hf := Framed.balanceBody (text a) s'.fresh
  rw [← e]
  rcases bunch_end (e := ‹Env›) (.balanceBody (text a)) s' with ⟨-, -, h⟩ | ⟨t, h1, -, -, h⟩
  · exact h.trans hf.now
  · rw [h1] at hf; exact h.trans hf.now

theorem setPurse_held_ok {e : Env} {a : Addr} {p : Purse} {s t : State} (hs : HeldS (Timely s.now) x s) (h : setPurse e a p s = (.ok (), t)) :
    HeldS (Timely t.now) x t := by
  have hn : t.now = s.now := by
    have := setPurse_now (e := e) (a := a) (p := p) (s := s)
    rw [h] at this; exact this
  rw [hn]
  unfold setPurse at h
  rw [M.modify_bind_ok] at h
  exact bunch_held_ok (s := { s with purse := fun b => if b = a then p else s.purse b }) (.balanceBody _) hs h
    (fun b t ht => balanceBody_held (s := State.fresh { s with purse := fun b => if b = a then p else s.purse b }) hs ht)

theorem pay_held {e : Env} {a : Addr} {y : Int} {s t : State} (hs : HeldS (Timely s.now) x s) (h : pay e a y s = (.ok (), t)) :
    HeldS (Timely t.now) x t := by
  unfold pay at h
  rw [M.get_bind_ok, M.errIf_bind_ok] at h
  obtain ⟨-, h⟩ := h
  rw [M.bind_ok_iff] at h
  obtain ⟨_, s1, h1, h⟩ := h
  rw [M.get_bind_ok] at h
  exact setPurse_held_ok (setPurse_held_ok hs h1) h

theorem setInfo_held {k : Key} {v : Info} {s : State} (hs : HeldS P x s) (hv : P v) (h : v.status = (infoOf s.store k).status) :
    HeldS P x { s with store := s.store.set k v } := by
  have e : ∀ j, infoOf (s.store.set k v) j = if j = k then v else infoOf s.store j := fun j => infoOf_set _ _ _ _
  refine ⟨fun j => ?_, fun hx => ⟨(hs.2 hx).nodup, fun n j => ?_⟩⟩
  · show P (infoOf (s.store.set k v) j)
    rw [e]
    split
    · exact hv
    · exact hs.1 j
  · show (n, j) ∈ s.index ↔ 5 ≤ n ∧ (infoOf (s.store.set k v) j).status = n
    rw [e, (hs.2 hx).mem n j]
    by_cases hj : j = k
    · rw [if_pos hj, h, hj]
    · rw [if_neg hj]

theorem cancelTransition_held {k : Key} {s : State} (hs : HeldS Settled x s) : HeldS Settled x (cancelTransition k s).2 := by
  unfold cancelTransition setInfo
  rw [M.bind_ok (M.get_apply s)]
  rw [M.modify_apply]
  exact setInfo_held hs (⟨(hs.1 k).banished, (hs.1 k).awaiting, (hs.1 k).active, (hs.1 k).retired⟩) rfl

theorem requestTransition_held {e : Env} {k : Key} {d : Option Key} {s t : State} (hs : HeldS Settled x s) (ho : OnTime s)
    (h : requestTransition e k d s = (.ok (), t)) : HeldS Settled x t := by
  unfold requestTransition at h
  rw [M.bind_ok_iff] at h
  obtain ⟨_, s0, h0, h⟩ := h
  have e0 : s0 = s := (validateTransition_ok h0).1
  subst e0
  rw [M.get_bind_ok, M.bind_ok_iff] at h
  obtain ⟨_, s1, h1, h⟩ := h
  have f1 : HeldS Settled x s1 := by
    split at h1
    · exact (pay_held (hs.timely ho) h1).settled
    · simp at h1; rw [← h1]; exact hs
  rw [M.get_bind_ok, M.bind_ok_iff] at h
  obtain ⟨_, s2, h2, h⟩ := h
  have f2 : HeldS Settled x s2 := by
    unfold setInfo at h2
    simp at h2
    rw [← h2]
    exact setInfo_held f1 (⟨(f1.1 k).banished, (f1.1 k).awaiting, (f1.1 k).active, (f1.1 k).retired⟩) rfl
  have e2 : t.store = s2.store := request_quiet h
  have e3 := ((Idle.request _).of h).2
  unfold HeldS
  rw [e2, e3]
  exact f2

/-! ### Transitions -/

theorem moveTotals_held (hl : Lenient P) {y : What → Nat → Int} : ∀ (n l : Nat) (a b : Option Key) (s t : State),
    moveTotals y n l a b s = (.ok (), t) → Held P x s → Held P x t := by
  have one : ∀ {a : Key} {sign : Int} {l : Nat} {s t : State} {r : Option Key},
      update a true (fun v => (pure (v.addTree sign y l, v.referrer) : Act (Info × Option Key))) s = (.ok r, t) → Held P x s → Held P x t := by
    intro a sign l s t r h hs
    refine update_idle hl h hs (.pure _) fun w s1 h1 => ?_
    simp at h1
    rw [← h1.1.1]
    exact ⟨hl.tot _ _ (hs.1 a), rfl⟩
  intro n
  induction n with
  | zero => intro l a b s t h hs; simp [moveTotals] at h; rw [← h]; exact hs
  | succ n ih =>
    intro l a b s t h hs
    unfold moveTotals at h
    split at h
    · simp at h; rw [← h]; exact hs
    · rw [M.bind_ok_iff] at h
      obtain ⟨a', s1, h1, h⟩ := h
      have d1 : Held P x s1 := by
        cases a with
        | none => simp at h1; rw [← h1.2]; exact hs
        | some a => exact one h1 hs
      rw [M.bind_ok_iff] at h
      obtain ⟨b', s2, h2, h⟩ := h
      have d2 : Held P x s2 := by
        cases b with
        | none => simp at h2; rw [← h2.2]; exact d1
        | some b => exact one h2 d1
      exact ih (l + 1) a' b' s2 t h d2

theorem moveBody_held {k a b : Key} {r : Info} {s t : State} {y : Bool} (hs : Held Settled x s) (hne : a ≠ b) (hb : ¬ Retired (infoOf s.work b))
    (h : moveBody k r a b s = (.ok y, t)) : Held Settled x t ∧ y = true := by
  unfold moveBody at h
  rw [M.bind_ok_iff] at h
  obtain ⟨old, s1, h1, h⟩ := h
  have d1 : Held Settled x s1 := by
    refine update_idle Settled.lenient h1 hs (.bind (.panicIf _) fun _ => .pure _) fun w s2 h2 => ?_
    unfold leave at h2
    rw [M.panicIf_bind_ok] at h2
    obtain ⟨hc, h2⟩ := h2
    simp at h2
    rw [← h2.1.1]
    have hc : k ∈ (infoOf s.work a).referrals := by simpa using hc
    refine ⟨(hs.1 a).lists fun hr => absurd hr ((hs.1 a).busy hc), rfl⟩
  have e1 : core (infoOf s1.work b) = core (infoOf s.work b) := by
    obtain ⟨w, s2, h2, -, hv, -⟩ := update_ok h1
    have hs2 : s2 = s := by
      unfold leave at h2
      rw [M.panicIf_bind_ok] at h2
      obtain ⟨-, h2⟩ := h2
      simp at h2
      exact h2.2.symm
    have := congrFun hv b
    rw [upd_ne _ _ (Ne.symm hne), hs2] at this
    exact this
  rw [M.bind_ok_iff] at h
  obtain ⟨new, s2, h2, h⟩ := h
  have d2 : Held Settled x s2 := by
    refine update_idle Settled.lenient h2 d1 (.pure _) fun w s3 h3 => ?_
    unfold join at h3
    simp at h3
    rw [← h3.1.1]
    refine ⟨(d1.1 b).lists fun hr => absurd (hr.of_core e1) hb, rfl⟩
  rw [M.bind_ok_iff] at h
  obtain ⟨_, s3, h3, h⟩ := h
  simp at h
  obtain ⟨rfl, rfl⟩ := h
  exact ⟨moveTotals_held Settled.lenient 9 2 old new s2 s3 h3 d2, rfl⟩

theorem affirmTransition_held {e : Env} {k : Key} {s t : State} (hs : HeldS Settled x s) (h : affirmTransition e k s = (.ok (), t)) :
    HeldS Settled x t := by
  obtain ⟨a, b, hra, htb, hab, hkb, hcl, -, -, -, -, -⟩ := affirmTransition_ok h
  have hra : (infoOf s.store k).referrer = some a := hra
  have htb : (infoOf s.store k).transition = some b := htb
  unfold affirmTransition at h
  rw [M.get_bind_ok, M.bind_ok_iff] at h
  obtain ⟨_, s0, h0, h⟩ := h
  obtain ⟨rfl, -⟩ := validateTransition_ok h0
  rw [M.bind_ok_iff] at h
  obtain ⟨_, s1, h1, h⟩ := h
  have e1 : s1 = { s0 with store := s0.store.set k { infoOf s0.store k with referrer := (infoOf s0.store k).transition, transition := none } } := by
    unfold setInfo at h1; simp at h1; exact h1.symm
  rw [hra, htb] at h
  dsimp only at h
  rw [must_ok_iff] at h
  have f1 : HeldS Settled x s1 := by
    rw [e1]
    exact setInfo_held hs ((hs.1 k).moved (by rw [hra]; simp) (by rw [htb]; simp)) rfl
  have eb : infoOf s1.store b = infoOf s0.store b := by
    rw [e1]
    show infoOf (s0.store.set k _) b = _
    rw [infoOf_set, if_neg (Ne.symm hkb)]
  refine bunch_held_ok (.moveBody k (infoOf s0.store k) a b) f1 h fun y t ht => ?_
  obtain ⟨h1, rfl⟩ := moveBody_held (s := s1.fresh) f1.fresh hab (by
    show ¬ Retired (infoOf s1.store b)
    rw [eb]
    exact not_retired_of_open hcl) ht
  exact ⟨h1, fun hc => by cases hc⟩

theorem resolveTransition_held {e : Env} {g k : Key} {b : Bool} {s t : State} (hs : HeldS Settled x s)
    (h : resolveTransition e g k b s = (.ok (), t)) : HeldS Settled x t := by
  unfold resolveTransition at h
  rw [M.get_bind_ok, M.errIf_bind_ok] at h
  obtain ⟨-, h⟩ := h
  split at h
  · exact affirmTransition_held hs h
  · have := cancelTransition_held (k := k) hs
    rw [h] at this
    exact this

/-! ### Downgrades -/

theorem downgradeBody_held {k : Key} {s t : State} {b : Bool} (hs : Held Settled x s) (h : downgradeBody k s = (.ok b, t)) :
    Held Settled x t ∧ b = true := by
  unfold downgradeBody at h
  rw [M.bind_ok_iff] at h
  obtain ⟨_, s1, h1, h⟩ := h
  have d1 : Held Settled x s1 := by
    refine update_held Settled.lenient h1 fun w s2 h2 => ?_
    unfold downgradeSelf at h2
    rw [M.get_bind_ok] at h2
    split at h2
    · simp at h2
      obtain ⟨rfl, rfl⟩ := h2
      exact hs.mid k
    split at h2
    · simp at h2
    rw [M.bind_ok_iff] at h2
    obtain ⟨w', s3, h3, h2⟩ := h2
    simp at h2
    obtain ⟨rfl, rfl⟩ := h2
    have hle : (if (infoOf s.work k).status - 1 = 8 then 7 else (infoOf s.work k).status - 1) ≤ (infoOf s.work k).status := by
      split <;> omega
    obtain ⟨m1, e1⟩ := setStatus_mid h3 (hs.mid k) (Settled.lenient.check _ _ (infoOf s.work k).downgradeAt (hs.1 k) (.inl hle))
    exact m1.change (Settled.lenient.check w' w'.status none m1.2.1 (.inl (le_refl _))) (.inl rfl)
  rw [M.bind_ok_iff] at h
  obtain ⟨_, s2, h2, h⟩ := h
  simp at h
  obtain ⟨rfl, rfl⟩ := h
  have := (Idle.addCall _ _).of h2
  exact ⟨d1.same this.1 this.2, rfl⟩

theorem performDowngrade_held {e : Env} {k : Key} {s : State} (hs : HeldS Settled x s)
    (hx : x → (performDowngrade obliging k s).1 = .ok ()) : HeldS Settled x (performDowngrade e k s).2 := by
  refine bunch_held (.downgradeBody _) hs (fun b t ht => ?_) fun h => bunch_body (hx h)
  obtain ⟨h1, rfl⟩ := downgradeBody_held (s := s.fresh) hs.fresh ht
  exact ⟨h1, fun hc => by cases hc⟩

/-! ### Compression -/

theorem compressSelf_mid {k : Key} {v w old : Info} {s t : State} (hm : Mid Settled x k v s) (hna : v.active = false)
    (h : compressSelf k v s = (.ok (w, old), t)) : Mid Settled x k w t := by
  unfold compressSelf at h
  rw [M.errIf_bind_ok] at h
  obtain ⟨hr, h⟩ := h
  have hr : v.referrer ≠ none := by
    intro hc; rw [hc] at hr; simp at hr
  rw [M.bind_ok_iff] at h
  obtain ⟨_, s1, h1, h⟩ := h
  have i1 := (Idle.addCall _ _).of h1
  rw [M.bind_ok_iff] at h
  obtain ⟨w1, s2, h2, h⟩ := h
  have key : ∀ (n : Nat) (y : Option Int), n < 5 → Settled { v with
      referrals := [], activeReferrals := []
      tot := fun x l => if x ≠ .active ∧ l = 0 then v.tot x l else 0
      compressionAt := none, status := n, banishmentAt := y } := fun n y hn =>
    ⟨fun _ => ⟨hr, hna, rfl⟩, fun _ => ⟨hr, hna, rfl⟩, fun _ => rfl, fun _ => ⟨rfl, rfl, hn⟩⟩
  have m2 : Mid Settled x k w1 s2 ∧ w1 = { v with
      referrals := [], activeReferrals := []
      tot := fun x l => if x ≠ .active ∧ l = 0 then v.tot x l else 0
      compressionAt := none, status := 1 } := by
    have e2 := setStatus_result h2
    refine ⟨?_, e2⟩
    unfold setStatus at h2
    rw [M.get_bind_ok] at h2
    split at h2
    · rename_i hs
      simp at h2
      obtain ⟨-, rfl⟩ := h2
      refine (hm.same i1.1 i1.2).change ?_ (.inl ?_)
      · rw [e2]; exact key 1 v.banishmentAt (by decide)
      · rw [e2]; exact hs.symm
    · rw [M.bind_ok_iff] at h2
      obtain ⟨_, s3, h3, h2⟩ := h2
      simp at h2 h3
      obtain ⟨-, rfl⟩ := h2
      rw [← h3]
      refine ⟨fun j hj => ?_, ?_, fun hx => ?_⟩
      · show Settled (infoOf s1.work j)
        rw [i1.1]
        exact hm.1 j hj
      · rw [e2]; exact key 1 v.banishmentAt (by decide)
      · have := (hm.2.2 hx).reindex (k := k) (old := v.status) (new := 1) (by rw [if_pos rfl])
        refine ⟨by rw [← i1.2] at this; exact this.nodup, fun m j => ?_⟩
        have := this.mem m j
        show (m, j) ∈ reindex s1.index v.status 1 k ↔ 5 ≤ m ∧ (if j = k then w1.status else (infoOf s1.work j).status) = m
        rw [i1.2, i1.1, e2]
        dsimp only at this ⊢
        rw [this]
        by_cases hj : j = k
        · rw [if_pos hj, if_pos hj]
        · rw [if_neg hj, if_neg hj, if_neg hj]
  rw [M.bind_ok_iff] at h
  obtain ⟨_, s3, h3, h⟩ := h
  have i3 := (Idle.addCall _ _).of h3
  rw [M.orPanic_bind_ok] at h
  obtain ⟨d, -, h⟩ := h
  rw [M.get_bind_ok, M.bind_ok_iff] at h
  obtain ⟨w2, s4, h4, h⟩ := h
  simp at h
  obtain ⟨⟨rfl, -⟩, rfl⟩ := h
  split at h4
  · have i4 := (Idle.scheduleBanishment _ _).of h4
    obtain ⟨ew, -⟩ := scheduleBanishment_ok h4
    refine ((m2.1.same i3.1 i3.2).same i4.1 i4.2).change ?_ (.inl (by rw [ew]))
    rw [ew, m2.2]
    exact key 1 _ (by decide)
  · simp at h4
    obtain ⟨rfl, rfl⟩ := h4
    exact m2.1.same i3.1 i3.2

/-- Referrals get another referrer. -/
theorem redirect_held {p : Key} : ∀ (l : List Key) (s t : State), Held Settled x s →
    (∀ c ∈ l, (infoOf s.work c).referrer ≠ none) →
    M.forEach l (fun c => update c false (fun v => (pure ({ v with referrer := some p }, ()) : Act (Info × Unit)))) s = (.ok (), t) →
    Held Settled x t := by
  intro l
  induction l with
  | nil => intro s t hs _ h; simp at h; rw [← h]; exact hs
  | cons c l ih =>
    intro s t hs hr h
    rw [M.forEach_cons, M.bind_ok_iff] at h
    obtain ⟨_, s1, h1, h⟩ := h
    obtain ⟨w, s2, h2, hw⟩ := update_plain h1
    simp at h2
    obtain ⟨rfl, rfl⟩ := h2
    refine ih s1 t ?_ ?_ h
    · refine update_idle Settled.lenient h1 hs (.pure _) fun w s1 h3 => ?_
      simp at h3
      obtain ⟨rfl, -⟩ := h3
      exact ⟨(hs.1 c).moved (y := (infoOf s.work c).transition) (hr c (.head _)) (by simp), rfl⟩
    · intro c' hc'
      rw [hw, infoOf_set]
      split
      · simp
      · exact hr c' (.tail _ hc')

theorem compressBody_held {k : Key} {s t : State} {y : Bool} (hg : Good s) (hs : HeldS Settled x s) (hc : (infoOf s.store k).compressionAt ≠ none)
    (h : compressBody k s.fresh = (.ok y, t)) : Held Settled x t ∧ y = true := by
  have hk := hs.1 k
  have hnr : ¬ Retired (infoOf s.store k) := fun hr => hc hr.2.2
  have hna : (infoOf s.store k).active = false := by
    cases ha : (infoOf s.store k).active with
    | false => rfl
    | true => exact absurd (hk.active ha) hc
  have hnb : (infoOf s.store k).banished = false := by
    cases hb : (infoOf s.store k).banished with
    | false => rfl
    | true => exact absurd (hk.banished hb) hnr
  have hrm : ∀ a c, c ∈ (infoOf s.fresh.work a).referrals → (infoOf s.fresh.work c).referrer = some a := fun a c h => ((hg.mem a c).1 h).1
  have hrp : ∀ p, (infoOf s.fresh.work k).referrer = some p → p ≠ k ∧ k ∈ (infoOf s.fresh.work p).referrals := fun p hp =>
    ⟨(referrer_busy hg hs.1 hp hnb).1, (hg.mem p k).2 ⟨hp, hnb⟩⟩
  have hs : Held Settled x s.fresh := hs
  have hna : (infoOf s.fresh.work k).active = false := hna
  generalize s.fresh = s at *
  unfold compressBody at h
  rw [M.bind_ok_iff] at h
  obtain ⟨old, s1, h1, h⟩ := h
  obtain ⟨w, s0, h0, hw⟩ := update_plain h1
  obtain ⟨q0, rfl, ⟨p, hp⟩, b, hcw⟩ := compressSelf_ok h0
  have d1 : Held Settled x s1 := update_held Settled.lenient h1 fun w s1 h3 => compressSelf_mid (hs.mid k) hna h3
  have w1 : w.referrer = (infoOf s.work k).referrer := (congrArg Info.referrer hcw : (core w).referrer = _)
  obtain ⟨hpk, hkp⟩ := hrp p hp
  rw [M.bind_ok_iff] at h
  obtain ⟨_, s2, h2, h⟩ := h
  rw [hp] at h2
  have d2 := redirect_held _ s1 s2 d1 (fun c hc => by
    rw [hw, infoOf_set]
    split
    · rw [w1, hp]; simp
    · rw [q0.work, hrm k c hc]; simp) h2
  have hbusy : k ∈ (infoOf s2.work p).referrals := by
    have hv := congrArg Info.referrals (congrFun (redirect_forEach _ s1 s2 h2).2 p)
    have e : (redirect (infoOf s.work k).referrals (some p) (view s1.work) p).referrals = (infoOf s1.work p).referrals := by
      unfold redirect
      split <;> rfl
    have hv : (infoOf s2.work p).referrals = _ := hv
    rw [hv, e, hw, infoOf_set, if_neg hpk, q0.work]
    exact hkp
  rw [M.bind_ok_iff] at h
  obtain ⟨_, s3, h3, h⟩ := h
  simp at h
  obtain ⟨rfl, rfl⟩ := h
  refine ⟨climb_first Settled.lenient (fun _ _ _ => .bind (.addCall _ _) fun _ => .pure _) ?_ h3 d2 ?_, rfl⟩
  · intro l a v s w s1 hl h
    rw [M.bind_ok_iff] at h
    obtain ⟨_, _, -, h⟩ := h
    simp at h
    rw [← h.1, if_neg (by omega)]
    rfl
  · intro a w s4 ha h
    rw [M.bind_ok_iff] at h
    obtain ⟨_, _, -, h⟩ := h
    simp at h
    rw [← h.1]
    rw [hp] at ha
    injection ha with ha
    subst ha
    exact ⟨(d2.1 p).lists fun hr => absurd hr ((d2.1 p).busy hbusy), rfl⟩

theorem performCompression_held {e : Env} {k : Key} {s : State} (hg : Good s) (hs : HeldS Settled x s)
    (hx : x → (performCompression obliging k s).1 = .ok ()) : HeldS Settled x (performCompression e k s).2 := by
  unfold performCompression at hx ⊢
  rw [M.bind_ok (M.get_apply s)] at hx ⊢
  cases hd : notDue (infoOf s.store k).compressionAt s.now with
  | true => rw [if_pos rfl]; exact hs
  | false =>
    rw [hd, if_neg (by simp)] at hx
    rw [if_neg (by simp)]
    refine bunch_held (.compressBody _) hs (fun b t ht => ?_) fun h => bunch_body (hx h)
    obtain ⟨h1, rfl⟩ := compressBody_held hg hs (by intro hc; rw [hc] at hd; cases hd) ht
    exact ⟨h1, fun hc => by cases hc⟩

/-! ### Banishment -/

theorem detach_held {k : Key} {c d : Int} {p : Option Key} {s t : State} (hs : Held Settled x s)
    (h : detach k c d p s = (.ok (), t)) : Held Settled x t := by
  cases p with
  | none => simp [detach] at h; rw [← h]; exact hs
  | some p =>
    unfold detach at h
    rw [M.bind_ok_iff] at h
    obtain ⟨next, s1, h1, h⟩ := h
    have d1 : Held Settled x s1 := by
      refine update_idle Settled.lenient h1 hs (.pure _) fun w s2 h2 => ?_
      simp at h2
      rw [← h2.1.1]
      refine ⟨(hs.1 p).lists (a := (infoOf s.work p).activeReferrals) fun hr => ⟨?_, ((hs.1 p).retired hr).2.1⟩, rfl⟩
      rw [((hs.1 p).retired hr).1]
      rfl
    split at h
    · simp at h; rw [← h]; exact d1
    · refine climb_held Settled.lenient (fun _ _ _ => .pure _) ?_ 9 2 next s1 t (by omega) h d1
      intro l k v s w s1 _ h
      simp at h
      rw [← h.1]
      rfl

theorem banishBody_held {k : Key} {s t : State} {y : Bool} (hs : Held Settled x s) (hd : (infoOf s.work k).banishmentAt ≠ none)
    (h : banishBody k s = (.ok y, t)) : Held Settled x t ∧ y = true := by
  have hk := hs.1 k
  have hr := hk.awaiting hd
  unfold banishBody at h
  rw [M.bind_ok_iff] at h
  obtain ⟨v, s1, h1, h⟩ := h
  have d1 : Held Settled x s1 := by
    refine update_held Settled.lenient h1 fun w s2 h2 => ?_
    unfold banishSelf at h2
    rw [M.get_bind_ok, M.errIf_bind_ok] at h2
    obtain ⟨-, h2⟩ := h2
    rw [M.errIf_bind_ok] at h2
    obtain ⟨-, h2⟩ := h2
    rw [M.orPanic_bind_ok] at h2
    obtain ⟨d, -, h2⟩ := h2
    rw [M.errIf_bind_ok] at h2
    obtain ⟨-, h2⟩ := h2
    simp at h2
    obtain ⟨⟨rfl, -⟩, rfl⟩ := h2
    refine (hs.mid k).change ⟨fun _ => ⟨hr.1, hr.2.1, rfl⟩, fun hc => absurd rfl hc, fun _ => rfl, fun _ =>
      ⟨(hk.retired hr).1, (hk.retired hr).2.1, (show 0 < 5 by decide)⟩⟩ (.inr ⟨(show 0 < 5 by decide), (hk.retired hr).2.2⟩)
  rw [M.errIf_bind_ok] at h
  obtain ⟨-, h⟩ := h
  rw [M.bind_ok_iff] at h
  obtain ⟨_, s3, h3, h⟩ := h
  simp at h
  obtain ⟨rfl, rfl⟩ := h
  exact ⟨detach_held d1 h3, rfl⟩

theorem banish_held {e : Env} {k : Key} {s : State} (hs : HeldS Settled x s) (hd : (infoOf s.store k).banishmentAt ≠ none)
    (hx : x → (banish obliging k s).1 = .ok ()) : HeldS Settled x (banish e k s).2 := by
  have e1 : (banish e k s).2 = (bunch e (banishBody k) s).2 := by
    unfold banish
    rw [M.bind_apply]
    rcases bunch e (banishBody k) s with ⟨r, t⟩
    cases r with
    | ok u => cases hc : e.call .banished k <;> rfl
    | err => rfl
    | panic => rfl
  rw [e1]
  refine bunch_held (.banishBody _) hs (fun b t ht => ?_) fun h => bunch_body (e := obliging) ?_
  · obtain ⟨h1, rfl⟩ := banishBody_held (s := s.fresh) hs.fresh hd ht
    exact ⟨h1, fun hc => by cases hc⟩
  · have := hx h
    unfold banish at this
    rw [M.bind_apply] at this
    rcases hb : bunch obliging (banishBody k) s with ⟨r, t⟩
    rw [hb] at this
    cases r with
    | ok u => rfl
    | err => cases this
    | panic => cases this

theorem subscribe_held {e : Env} {k : Key} {s t : State} (hg : Good s) (hs : HeldS Settled x s) (h : subscribe e k s = (.ok (), t)) :
    HeldS Settled x t := by
  unfold subscribe at h
  rw [M.bind_ok_iff] at h
  obtain ⟨_, s1, h1, h⟩ := h
  have b1 : (infoOf s1.store k).banished = false := by
    have h2 := h1
    unfold returnIfBanished at h2
    rw [M.get_bind_ok] at h2
    split at h2
    · exact comeBack_banished h2
    · rename_i hb
      simp at h2; rw [← h2]; simpa using hb
  exact setActive_held (returnIfBanished_good hg h1) (returnIfBanished_held hs h1) (fun _ => b1) h

end Verif.Referral
