import Verif.Referral.Retire

/-! Properties C74 and C75: accounts that are out of business, and the index of high statuses; the operations. -/
namespace Verif.Referral
open Relation

variable {P : Info → Prop} {x : Prop}

/-! ### From the body to the operation -/

/-- Between operations -/
def HeldS (P : Info → Prop) (x : Prop) (s : State) : Prop :=
  (∀ j, P (infoOf s.store j)) ∧ (x → Sync s.index fun j => (infoOf s.store j).status)

theorem HeldS.fresh {s : State} (h : HeldS P x s) : Held P x s.fresh := h

theorem bunch_ends {e : Env} {m : Act Bool} (hm : Framed m) (s : State) :
    ((bunch e m s).2.store = s.store ∧ ∃ r t, m s.fresh = (r, t) ∧ r ≠ .ok true ∧ (bunch e m s).2.index = t.index) ∨
    ∃ t, m s.fresh = (.ok true, t) ∧ (bunch e m s).2.store = t.work ∧ (bunch e m s).2.index = t.index := by
  have hf := hm s.fresh
  have h0 : (bunch e m) s = (m >>= fun b => if b then commit e else pure ()) s.fresh := rfl
  rcases hr : m s.fresh with ⟨r, t⟩
  rw [hr] at hf
  cases r with
  | err => rw [h0, M.bind_err hr]; exact .inl ⟨hf.store, _, _, rfl, by simp, rfl⟩
  | panic => rw [h0, M.bind_panic hr]; exact .inl ⟨hf.store, _, _, rfl, by simp, rfl⟩
  | ok b =>
    rw [h0, M.bind_ok hr]
    cases b with
    | false => exact .inl ⟨hf.store, _, _, rfl, by simp, rfl⟩
    | true =>
      right
      refine ⟨t, rfl, ?_⟩
      rw [if_pos rfl]
      unfold commit
      rw [M.bind_ok (M.modify_apply _ t), M.bind_ok (M.get_apply _)]
      dsimp only
      generalize (!t.calls.all fun c => e.call c.1 c.2) = y
      cases y <;> exact ⟨rfl, rfl⟩

/-- A world in which all callbacks succeed -/
def obliging : Env := ⟨fun _ _ => true⟩

theorem bunch_body {e : Env} {m : Act Bool} {s : State} (h : (bunch e m s).1 = .ok ()) : ∃ b t, m s.fresh = (.ok b, t) := by
  rcases hb : bunch e m s with ⟨r, t⟩
  rw [hb] at h
  have h : r = .ok () := h
  subst h
  obtain ⟨b, t', h1, -⟩ := bunch_ok hb
  exact ⟨b, t', h1⟩

theorem bunch_held {e : Env} {m : Act Bool} (hm : Framed m) {s : State} (hs : HeldS P x s)
    (h : ∀ b t, m s.fresh = (.ok b, t) → Held P x t ∧ (b = false → t = s.fresh)) (hx : x → ∃ b t, m s.fresh = (.ok b, t)) :
    HeldS P x (bunch e m s).2 := by
  rcases bunch_ends (e := e) hm s with ⟨h1, r, t, h2, h3, h4⟩ | ⟨t, h1, h2, h3⟩
  · unfold HeldS
    rw [h1, h4]
    refine ⟨hs.1, fun hx' => ?_⟩
    obtain ⟨b, t', ht⟩ := hx hx'
    rw [h2] at ht
    injection ht with e1 e2
    subst e1 e2
    cases b with
    | true => exact absurd rfl h3
    | false =>
      rw [(h false t h2).2 rfl]
      exact hs.2 hx'
  · unfold HeldS
    rw [h2, h3]
    exact (h true t h1).1

theorem bunch_held_ok {e : Env} {m : Act Bool} (hm : Framed m) {s t : State} (hs : HeldS P x s) (hb : bunch e m s = (.ok (), t))
    (h : ∀ b t, m s.fresh = (.ok b, t) → Held P x t ∧ (b = false → t = s.fresh)) : HeldS P x t := by
  have := bunch_held (e := e) hm hs h fun _ => bunch_body (e := e) (by rw [hb])
  rw [hb] at this
  exact this

theorem tx_held {α : Type} {m : Act α} {s : State} (hs : HeldS P x s) (h : ∀ a t, m s = (.ok a, t) → HeldS P x t) : HeldS P x (M.tx m s) := by
  rcases M.tx_cases m s with ⟨y, hy⟩ | ⟨-, hy⟩
  · exact h y _ hy
  · rw [hy]; exact hs

/-! ### Records -/

theorem not_retired_of_open {v : Info} {now month : Int} (h : v.closed now month = false) : ¬ Retired v := by
  rintro ⟨h1, h2, h3⟩
  unfold Info.closed at h
  rw [h2, h3, Option.isSome_iff_ne_none.2 h1] at h
  cases hb : v.banished <;> rw [hb] at h <;> cases h

theorem settled_closed {v : Info} {now month : Int} (h : Settled v) (hb : v.banished = true) : v.closed now month = true := by
  cases hc : v.closed now month with
  | true => rfl
  | false => exact absurd (h.banished hb) (not_retired_of_open hc)

/-- Other lists and totals -/
theorem Settled.lists {v : Info} (h : Settled v) {f : What → Nat → Int} {r a : List Key} (hr : Retired v → r = [] ∧ a = []) :
    Settled { v with tot := f, referrals := r, activeReferrals := a } :=
  ⟨h.banished, h.awaiting, h.active, fun hv => ⟨(hr hv).1, (hr hv).2, (h.retired hv).2.2⟩⟩

/-- Another referrer, transition -/
theorem Settled.moved {v : Info} (h : Settled v) {r : Option Key} {y : Option Key} (hr : v.referrer ≠ none) (hr' : r ≠ none) :
    Settled { v with referrer := r, transition := y } := by
  have key : Retired { v with referrer := r, transition := y } ↔ Retired v := ⟨fun h => ⟨hr, h.2⟩, fun h => ⟨hr', h.2⟩⟩
  refine ⟨fun hb => key.2 (h.banished hb), fun hb => key.2 (h.awaiting hb), h.active, fun hv => h.retired (key.1 hv)⟩

/-! ### Registration -/

theorem put_held {k : Key} {v : Info} {s t : State} (h : put k v s = (.ok (), t)) (hs : Held P x s) (hv : P v)
    (h1 : v.status < 5) (h2 : (infoOf s.work k).status < 5) : Held P x t := by
  unfold put at h
  simp at h
  rw [← h]
  exact ((hs.mid k).change hv (.inr ⟨h1, h2⟩)).held

theorem addTopLevel_held (hP : P (newInfo none 0 0)) (hl : Lenient P) {e : Env} {k : Key} {s t : State} (hs : HeldS P x s)
    (h : addTopLevel e k s = (.ok (), t)) : HeldS P x t := by
  unfold addTopLevel at h
  rw [recover_ok_iff, M.get_bind_ok, M.errIf_bind_ok] at h
  obtain ⟨hk, h⟩ := h
  have fr : Framed (do put k (newInfo none (s.balance k) (s.delegated k)); pure true : Act Bool) :=
    .bind (.put _ _) fun _ => (Still.pure _).framed
  refine bunch_held_ok fr hs h fun b t ht => ?_
  rw [M.bind_ok_iff] at ht
  obtain ⟨_, s1, h1, ht⟩ := ht
  simp at ht
  obtain ⟨rfl, rfl⟩ := ht
  refine ⟨put_held h1 hs.fresh (hl.tot _ (newInfo none (s.balance k) (s.delegated k)).tot hP) (show 1 < 5 by decide) ?_, fun hc => by cases hc⟩
  show (infoOf s.store k).status < 5
  rw [infoOf_of_not_has hk]
  decide

theorem appendBody_held (hl : Lenient P) {p c : Key} {skip setc : Bool} {s t : State} {b : Bool} (hs : Held P x s) (hc : (infoOf s.work c).status < 5)
    (hn : P (if setc then { newInfo (some p) (s.balance c) (s.delegated c) with compressionAt := some (s.now + s.compressionPeriod) }
      else newInfo (some p) (s.balance c) (s.delegated c)))
    (hk : ∀ v f, P v → (skip = false → v.closed s.now s.month = false) → P { v with tot := f, referrals := v.referrals ++ [c] })
    (h : appendBody p c skip setc s = (.ok b, t)) : Held P x t ∧ b = true := by
  unfold appendBody at h
  rw [M.get_bind_ok] at h
  dsimp only at h
  rw [M.bind_ok_iff] at h
  obtain ⟨_, s1, h1, h⟩ := h
  have d1 : Held P x s1 := put_held h1 hs hn (by cases setc <;> exact (show 1 < 5 by decide)) hc
  rw [M.bind_ok_iff] at h
  obtain ⟨r, s2, h2, h⟩ := h
  rw [M.errIf_bind_ok] at h
  obtain ⟨hr, h⟩ := h
  have d2 : Held P x s2 := by
    refine update_idle hl h2 d1 (.bind (.addCall _ _) fun _ => .pure _) fun w s3 h3 => ?_
    rw [M.bind_ok_iff] at h3
    obtain ⟨_, _, -, h3⟩ := h3
    simp at h3
    obtain ⟨⟨rfl, e⟩, -⟩ := h3
    refine ⟨hk (infoOf s1.work p) ((infoOf s1.work p).add (money (s.balance c) (s.delegated c)) 1).tot (d1.1 p) ?_, rfl⟩
    intro hsk
    rw [← e, hsk] at hr
    simp only [Bool.not_false, Bool.true_and] at hr
    exact hr
  rw [M.bind_ok_iff] at h
  obtain ⟨_, s3, h3, h⟩ := h
  simp at h
  obtain ⟨rfl, rfl⟩ := h
  refine ⟨climb_held hl (fun _ _ _ => .bind (.addCall _ _) fun _ => .pure _) ?_ 9 2 r.1 s2 s3 (by omega) h3 d2, rfl⟩
  intro l k v s w s1 _ h
  rw [M.bind_ok_iff] at h
  obtain ⟨_, _, -, h⟩ := h
  simp at h
  rw [← h.1]
  rfl

theorem appendChild_held (hl : Lenient P) {e : Env} {p c : Key} {skip setc : Bool} {s t : State} (hs : HeldS P x s)
    (hn : P (if setc then { newInfo (some p) (s.balance c) (s.delegated c) with compressionAt := some (s.now + s.compressionPeriod) }
      else newInfo (some p) (s.balance c) (s.delegated c)))
    (hk : ∀ v f, P v → (skip = false → v.closed s.now s.month = false) → P { v with tot := f, referrals := v.referrals ++ [c] })
    (h : appendChild e p c skip setc s = (.ok (), t)) : HeldS P x t := by
  unfold appendChild at h
  rw [M.get_bind_ok, M.errIf_bind_ok] at h
  obtain ⟨hh, h⟩ := h
  refine bunch_held_ok (.appendBody _ _ _ _) hs h fun b t ht => ?_
  have hc : (infoOf s.fresh.work c).status < 5 := by
    show (infoOf s.store c).status < 5
    rw [infoOf_of_not_has hh]
    decide
  obtain ⟨h1, rfl⟩ := appendBody_held (s := s.fresh) hl hs.fresh hc hn hk ht
  exact ⟨h1, fun hc => by cases hc⟩

/-! ### Activity -/

theorem activeBody_held (hl : Lenient P) {k : Key} {value check : Bool} {s t : State} {b : Bool} (hs : Held P x s)
    (h0 : (infoOf s.work k).active ≠ value → ∀ f y, (value = true → y = none) → (value = false → y = (infoOf s.work k).banishmentAt) →
      P { infoOf s.work k with tot := f, active := value, compressionAt := if value then none else some (s.now + s.compressionPeriod), banishmentAt := y })
    (h1 : ∀ a u f, (infoOf s.work k).referrer = some a → P u → (a ≠ k → u = infoOf s.work a) →
      P { u with tot := f, activeReferrals := if value then addSorted u.activeReferrals k else removeOrdered u.activeReferrals k })
    (h : activeBody k value check s = (.ok b, t)) : Held P x t ∧ (b = false → t = s) := by
  unfold activeBody at h
  rw [M.get_bind_ok] at h
  split at h
  · simp at h
    exact ⟨by rw [← h.2]; exact hs, fun _ => h.2.symm⟩
  rename_i hne
  rw [M.bind_ok_iff] at h
  obtain ⟨parent, s1, h2, h⟩ := h
  have key : parent = (infoOf s.work k).referrer ∧ Held P x s1 ∧ ∀ a, a ≠ k → infoOf s1.work a = infoOf s.work a := by
    obtain ⟨w, s2, h3, hw⟩ := update_plain h2
    have id := (Idle.activateSelf k value (infoOf s.work k)).of h3
    have hrec : parent = (infoOf s.work k).referrer ∧ ∃ f y, (value = true → y = none) ∧ (value = false → y = (infoOf s.work k).banishmentAt) ∧
        w = { infoOf s.work k with tot := f, active := value, compressionAt := if value then none else some (s.now + s.compressionPeriod), banishmentAt := y } := by
      unfold activateSelf at h3
      rw [M.get_bind_ok, M.bind_ok_iff] at h3
      obtain ⟨w1, s3, h4, h3⟩ := h3
      simp at h3
      obtain ⟨⟨rfl, hp⟩, -⟩ := h3
      refine ⟨hp.symm, ?_⟩
      cases hb : (infoOf s.work k).banishmentAt with
      | none =>
        rw [hb] at h4
        simp at h4
        refine ⟨((infoOf s.work k).add (people value) 0).tot, none, fun _ => rfl, fun _ => rfl, ?_⟩
        rw [← h4.1]
        simp only [Info.add]
        rw [hb]
      | some y =>
        rw [hb] at h4
        dsimp only at h4
        cases value with
        | true =>
          rw [if_pos rfl, M.bind_ok_iff] at h4
          obtain ⟨_, s4, -, h4⟩ := h4
          simp at h4
          refine ⟨((infoOf s.work k).add (people true) 0).tot, none, fun _ => rfl, (by simp), ?_⟩
          rw [← h4.1]
          rfl
        | false =>
          rw [if_neg (by simp)] at h4
          simp at h4
          refine ⟨((infoOf s.work k).add (people false) 0).tot, some y, (by simp), fun _ => rfl, ?_⟩
          rw [← h4.1]
          simp only [Info.add]
          rw [hb]
          rfl
    obtain ⟨hp, f, y, y1, y2, ew⟩ := hrec
    refine ⟨hp, ?_, ?_⟩
    · refine update_held hl h2 fun w' s2' h3' => ?_
      rw [h3] at h3'
      injection h3' with e1 e2
      subst e2
      injection e1 with e1
      have e1 : w = w' := congrArg Prod.fst e1
      subst e1
      refine ((hs.mid k).same id.1 id.2).change ?_ (.inl (by rw [ew]))
      rw [ew]
      exact h0 hne f y y1 y2
    · intro a ha
      rw [hw, infoOf_set, if_neg ha, id.1]
  obtain ⟨hp, d1, hrest⟩ := key
  rw [M.bind_ok_iff] at h
  obtain ⟨_, s2, h3, h⟩ := h
  have d2 : Held P x s2 := by
    refine climb_first hl (fun _ _ _ => .pure _) ?_ h3 d1 ?_
    · intro l k v s w s1 hl h
      simp at h
      rw [← h.1, if_neg (by omega)]
      rfl
    · intro a w s3 ha h4
      simp at h4
      rw [← h4.1]
      refine ⟨?_, rfl⟩
      exact h1 a (infoOf s1.work a) ((infoOf s1.work a).add (people value) 1).tot (by rw [← hp]; exact ha) (d1.1 a) (hrest a)
  rw [M.bind_ok_iff] at h
  obtain ⟨_, s3, h4, h⟩ := h
  simp at h
  obtain ⟨rfl, rfl⟩ := h
  refine ⟨?_, fun hc => by cases hc⟩
  split at h4
  · have := (Idle.request _).of h4
    exact d2.same this.1 this.2
  · simp at h4
    rw [← h4]
    exact d2

/-- A stored account that is not banished is among the referrals of its referrer, who therefore is not retired. -/
theorem referrer_busy {s : State} (hg : Good s) (hs : ∀ j, Settled (infoOf s.store j)) {k a : Key} (hr : (infoOf s.store k).referrer = some a)
    (hb : (infoOf s.store k).banished = false) : a ≠ k ∧ ¬ Retired (infoOf s.store a) := by
  have hm : k ∈ (infoOf s.store a).referrals := (hg.mem a k).2 ⟨hr, hb⟩
  refine ⟨?_, fun hc => ?_⟩
  · rintro rfl
    exact hg.irrefl hr
  · rw [((hs a).retired hc).1] at hm
    cases hm

/-- Settled records, perhaps with no compression overdue -/
inductive Kind : (Info → Prop) → Prop
  | settled : Kind Settled
  | timely (now : Int) : Kind (Timely now)

theorem Kind.lenient (h : Kind P) : Lenient P := by
  cases h
  · exact Settled.lenient
  · exact Timely.lenient _

theorem Kind.settled' (h : Kind P) {v : Info} (hv : P v) : Settled v := by
  cases h
  · exact hv
  · exact hv.1

theorem setActive_body {k : Key} {value check : Bool} {s t : State} {b : Bool} (hg : Good s) (hs : HeldS Settled x s)
    (hb : value = true → (infoOf s.store k).banished = false) (h : activeBody k value check s.fresh = (.ok b, t)) :
    Held Settled x t ∧ (b = false → t = s.fresh) := by
  refine activeBody_held Settled.lenient hs.fresh ?_ ?_ h
  · intro hne f y y1 y2
    have hk : Settled (infoOf s.store k) := hs.1 k
    cases value with
    | true =>
      have hb := hb rfl
      have hy := y1 rfl
      refine ⟨fun hc => ?_, fun hc => absurd hy hc, fun _ => rfl, fun hc => ?_⟩
      · have hc : (infoOf s.store k).banished = true := hc
        rw [hb] at hc; cases hc
      · cases hc.2.1
    | false =>
      have ha : (infoOf s.store k).active = true := by
        have : (infoOf s.store k).active ≠ false := hne
        simpa using this
      have hnr : ¬ Retired (infoOf s.store k) := fun hc => by have := hc.2.1; rw [ha] at this; cases this
      refine ⟨fun hc => absurd (hk.banished hc) hnr, fun hc => absurd (hk.awaiting ?_) hnr, fun hc => (by cases hc), fun hc => ?_⟩
      · have := y2 rfl
        rw [← show y = (infoOf s.store k).banishmentAt from this]
        exact hc
      · have := hc.2.2
        cases this
  · intro a u f hr hu hua
    cases value with
    | true =>
      obtain ⟨h1, h2⟩ := referrer_busy hg hs.1 hr (hb rfl)
      have eu : u = infoOf s.store a := hua h1
      refine hu.lists (r := u.referrals) fun hc => ?_
      rw [eu] at hc
      exact absurd hc h2
    | false =>
      refine hu.lists (r := u.referrals) fun hc => ⟨(hu.retired hc).1, ?_⟩
      rw [(hu.retired hc).2.1]
      rfl

theorem setActive_held {e : Env} {k : Key} {value check : Bool} {s t : State} (hg : Good s) (hs : HeldS Settled x s)
    (hb : value = true → (infoOf s.store k).banished = false) (h : setActive e k value check s = (.ok (), t)) : HeldS Settled x t :=
  bunch_held_ok (.activeBody _ _ _) hs h fun _ _ ht => setActive_body hg hs hb ht

theorem expire_held {e : Env} {k : Key} {s : State} (hg : Good s) (hs : HeldS Settled x s)
    (hx : x → (setActive obliging k false true s).1 = .ok ()) : HeldS Settled x (setActive e k false true s).2 :=
  bunch_held (.activeBody _ _ _) hs (fun _ _ ht => setActive_body hg hs (by simp) ht) fun h => bunch_body (hx h)

theorem register_held {e : Env} {c p : Key} {a : Bool} {s t : State} (hg : Good s) (hne : c ≠ p) (hs : HeldS Settled x s)
    (h : register e c p a s = (.ok (), t)) : HeldS Settled x t := by
  unfold register at h
  rw [M.bind_ok_iff] at h
  obtain ⟨_, s1, h1, h⟩ := h
  have d1 : HeldS Settled x s1 := by
    refine appendChild_held Settled.lenient hs ?_ ?_ h1
    · rw [if_pos rfl]
      refine ⟨fun hc => (by cases hc), fun hc => absurd rfl hc, fun hc => (by cases hc), fun hc => ?_⟩
      have := hc.2.2
      cases this
    · intro v f hv hc
      exact hv.lists (a := v.activeReferrals) fun hr => absurd hr (not_retired_of_open (hc rfl))
  have g1 : Good s1 := by
    have := appendChild_good (e := e) (skip := false) (setc := true) hg hne
    rw [h1] at this; exact this
  have b1 := appendChild_banished h1
  rw [M.get_bind_ok, M.bind_ok_iff] at h
  obtain ⟨_, s2, h2, h⟩ := h
  have e2 : s2.store = s1.store := request_quiet h2
  have d2 : HeldS Settled x s2 := by
    unfold HeldS
    rw [e2, ((Idle.request _).of h2).2]
    exact d1
  have g2 : Good s2 := by
    unfold Good
    rw [e2]
    exact g1
  split at h
  · exact setActive_held g2 d2 (fun _ => by rw [e2]; exact b1) h
  · simp at h; rw [← h]; exact d2

end Verif.Referral
