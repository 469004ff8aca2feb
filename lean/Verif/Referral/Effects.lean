import Verif.Referral.View

/-! The effect of every operation of the module on the view of the store. -/
namespace Verif.Referral

/-- A walk up that adds `d` and, at the first account, changes the lists by `L`. -/
def bump (d : What → Int) (L : Info → Info) (l : Nat) (v : Info) : Info := (if l = 1 then L v else v).add d l

def addKid (k : Key) (v : Info) : Info := { v with referrals := v.referrals ++ [k] }
def dropKid (k : Key) (v : Info) : Info := { v with referrals := removeFast v.referrals k }
def addActive (k : Key) (v : Info) : Info := { v with activeReferrals := addSorted v.activeReferrals k }
def dropActive (k : Key) (v : Info) : Info := { v with activeReferrals := removeOrdered v.activeReferrals k }

theorem climbV_congr {g g' : Nat → Info → Info} : ∀ (n m : Nat) (k : Option Key) (I : View), (∀ l, m ≤ l → g l = g' l) →
    climbV g n m k I = climbV g' n m k I := by
  intro n
  induction n with
  | zero => intros; rfl
  | succ n ih =>
    intro m k I h
    cases k with
    | none => rfl
    | some k =>
      unfold climbV
      rw [h m le_rfl]
      exact ih _ _ _ fun l hl => h l (by omega)

theorem climbV_id {g : Nat → Info → Info} : ∀ (n m : Nat) (k : Option Key) (I : View), (∀ l v, m ≤ l → g l v = v) →
    climbV g n m k I = I := by
  intro n
  induction n with
  | zero => intros; rfl
  | succ n ih =>
    intro m k I h
    cases k with
    | none => rfl
    | some k =>
      unfold climbV
      rw [ih _ _ _ fun l v hl => h l v (by omega), h m _ le_rfl]
      funext j
      by_cases hj : j = k
      · subst hj; simp
      · rw [upd_ne _ _ hj]

theorem add_zero (v : Info) (d : What → Int) (l : Nat) (h : ∀ w, d w = 0) : v.add d l = v := by
  have : (fun w j => if j = l then v.tot w j + d w else v.tot w j) = v.tot := by
    funext w j
    split <;> simp [h]
  unfold Info.add
  rw [this]

theorem money_zero (w : What) : money 0 0 w = 0 := by cases w <;> rfl

/-! ### Bunch updaters -/

/-- The state in which a bunch updater starts. -/
def State.fresh (s : State) : State := { s with work := s.store, calls := [] }

/-- Everything outside this module's stores, the index and the schedule is as before, and no account was lost. -/
structure Outer (s t : State) : Prop where
  purse : t.purse = s.purse
  now : t.now = s.now
  day : t.day = s.day
  dust : t.dust = s.dust
  price : t.price = s.price
  collector : t.collector = s.collector
  grows : ∀ k, s.store.has k = true → t.store.has k = true

theorem Outer.refl (s : State) : Outer s s := ⟨rfl, rfl, rfl, rfl, rfl, rfl, fun _ h => h⟩
theorem Outer.trans {s t u : State} (h : Outer s t) (h' : Outer t u) : Outer s u :=
  ⟨h'.purse.trans h.purse, h'.now.trans h.now, h'.day.trans h.day, h'.dust.trans h.dust,
    h'.price.trans h.price, h'.collector.trans h.collector, fun k hk => h'.grows k (h.grows k hk)⟩

/-- Either nothing is written or everything. -/
theorem bunch_cases {e : Env} {m : Act Bool} (hm : Framed m) (s : State) :
    Outer s (bunch e m s).2 ∧ ((bunch e m s).2.store = s.store ∨
      ∃ t, m s.fresh = (.ok true, t) ∧ (bunch e m s).2.store = t.work) := by
  have hf := hm s.fresh
  have h0 : (bunch e m) s = (m >>= fun b => if b then commit e else pure ()) s.fresh := rfl
  have hout : ∀ t, Frame s.fresh t → Outer s t := fun t h =>
    ⟨h.purse, h.now, h.day, h.dust, h.price, h.collector, fun k hk => by rw [h.store]; exact hk⟩
  rcases hr : m s.fresh with ⟨r, t⟩
  rw [hr] at hf
  cases r with
  | err =>
    rw [h0, M.bind_err hr]
    exact ⟨hout t hf, .inl hf.store⟩
  | panic =>
    rw [h0, M.bind_panic hr]
    exact ⟨hout t hf, .inl hf.store⟩
  | ok b =>
    rw [h0, M.bind_ok hr]
    cases b with
    | false =>
      rw [if_neg (by simp)]
      exact ⟨hout t hf, .inl hf.store⟩
    | true =>
      rw [if_pos rfl]
      have hc : (commit e t).2 = { t with store := t.work } := by
        unfold commit
        rw [M.bind_ok (M.modify_apply _ t), M.bind_ok (M.get_apply _)]
        generalize hc : (!List.all _ _) = c
        cases c <;> rfl
      rw [hc]
      refine ⟨⟨hf.purse, hf.now, hf.day, hf.dust, hf.price, hf.collector, ?_⟩, .inr ⟨t, rfl, rfl⟩⟩
      intro k hk
      exact hf.grows k hk

theorem bunch_ok {e : Env} {m : Act Bool} {s t : State} (h : bunch e m s = (.ok (), t)) :
    ∃ b t', m s.fresh = (.ok b, t') ∧ (b = true → t.store = t'.work) ∧ (b = false → t = t') := by
  have h0 : (bunch e m) s = (m >>= fun b => if b then commit e else pure ()) s.fresh := rfl
  rw [h0, M.bind_ok_iff] at h
  obtain ⟨b, t', h1, h2⟩ := h
  refine ⟨b, t', h1, ?_, ?_⟩
  · intro hb
    rw [if_pos hb] at h2
    unfold commit at h2
    rw [M.modify_bind_ok, M.get_bind_ok, M.errIf_ok_iff] at h2
    rw [h2.2]
  · intro hb
    rw [if_neg (by simp [hb])] at h2
    simp at h2; exact h2.symm

/-! ### Registration -/

theorem Framed.appendBody (p c : Key) (a b : Bool) : Framed (appendBody p c a b) := by
  unfold Referral.appendBody
  refine .bind Still.get.framed fun s => .bind (.put _ _) fun _ => .bind (.update fun v => ?_) fun r =>
    .bind (Still.errIf _).framed fun _ => .bind (.climb (fun l k v => ?_) _ _ _) fun _ => (Still.pure _).framed
  · exact (Still.bind (.addCall _ _) fun _ => .pure _).framed
  · exact (Still.bind (.addCall _ _) fun _ => .pure _).framed

/-- The record of a new account -/
def freshInfo (s : State) (p c : Key) (setc : Bool) : Info :=
  core (if setc then { newInfo (some p) (s.balance c) (s.delegated c) with compressionAt := some (s.now + s.compressionPeriod) }
    else newInfo (some p) (s.balance c) (s.delegated c))

theorem appendBody_ok {p c : Key} {skip setc b : Bool} {s t : State} (h : appendBody p c skip setc s = (.ok b, t)) :
    b = true ∧ t.work.has p = true ∧ t.work.has c = true ∧
    (skip = false → (upd (view s.work) c (freshInfo s p c setc) p).closed s.now s.month = false) ∧
    view t.work = climbV (bump (money (s.balance c) (s.delegated c)) (addKid c)) 10 1 (some p)
      (upd (view s.work) c (freshInfo s p c setc)) := by
  unfold appendBody at h
  rw [M.get_bind_ok, M.bind_ok_iff] at h
  obtain ⟨_, s1, h1, h⟩ := h
  have e1 : s1 = { s with work := s.work.set c (if setc = true then { newInfo (some p) (s.balance c) (s.delegated c) with
      compressionAt := some (s.now + s.compressionPeriod) } else newInfo (some p) (s.balance c) (s.delegated c)) } := by
    unfold put at h1; simp at h1; exact h1.symm
  have v1 : view s1.work = upd (view s.work) c (freshInfo s p c setc) := by
    rw [e1]; exact view_set _ _ _
  have hh1 : s1.work.has c = true := by
    rw [e1]
    show (s.work.set c _).has c = true
    rw [has_set]; simp
  rw [M.bind_ok_iff] at h
  obtain ⟨r, s2, h2, h⟩ := h
  obtain ⟨w, s3, h3, hfr, hv, hhas⟩ := update_ok h2
  rw [M.bind_ok_iff] at h3
  obtain ⟨_, s4, h4, h3⟩ := h3
  have q4 := Still.addCall .stakeChanged p s1
  rw [h4] at q4
  simp at h3
  obtain ⟨⟨hw, hr⟩, rfl⟩ := h3
  rw [M.errIf_bind_ok] at h
  obtain ⟨hcl, h⟩ := h
  rw [M.bind_ok_iff] at h
  obtain ⟨_, s5, h5, h⟩ := h
  simp at h
  obtain ⟨rfl, rfl⟩ := h
  obtain ⟨hfr5, hv5⟩ := climb_ok (g := fun l v => v.add (money (s.balance c) (s.delegated c)) l) (by
    intro l k v s w t h
    rw [M.bind_ok_iff] at h
    obtain ⟨_, s', h', h⟩ := h
    have := Still.addCall .stakeChanged k s
    rw [h'] at this
    simp at h
    obtain ⟨rfl, rfl⟩ := h
    exact ⟨this, rfl⟩) _ _ _ _ _ h5
  refine ⟨rfl, hfr5.grows _ hhas, hfr5.grows _ (hfr.grows _ (q4.grows _ hh1)), ?_, ?_⟩
  · intro hs
    subst hs
    rw [← hr] at hcl
    simp only [Bool.not_false, Bool.true_and] at hcl
    rw [← v1]
    exact hcl
  · rw [hv5, hv, q4.work, v1]
    have hup : r.1 = ((upd (view s.work) c (freshInfo s p c setc)) p).referrer := by
      rw [← hr, ← v1]; rfl
    rw [hup, ← hw, ← v1]
    symm
    show climbV _ 9 2 _ _ = _
    rw [climbV_congr (g' := fun l v => v.add (money (s.balance c) (s.delegated c)) l) 9 2 _ _ (by
      intro l hl; funext v; unfold bump; rw [if_neg (by omega)])]
    rfl

/-! ### Compression -/

theorem Framed.compressBody (k : Key) : Framed (compressBody k) := by
  unfold Referral.compressBody
  refine .bind (.update fun v => ?_) fun old => .bind (.forEach fun c => .update fun v => (Still.pure _).framed) fun _ =>
    .bind (.climb (fun l k v => (Still.bind (.addCall _ _) fun _ => .pure _).framed) _ _ _) fun _ => (Still.pure _).framed
  unfold compressSelf
  refine (Still.bind (.errIf _) fun _ => .bind (.addCall _ _) fun _ => .bind (.setStatus _ _ _) fun _ =>
    .bind (.addCall _ _) fun _ => .bind (.orPanic _) fun _ => .bind .get fun _ => .bind ?_ fun _ => .pure _).framed
  exact .ite (.scheduleBanishment _ _) (.pure _)

/-- A compressed account -/
def compressed (v : Info) (b : Option Int) : Info :=
  { core v with
    referrals := [], activeReferrals := [], tot := fun x l => if x ≠ .active ∧ l = 0 then v.tot x l else 0, compressionAt := none
    banishmentAt := b }

/-- The referrals get a new referrer. -/
def redirect (l : List Key) (p : Option Key) (I : View) : View := fun j => if j ∈ l then { I j with referrer := p } else I j

/-- An ancestor of a compressed account -/
def squeeze (old : Info) (l : Nat) (v : Info) : Info :=
  if l = 1 then { squeezed old.tot 1 v with
      referrals := v.referrals ++ old.referrals
      activeReferrals := mergeSorted v.activeReferrals old.activeReferrals }
  else squeezed old.tot l v

theorem compressSelf_ok {k : Key} {v w old : Info} {s t : State} (h : compressSelf k v s = (.ok (w, old), t)) :
    Quiet s t ∧ old = v ∧ (∃ p, v.referrer = some p) ∧ ∃ b, core w = compressed v b := by
  unfold compressSelf at h
  rw [M.errIf_bind_ok] at h
  obtain ⟨hp, h⟩ := h
  rw [M.bind_ok_iff] at h
  obtain ⟨_, s1, h1, h⟩ := h
  have q1 := Still.addCall .stakeChanged k s
  rw [h1] at q1
  rw [M.bind_ok_iff] at h
  obtain ⟨w1, s2, h2, h⟩ := h
  have q2 := (Still.setStatus _ _ _).of h2
  have c2 := setStatus_core h2
  rw [M.bind_ok_iff] at h
  obtain ⟨_, s3, h3, h⟩ := h
  have q3 := Still.addCall .statusUpdated k s2
  rw [h3] at q3
  rw [M.orPanic_bind_ok] at h
  obtain ⟨d, -, h⟩ := h
  rw [M.get_bind_ok, M.bind_ok_iff] at h
  obtain ⟨w2, s4, h4, h⟩ := h
  simp at h
  obtain ⟨⟨rfl, rfl⟩, rfl⟩ := h
  have hpp : ∃ p, v.referrer = some p := by
    cases hr : v.referrer with
    | none => rw [hr] at hp; simp at hp
    | some p => exact ⟨p, rfl⟩
  split at h4
  · have q4 := Still.scheduleBanishment k w1 s3
    rw [h4] at q4
    refine ⟨((q1.trans q2).trans q3).trans q4, rfl, hpp, ?_⟩
    unfold scheduleBanishment at h4
    rw [M.get_bind_ok, M.bind_ok_iff] at h4
    obtain ⟨_, s5, -, h4⟩ := h4
    simp at h4
    refine ⟨some (s3.now + s3.month), ?_⟩
    rw [← h4.1]
    have : core { w1 with banishmentAt := some (s3.now + s3.month) } =
        { core w1 with banishmentAt := some (s3.now + s3.month) } := rfl
    rw [this, c2]
    rfl
  · simp at h4
    obtain ⟨rfl, rfl⟩ := h4
    refine ⟨(q1.trans q2).trans q3, rfl, hpp, v.banishmentAt, ?_⟩
    rw [c2]
    rfl

theorem redirect_forEach {p : Option Key} : ∀ (l : List Key) (s t : State),
    M.forEach l (fun c => update c false (fun v => pure ({ v with referrer := p }, ()))) s = (.ok (), t) →
      Frame s t ∧ view t.work = redirect l p (view s.work) := by
  intro l
  induction l with
  | nil =>
    intro s t h
    simp at h
    rw [h]
    exact ⟨.refl _, by funext j; simp [redirect]⟩
  | cons c l ih =>
    intro s t h
    rw [M.forEach_cons, M.bind_ok_iff] at h
    obtain ⟨_, s1, h1, h⟩ := h
    obtain ⟨w, s2, h2, hfr, hv, -⟩ := update_ok h1
    simp at h2
    obtain ⟨rfl, rfl⟩ := h2
    obtain ⟨hfr2, hv2⟩ := ih _ _ h
    refine ⟨hfr.trans hfr2, ?_⟩
    rw [hv2, hv]
    funext j
    unfold redirect
    by_cases hj : j = c
    · subst hj
      rw [upd_self, if_pos (List.mem_cons_self)]
      split <;> rfl
    · rw [upd_ne _ _ hj]
      simp [hj]

theorem compressBody_ok {k : Key} {b : Bool} {s t : State} (h : compressBody k s = (.ok b, t)) :
    b = true ∧ ∃ p x, (view s.work k).referrer = some p ∧
      view t.work = climbV (squeeze (view s.work k)) 10 1 (some p)
        (redirect (view s.work k).referrals (some p) (upd (view s.work) k (compressed (view s.work k) x))) := by
  unfold compressBody at h
  rw [M.bind_ok_iff] at h
  obtain ⟨old, s1, h1, h⟩ := h
  obtain ⟨w, s2, h2, hfr, hv, -⟩ := update_ok h1
  obtain ⟨q, rfl, ⟨p, hp⟩, x, hw⟩ := compressSelf_ok h2
  rw [M.bind_ok_iff] at h
  obtain ⟨_, s3, h3, h⟩ := h
  obtain ⟨hfr3, hv3⟩ := redirect_forEach _ _ _ h3
  rw [M.bind_ok_iff] at h
  obtain ⟨_, s4, h4, h⟩ := h
  simp at h
  obtain ⟨rfl, rfl⟩ := h
  obtain ⟨hfr4, hv4⟩ := climb_ok (g := squeeze (view s.work k)) (by
    intro l a v s' w t h
    rw [M.bind_ok_iff] at h
    obtain ⟨_, s'', h', h⟩ := h
    have := Still.addCall .stakeChanged a s'
    rw [h'] at this
    simp at h
    obtain ⟨rfl, rfl⟩ := h
    refine ⟨this, ?_⟩
    unfold squeeze
    split
    · rename_i e; subst e; rfl
    · rfl) _ _ _ _ _ h4
  refine ⟨rfl, p, x, hp, ?_⟩
  rw [hv4, hv3, hv, q.work, hw, hp]
  rfl

end Verif.Referral
