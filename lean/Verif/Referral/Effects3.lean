import Verif.Referral.Effects2

/-! The effect of the operations on the view of the store, continued. -/
namespace Verif.Referral
open Relation

/-! ### Coming back -/

theorem Framed.comeBackBody (k : Key) : Framed (comeBackBody k) := by
  unfold Referral.comeBackBody
  refine .bind (.update fun v => ?_) fun r => .bind (.attach _ _ _ _) fun _ => (Still.pure _).framed
  exact (Still.bind .get fun s => .bind (.orPanic _) fun p => .pure _).framed

theorem comeBackBody_ok {k : Key} {b : Bool} {s t : State} (h : comeBackBody k s = (.ok b, t)) :
    b = true ∧ ∃ parent n, openAncestor s.work s.now s.month n (infoOf s.work k).referrer = some parent ∧
      view t.work = climbV (bump (money ((view s.work k).tot .coins 0) ((view s.work k).tot .delegated 0)) (addKid k)) 10 1 parent
        (upd (view s.work) k { view s.work k with referrer := parent, banished := false, banishmentAt := none, compressionAt := none }) := by
  unfold comeBackBody at h
  rw [M.bind_ok_iff] at h
  obtain ⟨r, s1, h1, h⟩ := h
  obtain ⟨w, s2, h2, hfr, hv, -⟩ := update_ok h1
  rw [M.get_bind_ok, M.orPanic_bind_ok] at h2
  obtain ⟨parent, hp, h2⟩ := h2
  simp at h2
  obtain ⟨⟨rfl, rfl⟩, rfl⟩ := h2
  rw [M.bind_ok_iff] at h
  obtain ⟨_, s3, h3, h⟩ := h
  simp at h
  obtain ⟨rfl, rfl⟩ := h
  refine ⟨rfl, parent, s.fuel, hp, ?_⟩
  rw [attach_ok h3, hv]
  rfl

/-! ### Activity -/

theorem Framed.activateSelf (k : Key) (value : Bool) (v : Info) : Still (activateSelf k value v) := by
  unfold Referral.activateSelf
  refine .bind .get fun s => .bind ?_ fun _ => .pure _
  cases v.banishmentAt with
  | none => exact .pure _
  | some t => exact .ite (.bind (.request _) fun _ => .pure _) (.pure _)

theorem Framed.activeBody (k : Key) (value check : Bool) : Framed (activeBody k value check) := by
  unfold Referral.activeBody
  refine .bind Still.get.framed fun s => .ite (Still.pure _).framed (.bind (.update fun v => (Framed.activateSelf _ _ _).framed) fun p =>
    .bind (.climb (fun _ _ _ => (Still.pure _).framed) _ _ _) fun _ => .bind ?_ fun _ => (Still.pure _).framed)
  exact (Still.ite (.request _) (.pure _)).framed

/-- The account itself after (de)activation -/
def activated (v : Info) (value : Bool) (x b : Option Int) : Info :=
  { v.add (people value) 0 with active := value, compressionAt := x, banishmentAt := b }

def relist (value : Bool) (k : Key) : Info → Info := if value then addActive k else dropActive k

theorem activeBody_ok {k : Key} {value check b : Bool} {s t : State} (h : activeBody k value check s = (.ok b, t)) :
    (b = false ∧ t = s ∧ (view s.work k).active = value) ∨
    (b = true ∧ (view s.work k).active = !value ∧ t.work.has k = true ∧ ∃ x,
      view t.work = climbV (bump (people value) (relist value k)) 10 1 (view s.work k).referrer
        (upd (view s.work) k (activated (view s.work k) value
          (if value then none else some (s.now + s.compressionPeriod)) x))) := by
  unfold activeBody at h
  rw [M.get_bind_ok] at h
  split at h
  · rename_i ha
    simp at h
    obtain ⟨rfl, rfl⟩ := h
    exact .inl ⟨rfl, rfl, ha⟩
  · rename_i ha
    right
    rw [M.bind_ok_iff] at h
    obtain ⟨p, s1, h1, h⟩ := h
    obtain ⟨w, s2, h2, hfr, hv, hhas⟩ := update_ok h1
    rw [M.bind_ok_iff] at h
    obtain ⟨_, s3, h3, h⟩ := h
    rw [M.bind_ok_iff] at h
    obtain ⟨_, s4, h4, h⟩ := h
    simp at h
    obtain ⟨rfl, rfl⟩ := h
    have q4 : Quiet s3 s4 := (Still.ite (.request _) (.pure _)).of h4
    have q2 := (Framed.activateSelf _ _ _).of h2
    obtain ⟨rfl, x, hw⟩ : p = (infoOf s.work k).referrer ∧ ∃ x, core w = activated (core (infoOf s.work k)) value
        (if value then none else some (s.now + s.compressionPeriod)) x := by
      unfold activateSelf at h2
      rw [M.get_bind_ok, M.bind_ok_iff] at h2
      obtain ⟨w1, s5, h5, h2⟩ := h2
      simp at h2
      obtain ⟨⟨rfl, rfl⟩, rfl⟩ := h2
      refine ⟨rfl, ?_⟩
      cases hb : (infoOf s.work k).banishmentAt with
      | none =>
        rw [hb] at h5
        simp at h5
        refine ⟨none, ?_⟩
        rw [← h5.1, ← hb]; rfl
      | some y =>
        rw [hb] at h5
        dsimp only at h5
        split at h5
        · rw [M.bind_ok_iff] at h5
          obtain ⟨_, s6, -, h5⟩ := h5
          rw [M.pure_ok] at h5
          refine ⟨none, ?_⟩
          rename_i hval _
          rw [← h5.1, if_pos hval]; rfl
        · rw [M.pure_ok] at h5
          rename_i hval
          refine ⟨some y, ?_⟩
          rw [← h5.1, ← hb, if_neg hval]; rfl
    obtain ⟨hfr3, hv3⟩ := climb_ok (g := bump (people value) (relist value k)) (by
      intro l a v s' w t h
      simp at h
      obtain ⟨rfl, rfl⟩ := h
      refine ⟨.refl _, ?_⟩
      unfold bump relist
      split
      · cases value <;> rfl
      · rfl) _ _ _ _ _ h3
    refine ⟨rfl, ?_, q4.grows _ (hfr3.grows _ hhas), x, ?_⟩
    · show (infoOf s.work k).active = !value
      cases h' : (infoOf s.work k).active <;> cases value <;> simp_all
    · rw [q4.work, hv3, hv, q2.work, hw]
      rfl

/-! ### Banishment -/

theorem Framed.banishBody (k : Key) : Framed (banishBody k) := by
  unfold Referral.banishBody
  refine .bind (.update fun v => ?_) fun r => .bind (Still.errIf _).framed fun _ => .bind (.detach _ _ _ _) fun _ => (Still.pure _).framed
  unfold banishSelf
  exact (Still.bind .get fun s => .bind (.errIf _) fun _ => .bind (.errIf _) fun _ => .bind (.orPanic _) fun _ =>
    .bind (.errIf _) fun _ => .pure _).framed

theorem banishBody_ok {k : Key} {b : Bool} {s t : State} (h : banishBody k s = (.ok b, t)) :
    b = true ∧ ∃ p, (view s.work k).referrer = some p ∧ (view s.work k).active = false ∧ (view s.work k).banished = false ∧
      (view s.work k).tot .delegated 0 ≤ s.dust ∧
      view t.work = climbV (bump (money (-(view s.work k).tot .coins 0) (-(view s.work k).tot .delegated 0)) (dropKid k)) 10 1 (some p)
        (upd (view s.work) k { view s.work k with banished := true, compressionAt := none, banishmentAt := none }) := by
  unfold banishBody at h
  rw [M.bind_ok_iff] at h
  obtain ⟨v, s1, h1, h⟩ := h
  obtain ⟨w, s2, h2, hfr, hv, -⟩ := update_ok h1
  unfold banishSelf at h2
  rw [M.get_bind_ok, M.errIf_bind_ok, M.errIf_bind_ok, M.orPanic_bind_ok] at h2
  obtain ⟨hr, ha, d, hd, h2⟩ := h2
  rw [M.errIf_bind_ok] at h2
  obtain ⟨hdd, h2⟩ := h2
  simp at h2
  obtain ⟨⟨rfl, rfl⟩, rfl⟩ := h2
  rw [M.errIf_bind_ok] at h
  obtain ⟨hb, h⟩ := h
  rw [M.bind_ok_iff] at h
  obtain ⟨_, s3, h3, h⟩ := h
  simp at h
  obtain ⟨rfl, rfl⟩ := h
  cases hp : (infoOf s.work k).referrer with
  | none => rw [hp] at hr; simp at hr
  | some p =>
    refine ⟨rfl, p, hp, ha, hb, ?_, ?_⟩
    · unfold toInt64? at hd
      split at hd
      · simp at hd
        simp at hdd
        show (infoOf s.work k).tot .delegated 0 ≤ s.dust
        omega
      · simp at hd
    · rw [detach_ok h3, hv]
      rw [show some p = (infoOf s.work k).referrer from hp.symm]
      rfl

/-! ### Transitions -/

def left (subject : Key) (r v : Info) : Info :=
  { v.addTree (-1) r.tot 1 with
    referrals := removeFast (removeFast v.referrals subject) subject
    activeReferrals := if r.active then removeFast v.activeReferrals subject else v.activeReferrals }

def joined (subject : Key) (r v : Info) : Info :=
  { v.addTree 1 r.tot 1 with
    referrals := v.referrals ++ [subject]
    activeReferrals := if r.active then v.activeReferrals ++ [subject] else v.activeReferrals }

/-- Add a tree to an optional account. -/
def addTo (sign : Int) (x : What → Nat → Int) (l : Nat) (a : Option Key) (I : View) : View :=
  match a with
  | none => I
  | some a => upd I a ((I a).addTree sign x l)

def upOf (I : View) (a : Option Key) : Option Key := a.bind fun k => (I k).referrer

def moveV (x : What → Nat → Int) : Nat → Nat → Option Key → Option Key → View → View
  | 0, _, _, _, I => I
  | n + 1, l, old, new, I =>
    if old = new then I
    else moveV x n (l + 1) (upOf I old) (upOf (addTo (-1) x l old I) new) (addTo 1 x l new (addTo (-1) x l old I))

theorem Framed.moveTotals (x : What → Nat → Int) : ∀ (n l : Nat) (old new : Option Key), Framed (moveTotals x n l old new) := by
  intro n
  induction n with
  | zero => intros; exact (Still.pure _).framed
  | succ n ih =>
    intro l old new
    unfold Referral.moveTotals
    refine .ite (Still.pure _).framed (.bind ?_ fun _ => .bind ?_ fun _ => ih _ _ _)
    · cases old with
      | none => exact (Still.pure _).framed
      | some a => exact .update fun v => (Still.pure _).framed
    · cases new with
      | none => exact (Still.pure _).framed
      | some a => exact .update fun v => (Still.pure _).framed

theorem moveStep_ok {sign : Int} {x : What → Nat → Int} {l : Nat} {o o' : Option Key} {s t : State}
    (h : (match o with
      | none => (pure none : Act (Option Key))
      | some a => update a true (fun v => pure (v.addTree sign x l, v.referrer))) s = (.ok o', t)) :
    Frame s t ∧ o' = upOf (view s.work) o ∧ view t.work = addTo sign x l o (view s.work) := by
  cases o with
  | none =>
    simp at h
    obtain ⟨rfl, rfl⟩ := h
    exact ⟨.refl _, rfl, rfl⟩
  | some a =>
    dsimp only at h
    obtain ⟨w, s2, h2, hfr, hv, -⟩ := update_ok h
    simp at h2
    obtain ⟨⟨rfl, rfl⟩, rfl⟩ := h2
    exact ⟨hfr, rfl, hv⟩

theorem moveTotals_ok (x : What → Nat → Int) : ∀ (n l : Nat) (old new : Option Key) (s t : State),
    moveTotals x n l old new s = (.ok (), t) → Frame s t ∧ view t.work = moveV x n l old new (view s.work) := by
  intro n
  induction n with
  | zero =>
    intro l old new s t h
    simp [moveTotals] at h
    rw [h]
    exact ⟨.refl _, rfl⟩
  | succ n ih =>
    intro l old new s t h
    unfold moveTotals at h
    unfold moveV
    split at h
    · rename_i he
      simp at h
      rw [h, if_pos he]
      exact ⟨.refl _, rfl⟩
    · rename_i he
      rw [if_neg he]
      rw [M.bind_ok_iff] at h
      obtain ⟨o1, s1, h1, h⟩ := h
      rw [M.bind_ok_iff] at h
      obtain ⟨o2, s2, h2, h⟩ := h
      obtain ⟨f1, rfl, v1⟩ := moveStep_ok h1
      obtain ⟨f2, rfl, v2⟩ := moveStep_ok h2
      obtain ⟨f3, v3⟩ := ih _ _ _ _ _ h
      refine ⟨(f1.trans f2).trans f3, ?_⟩
      rw [v3, v2, v1]

theorem Framed.moveBody (subject : Key) (r : Info) (a b : Key) : Framed (moveBody subject r a b) := by
  unfold Referral.moveBody
  refine .bind (.update fun v => ?_) fun _ => .bind (.update fun v => (Still.pure _).framed) fun _ =>
    .bind (.moveTotals _ _ _ _ _) fun _ => (Still.pure _).framed
  exact (Still.bind (.panicIf _) fun _ => .pure _).framed

theorem moveBody_ok {subject : Key} {r : Info} {a b : Key} {x : Bool} {s t : State} (h : moveBody subject r a b s = (.ok x, t)) :
    x = true ∧ subject ∈ (view s.work a).referrals ∧ t.work.has b = true ∧
      let I1 := upd (view s.work) a (left subject r (view s.work a))
      let I2 := upd I1 b (joined subject r (I1 b))
      view t.work = moveV r.tot 9 2 (view s.work a).referrer (I1 b).referrer I2 := by
  unfold moveBody at h
  rw [M.bind_ok_iff] at h
  obtain ⟨o1, s1, h1, h⟩ := h
  obtain ⟨w1, s2, h2, f1, v1, -⟩ := update_ok h1
  unfold leave at h2
  rw [M.panicIf_bind_ok] at h2
  obtain ⟨hm, h2⟩ := h2
  simp at h2
  obtain ⟨⟨rfl, rfl⟩, rfl⟩ := h2
  rw [M.bind_ok_iff] at h
  obtain ⟨o2, s3, h3, h⟩ := h
  obtain ⟨w2, s4, h4, f2, v2, hb⟩ := update_ok h3
  unfold join at h4
  simp at h4
  obtain ⟨⟨rfl, rfl⟩, rfl⟩ := h4
  rw [M.bind_ok_iff] at h
  obtain ⟨_, s5, h5, h⟩ := h
  simp at h
  obtain ⟨rfl, rfl⟩ := h
  obtain ⟨f3, v3⟩ := moveTotals_ok _ _ _ _ _ _ _ h5
  have hm' : subject ∈ (infoOf s.work a).referrals := by simpa using hm
  refine ⟨rfl, hm', f3.grows _ hb, ?_⟩
  dsimp only
  have e1 : view s1.work = upd (view s.work) a (left subject r (view s.work a)) := v1
  have e2 : view s3.work = upd (view s1.work) b (joined subject r (view s1.work b)) := v2
  have e3 : (infoOf s1.work b).referrer = (view s1.work b).referrer := rfl
  rw [v3, e2, e3, e1]
  rfl

/-! ### Downgrades -/

theorem Framed.downgradeBody (k : Key) : Framed (downgradeBody k) := by
  unfold Referral.downgradeBody
  refine .bind (.update fun v => ?_) fun _ => .bind (Still.addCall _ _).framed fun _ => (Still.pure _).framed
  unfold downgradeSelf
  exact (Still.bind .get fun s => .ite (.pure _) (.ite .panic (.bind (.setStatus _ _ _) fun _ => .pure _))).framed

theorem performDowngrade_store {e : Env} {k : Key} (s : State) :
    Outer s (performDowngrade e k s).2 ∧ view (performDowngrade e k s).2.store = view s.store := by
  unfold performDowngrade
  obtain ⟨ho, h⟩ := bunch_cases (e := e) (Framed.downgradeBody k) s
  refine ⟨ho, ?_⟩
  rcases h with h | ⟨t, ht, h⟩
  · rw [h]
  · rw [h]
    unfold downgradeBody at ht
    rw [M.bind_ok_iff] at ht
    obtain ⟨_, s1, h1, ht⟩ := ht
    rw [M.bind_ok_iff] at ht
    obtain ⟨_, s2, h2, ht⟩ := ht
    simp at ht
    subst ht
    rw [((Still.addCall _ _).of h2).work]
    obtain ⟨w, s3, h3, hfr, hv, -⟩ := update_ok h1
    unfold downgradeSelf at h3
    rw [M.get_bind_ok] at h3
    rw [hv]
    have key : Quiet s.fresh s3 ∧ core w = view s.store k := by
      split at h3
      · simp at h3
        obtain ⟨rfl, rfl⟩ := h3
        exact ⟨.refl _, rfl⟩
      · split at h3
        · simp at h3
        · rw [M.bind_ok_iff] at h3
          obtain ⟨w1, s4, h4, h3⟩ := h3
          simp at h3
          obtain ⟨rfl, rfl⟩ := h3
          refine ⟨(Still.setStatus _ _ _).of h4, ?_⟩
          have := setStatus_core h4
          show core w1 = _
          rw [this]; rfl
    obtain ⟨q, hw⟩ := key
    rw [q.work, hw]
    funext j
    by_cases hj : j = k
    · subst hj; simp [State.fresh]
    · rw [upd_ne _ _ hj]; rfl

end Verif.Referral
