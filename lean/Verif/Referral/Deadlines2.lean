import Verif.Referral.Deadlines

/-! Property C65: the dates of downgrade, compression and banishment in the records are backed by tasks of the scheduler; the operations. -/
namespace Verif.Referral
open Relation
open Verif.Schedule (Pending)

/-- Every date in the future is backed by a task. -/
def Safe (s : State) : Prop := Backed (fun _ _ _ => False) s.now s.store s.sched

theorem bunch_end {e : Env} {m : Act Bool} (hm : Framed m) (s : State) :
    ((bunch e m s).2.store = s.store ∧ (bunch e m s).2.sched = (m s.fresh).2.sched ∧ (bunch e m s).2.now = (m s.fresh).2.now) ∨
    ∃ t, m s.fresh = (.ok true, t) ∧ (bunch e m s).2.store = t.work ∧ (bunch e m s).2.sched = t.sched ∧ (bunch e m s).2.now = t.now := by
  have hf := hm s.fresh
  have h0 : (bunch e m) s = (m >>= fun b => if b then commit e else pure ()) s.fresh := rfl
  rcases hr : m s.fresh with ⟨r, t⟩
  rw [hr] at hf
  cases r with
  | err => rw [h0, M.bind_err hr]; exact .inl ⟨hf.store, rfl, rfl⟩
  | panic => rw [h0, M.bind_panic hr]; exact .inl ⟨hf.store, rfl, rfl⟩
  | ok b =>
    rw [h0, M.bind_ok hr]
    cases b with
    | false => exact .inl ⟨hf.store, rfl, rfl⟩
    | true =>
      right
      refine ⟨t, rfl, ?_⟩
      rw [if_pos rfl]
      unfold commit
      rw [M.bind_ok (M.modify_apply _ t), M.bind_ok (M.get_apply _)]
      dsimp only
      generalize (!t.calls.all fun c => e.call c.1 c.2) = x
      cases x <;> exact ⟨rfl, rfl, rfl⟩

theorem bunch_safe {e : Env} {m : Act Bool} (hm : Framed m) (hb : Books m) {E : Fate → Key → Int → Prop} {s : State} (hs : Safe s)
    (h : ∀ t, m s.fresh = (.ok true, t) → t.Dated E) :
    Backed E (bunch e m s).2.now (bunch e m s).2.store (bunch e m s).2.sched := by
  rcases bunch_end (e := e) hm s with ⟨h1, h2, h3⟩ | ⟨t, ht, h1, h2, h3⟩
  · rw [h1, h2, h3]
    have hg := hb s.fresh
    intro κ k d hE hd hn
    rw [hg.1] at hn
    exact hg.2 _ _ _ (hs κ k d id hd hn)
  · rw [h1, h2, h3]
    exact h t ht

theorem bunch_safe_ok {e : Env} {m : Act Bool} {E : Fate → Key → Int → Prop} {s t : State} (hf : Framed m) (hs : Safe s) (h : bunch e m s = (.ok (), t))
    (h1 : ∀ t, m s.fresh = (.ok true, t) → t.Dated E) (h2 : ∀ t, m s.fresh = (.ok false, t) → t.sched = s.sched) : Backed E t.now t.store t.sched := by
  have h0 : (bunch e m) s = (m >>= fun b => if b then commit e else pure ()) s.fresh := rfl
  rw [h0, M.bind_ok_iff] at h
  obtain ⟨b, t', h3, h4⟩ := h
  have fr := hf.of h3
  cases b with
  | true =>
    rw [if_pos rfl] at h4
    unfold commit at h4
    rw [M.modify_bind_ok, M.get_bind_ok, M.errIf_ok_iff] at h4
    rw [h4.2]
    exact h1 t' h3
  | false =>
    rw [if_neg (by simp)] at h4
    simp at h4
    rw [← h4, h2 t' h3, fr.store, fr.now]
    exact hs.mono fun _ _ _ hc => hc.elim

/-! ### Deleting the task of a banishment -/

/-- Only tasks of banishment of `k` may have disappeared. -/
def Spares (k : Key) (s t : State) : Prop := t.now = s.now ∧ ∀ d h j, h ≠ 9 ∨ j ≠ k → Booked s.sched d h j → Booked t.sched d h j

theorem Grow.spares {s t : State} (h : Grow s t) (k : Key) : Spares k s t := ⟨h.1, fun d x j _ => h.2 d x j⟩
theorem Spares.trans {k : Key} {s t u : State} (h : Spares k s t) (h' : Spares k t u) : Spares k s u :=
  ⟨h'.1.trans h.1, fun d x j hx hb => h'.2 d x j hx (h.2 d x j hx hb)⟩

theorem delete_spares {d : Int} {k : Key} {s t : State} (h : request (.delete d banishHook [k]) s = (.ok (), t)) : Spares k s t := by
  unfold request at h
  rw [M.get_bind_ok, M.orPanic_bind_ok] at h
  obtain ⟨u, hu, h⟩ := h
  simp at h
  rw [← h]
  refine ⟨rfl, ?_⟩
  rintro d' h' j hx ⟨x, hp, h1, h2, h3⟩
  refine ⟨x, Schedule.exec?_pending hu hp ?_, h1, h2, h3⟩
  rintro ⟨-, e2, e3⟩
  rw [h2] at e2
  rw [h3] at e3
  rcases hx with hx | hx
  · exact hx e2.symm
  · injection e3 with e3; exact hx e3.symm

/-- The dates of others stay backed. -/
theorem State.Dated.spares {s t : State} {E : Fate → Key → Int → Prop} {k : Key} (h : s.Dated E) (hg : Spares k s t) (hw : t.work = s.work) :
    t.Dated (fun κ j d => E κ j d ∨ j = k) := by
  intro κ j d hE hd hn
  rw [hw] at hd
  rw [hg.1] at hn
  exact hg.2 _ _ _ (.inr fun e => hE (.inr e)) (h κ j d (fun hc => hE (.inl hc)) hd hn)

theorem Fate.hook_ne {κ : Fate} (h : κ ≠ .banishment) : κ.hook ≠ 9 := by
  cases κ
  · decide
  · decide
  · exact absurd rfl h

/-- A record without date of banishment -/
theorem RecOk.spares {E : Fate → Key → Int → Prop} {s t : State} {k : Key} {v w : Info} (h : RecOk E s k v) (hg : Spares k s t)
    (hb : w.banishmentAt = none) (hw : ∀ κ, w.date κ = v.date κ ∨ w.date κ = none) : RecOk E t k w := by
  intro κ d hE hd hn
  rw [hg.1] at hn
  by_cases hκ : κ = .banishment
  · subst hκ
    have hd : w.banishmentAt = some d := hd
    rw [hb] at hd; cases hd
  · refine hg.2 _ _ _ (.inl (Fate.hook_ne hκ)) ?_
    rcases hw κ with e | e
    · exact h κ d hE (e ▸ hd) hn
    · rw [e] at hd; cases hd

/-! ### Registration -/

theorem put_dated {E : Fate → Key → Int → Prop} {k : Key} {v : Info} {s t : State} (h : put k v s = (.ok (), t)) (hs : s.Dated E)
    (hv : RecOk E s k v) : t.Dated E := by
  unfold put at h
  simp at h
  rw [← h]
  intro κ j d hE hd hn
  have hd' : (infoOf (s.work.set k v) j).date κ = some d := hd
  rw [infoOf_set] at hd'
  by_cases hj : j = k
  · rw [if_pos hj] at hd'
    subst hj
    exact hv κ d hE hd' hn
  · rw [if_neg hj] at hd'
    exact hs κ j d hE hd' hn

/-- The date of compression of a new account -/
def NewDate (c : Key) (d0 : Int) : Fate → Key → Int → Prop := fun κ j d => κ = .compression ∧ j = c ∧ d = d0

theorem appendBody_dated {p c : Key} {skip setc : Bool} {s t : State} (hs : s.Dated fun _ _ _ => False)
    (h : appendBody p c skip setc s = (.ok true, t)) :
    t.Dated fun κ j d => setc = true ∧ NewDate c (s.now + s.compressionPeriod) κ j d := by
  unfold appendBody at h
  rw [M.get_bind_ok] at h
  dsimp only at h
  rw [M.bind_ok_iff] at h
  obtain ⟨_, s1, h1, h⟩ := h
  have d1 : s1.Dated fun κ j d => setc = true ∧ NewDate c (s.now + s.compressionPeriod) κ j d := by
    refine put_dated h1 (hs.mono fun _ _ _ hc => hc.elim) ?_
    intro κ d hE hd hn
    cases κ with
    | downgrade => cases setc <;> cases hd
    | compression =>
      cases setc with
      | false => cases hd
      | true =>
        have : some (s.now + s.compressionPeriod) = some d := hd
        injection this with this
        exact absurd ⟨rfl, rfl, rfl, this.symm⟩ hE
    | banishment => cases setc <;> cases hd
  rw [M.bind_ok_iff] at h
  obtain ⟨r, s2, h2, h⟩ := h
  have d2 := KeepAct.update (fun v => .bind (.addCall _ _) fun _ => .pure _) (fun v => .bind (.addCall _ _) fun _ => .pure _) (by
    intro v s w a s1 h κ
    rw [M.bind_ok_iff] at h
    obtain ⟨_, _, -, h⟩ := h
    simp at h
    rw [← h.1.1]
    exact .inl (date_congr (w := { v.add _ 1 with referrals := v.referrals ++ [c] }) (v := v) rfl rfl rfl rfl κ)) s1 r s2 h2 d1
  rw [M.errIf_bind_ok] at h
  obtain ⟨-, h⟩ := h
  rw [M.bind_ok_iff] at h
  obtain ⟨_, s3, h3, h⟩ := h
  have d3 := KeepAct.climb (fun _ _ _ => .bind (.addCall _ _) fun _ => .pure _) (fun _ _ _ => .bind (.addCall _ _) fun _ => .pure _) (by
    intro l k v s w s1 h κ
    rw [M.bind_ok_iff] at h
    obtain ⟨_, _, -, h⟩ := h
    simp at h
    rw [← h.1]
    exact date_congr (w := v.add _ l) (v := v) rfl rfl rfl rfl κ) 9 2 r.1 s2 () s3 h3 d2
  simp at h
  rw [← h]
  exact d3

theorem Books.appendBody (p c : Key) (skip setc : Bool) : Books (appendBody p c skip setc) := by
  unfold Referral.appendBody
  exact .bind .get fun s => .bind (.put _ _) fun _ => .bind (.update fun v => .bind (.addCall _ _) fun _ => .pure _) fun r =>
    .bind (.errIf _) fun _ => .bind (.climb (fun _ _ _ => .bind (.addCall _ _) fun _ => .pure _) _ _ _) fun _ => .pure _

theorem appendChild_safe {e : Env} {p c : Key} {skip setc : Bool} {s t : State} (hs : Safe s) (h : appendChild e p c skip setc s = (.ok (), t)) :
    t.now = s.now ∧ t.day = s.day ∧
    Backed (fun κ j d => setc = true ∧ NewDate c (s.now + s.compressionPeriod) κ j d) t.now t.store t.sched := by
  unfold appendChild at h
  rw [M.get_bind_ok, M.errIf_bind_ok] at h
  obtain ⟨-, h⟩ := h
  have fr := Framed.appendBody p c skip setc
  have ho := (bunch_cases (e := e) fr s).1
  have hb := bunch_safe (e := e) (E := fun κ j d => setc = true ∧ NewDate c (s.now + s.compressionPeriod) κ j d) fr (.appendBody p c skip setc) hs
    fun t ht => appendBody_dated (s := s.fresh) hs ht
  rw [h] at ho hb
  exact ⟨ho.now, ho.day, hb⟩

theorem addTopLevel_safe {e : Env} {k : Key} {s t : State} (hs : Safe s) (h : addTopLevel e k s = (.ok (), t)) : Safe t := by
  unfold addTopLevel at h
  rw [recover_ok_iff, M.get_bind_ok, M.errIf_bind_ok] at h
  obtain ⟨-, h⟩ := h
  have fr : Framed (do put k (newInfo none (s.balance k) (s.delegated k)); pure true : Act Bool) :=
    .bind (.put _ _) fun _ => (Still.pure _).framed
  have bo : Books (do put k (newInfo none (s.balance k) (s.delegated k)); pure true : Act Bool) := .bind (.put _ _) fun _ => .pure _
  have := bunch_safe (e := e) fr bo hs (E := fun _ _ _ => False) fun t ht => by
    rw [M.bind_ok_iff] at ht
    obtain ⟨_, s1, h1, ht⟩ := ht
    simp at ht
    rw [← ht]
    refine put_dated h1 hs ?_
    intro κ d _ hd _
    cases κ <;> cases hd
  rw [h] at this
  exact this

/-! ### Activity -/

theorem activateSelf_dated {k : Key} {value : Bool} {w : Info} {p : Option Key} {s s1 : State} (hs : s.Dated fun _ _ _ => False)
    (h : activateSelf k value (infoOf s.work k) s = (.ok (w, p), s1)) :
    p = (infoOf s.work k).referrer ∧ s1.now = s.now ∧ s1.day = s.day ∧
    s1.Dated (fun κ j d => (value = false ∧ p.isSome = true ∧ NewDate k (s.now + s.compressionPeriod) κ j d) ∨ j = k) ∧
    RecOk (fun κ j d => value = false ∧ p.isSome = true ∧ NewDate k (s.now + s.compressionPeriod) κ j d) s1 k w := by
  have q := (Framed.activateSelf k value (infoOf s.work k)).of h
  unfold activateSelf at h
  rw [M.get_bind_ok, M.bind_ok_iff] at h
  obtain ⟨w1, s2, h1, h⟩ := h
  simp at h
  obtain ⟨⟨rfl, hp⟩, rfl⟩ := h
  refine ⟨hp.symm, q.now, q.day, ?_⟩
  have hr := hs.rec k
  generalize infoOf s.work k = v at *
  cases value with
  | true =>
    have fin : Spares k s s2 ∧ w1.banishmentAt = none ∧ ∀ κ, w1.date κ = v.date κ ∨ w1.date κ = none := by
      cases hb : v.banishmentAt with
      | some x =>
        rw [hb] at h1
        dsimp only at h1
        rw [if_pos rfl, M.bind_ok_iff] at h1
        obtain ⟨_, s3, h3, h1⟩ := h1
        simp at h1
        rw [← h1.1, ← h1.2]
        refine ⟨delete_spares h3, rfl, fun κ => ?_⟩
        cases κ
        · exact .inl rfl
        · right; unfold Info.date; dsimp only; split <;> rfl
        · exact .inr rfl
      | none =>
        rw [hb] at h1
        simp at h1
        rw [← h1.1, ← h1.2]
        refine ⟨(Grow.refl s).spares k, hb, fun κ => ?_⟩
        cases κ
        · exact .inl rfl
        · right; unfold Info.date; dsimp only; split <;> rfl
        · exact .inr hb
    refine ⟨(hs.spares fin.1 q.work).mono fun _ _ _ hc => hc.elim False.elim .inr, ?_⟩
    have := RecOk.spares hr fin.1 fin.2.1 fin.2.2
    exact fun κ d _ => this κ d id
  | false =>
    have e1 : w1 = { v.add (people false) 0 with active := false, compressionAt := some (s.now + s.compressionPeriod) } ∧ s2 = s := by
      cases hb : v.banishmentAt with
      | some x =>
        rw [hb] at h1
        dsimp only at h1
        rw [if_neg (by simp)] at h1
        simp at h1
        exact ⟨h1.1.symm, h1.2.symm⟩
      | none =>
        rw [hb] at h1
        simp at h1
        exact ⟨h1.1.symm, h1.2.symm⟩
    obtain ⟨rfl, rfl⟩ := e1
    refine ⟨hs.mono fun _ _ _ hc => hc.elim, ?_⟩
    intro κ d hE hd hn
    cases κ with
    | downgrade => exact hr .downgrade d id hd hn
    | compression =>
      have hd : (if v.referrer.isSome then some (s2.now + s2.compressionPeriod) else none) = some d := hd
      split at hd
      · rename_i hv
        injection hd with hd
        exact absurd ⟨rfl, by rw [← hp]; exact hv, rfl, rfl, hd.symm⟩ hE
      · cases hd
    | banishment => exact hr .banishment d id hd hn

theorem activeBody_dated {k : Key} {value check : Bool} {s t : State} (hs : s.Dated fun _ _ _ => False)
    (h : activeBody k value check s = (.ok true, t)) : t.Dated fun _ _ _ => False := by
  unfold activeBody at h
  rw [M.get_bind_ok] at h
  split at h
  · simp at h
  rw [M.bind_ok_iff] at h
  obtain ⟨parent, s1, h1, h⟩ := h
  have d1 : s1.Dated (fun κ j d => value = false ∧ parent.isSome = true ∧ NewDate k (s.now + s.compressionPeriod) κ j d) :=
    update_dated h1 fun w s2 h2 => (activateSelf_dated hs h2).2.2.2
  rw [M.bind_ok_iff] at h
  obtain ⟨_, s2, h2, h⟩ := h
  have d2 := KeepAct.climb (fun _ _ _ => .pure _) (fun _ _ _ => .pure _) (by
    intro l a v s w s1 h κ
    simp at h
    rw [← h.1]
    split
    · exact date_congr (w := { v.add _ l with activeReferrals := _ }) (v := v) rfl rfl rfl rfl κ
    · exact date_congr (w := v.add _ l) (v := v) rfl rfl rfl rfl κ) 10 1 parent s1 () s2 h2 d1
  rw [M.bind_ok_iff] at h
  obtain ⟨_, s3, h3, h⟩ := h
  simp at h
  rw [← h]
  clear h t
  split at h3
  · rename_i hc
    have d3 := d2.grow ((Books.schedule _ _ _).of h3) ((Still.request _).of h3).work
    have hb : Booked s3.sched (s.now + s.compressionPeriod) 7 k := booked_of_schedule h3
    intro κ j d _ hd hn
    by_cases hE : NewDate k (s.now + s.compressionPeriod) κ j d
    · obtain ⟨rfl, rfl, rfl⟩ := hE
      exact hb
    · exact d3 κ j d (fun hc => hE hc.2.2) hd hn
  · rename_i hc
    simp at h3
    rw [← h3]
    refine d2.mono ?_
    rintro κ j d ⟨hv, hp, -⟩
    exact hc (by rw [hp, hv]; rfl)

theorem setActive_safe {e : Env} {k : Key} {value check : Bool} {s t : State} (hs : Safe s) (h : setActive e k value check s = (.ok (), t)) : Safe t := by
  refine bunch_safe_ok (.activeBody _ _ _) hs h (fun t ht => activeBody_dated (s := s.fresh) hs ht) ?_
  intro t ht
  unfold activeBody at ht
  rw [M.get_bind_ok] at ht
  split at ht
  · simp at ht; rw [← ht]; rfl
  · rw [M.bind_ok_iff] at ht
    obtain ⟨_, _, -, ht⟩ := ht
    rw [M.bind_ok_iff] at ht
    obtain ⟨_, _, -, ht⟩ := ht
    rw [M.bind_ok_iff] at ht
    obtain ⟨_, _, -, ht⟩ := ht
    simp at ht

theorem Books.activeBody (k : Key) (check : Bool) : Books (activeBody k false check) := by
  unfold Referral.activeBody
  refine .bind .get fun s => ?_
  split
  · exact .pure _
  · refine .bind (.update fun v => ?_) fun _ => .bind (.climb (fun _ _ _ => .pure _) _ _ _) fun _ => .bind ?_ fun _ => .pure _
    · unfold Referral.activateSelf
      refine .bind .get fun s => .bind ?_ fun _ => .pure _
      split
      · rw [if_neg (by simp)]; exact .pure _
      · exact .pure _
    · split
      · exact .schedule _ _ _
      · exact .pure _

theorem expire_safe {e : Env} {k : Key} {s : State} (hs : Safe s) : Safe (setActive e k false true s).2 :=
  bunch_safe (.activeBody _ _ _) (.activeBody k true) hs fun _ ht => activeBody_dated (s := s.fresh) hs ht

theorem register_safe {e : Env} {c p : Key} {a : Bool} {s t : State} (hs : Safe s) (h : register e c p a s = (.ok (), t)) : Safe t := by
  unfold register at h
  rw [M.bind_ok_iff] at h
  obtain ⟨_, s1, h1, h⟩ := h
  obtain ⟨n1, y1, b1⟩ := appendChild_safe hs h1
  rw [M.get_bind_ok, M.bind_ok_iff] at h
  obtain ⟨_, s2, h2, h⟩ := h
  have e2 : s2.store = s1.store := request_quiet h2
  have hp : s1.compressionPeriod = s.compressionPeriod := by unfold State.compressionPeriod State.month; rw [y1]
  have f2 : Safe s2 := by
    have hg := (Books.schedule _ _ _).of h2
    have hb : Booked s2.sched (s1.now + s1.compressionPeriod) 7 c := booked_of_schedule h2
    rw [n1, hp] at hb
    intro κ j d _ hd hn
    rw [e2] at hd
    rw [hg.1] at hn
    by_cases hE : NewDate c (s.now + s.compressionPeriod) κ j d
    · obtain ⟨rfl, rfl, rfl⟩ := hE
      exact hb
    · exact hg.2 _ _ _ (b1 κ j d (fun hc => hE hc.2) hd hn)
  split at h
  · exact setActive_safe f2 h
  · simp at h; rw [← h]; exact f2

end Verif.Referral
