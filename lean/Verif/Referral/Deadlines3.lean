import Verif.Referral.Deadlines2

/-! Property C65: the dates of downgrade, compression and banishment in the records are backed by tasks of the scheduler; executions. -/
namespace Verif.Referral
open Relation
open Verif.Schedule (Pending)

/-! ### Compression -/

theorem scheduleBanishment_ok {k : Key} {v w : Info} {s t : State} (h : scheduleBanishment k v s = (.ok w, t)) :
    w = { v with banishmentAt := some (s.now + s.month) } ∧ Booked t.sched (s.now + s.month) 9 k := by
  unfold scheduleBanishment at h
  rw [M.get_bind_ok, M.bind_ok_iff] at h
  obtain ⟨_, s5, h5, h⟩ := h
  simp at h
  obtain ⟨rfl, rfl⟩ := h
  exact ⟨rfl, booked_of_schedule h5⟩

/-- A new date of banishment together with its task -/
theorem RecOk.banishment {E : Fate → Key → Int → Prop} {k : Key} {v w : Info} {s t : State} (h : scheduleBanishment k v s = (.ok w, t))
    (hv : RecOk E s k v) : RecOk E t k w := by
  have hg := (Books.scheduleBanishment k v).of h
  obtain ⟨rfl, hb⟩ := scheduleBanishment_ok h
  intro κ d hE hd hn
  cases κ with
  | downgrade => exact (hv.grow hg) .downgrade d hE hd hn
  | compression => exact (hv.grow hg) .compression d hE hd hn
  | banishment =>
    have hd : some (s.now + s.month) = some d := hd
    injection hd with hd
    rw [← hd]
    exact hb

theorem compressSelf_rec {k : Key} {v w old : Info} {s t : State} (h : compressSelf k v s = (.ok (w, old), t))
    (hv : RecOk (fun _ _ _ => False) s k v) : RecOk (fun _ _ _ => False) t k w := by
  unfold compressSelf at h
  rw [M.errIf_bind_ok] at h
  obtain ⟨-, h⟩ := h
  rw [M.bind_ok_iff] at h
  obtain ⟨_, s1, h1, h⟩ := h
  rw [M.bind_ok_iff] at h
  obtain ⟨w1, s2, h2, h⟩ := h
  have e2 := setStatus_result h2
  rw [M.bind_ok_iff] at h
  obtain ⟨_, s3, h3, h⟩ := h
  rw [M.orPanic_bind_ok] at h
  obtain ⟨d, -, h⟩ := h
  rw [M.get_bind_ok, M.bind_ok_iff] at h
  obtain ⟨w2, s4, h4, h⟩ := h
  simp at h
  obtain ⟨⟨rfl, -⟩, rfl⟩ := h
  have g3 : Grow s s3 := ((Books.addCall _ _).of h1).trans (((Books.setStatus _ _ _).of h2).trans ((Books.addCall _ _).of h3))
  have r3 : RecOk (fun _ _ _ => False) s3 k w1 := by
    refine (hv.grow g3).less fun κ => ?_
    rw [e2]
    cases κ
    · exact .inl rfl
    · right; unfold Info.date; dsimp only; split <;> rfl
    · exact .inl rfl
  split at h4
  · exact r3.banishment h4
  · simp at h4
    obtain ⟨rfl, rfl⟩ := h4
    exact r3

theorem Books.compressSelf (k : Key) (v : Info) : Books (compressSelf k v) := by
  unfold Referral.compressSelf
  exact .bind (.errIf _) fun _ => .bind (.addCall _ _) fun _ => .bind (.setStatus _ _ _) fun _ => .bind (.addCall _ _) fun _ =>
    .bind (.orPanic _) fun _ => .bind .get fun _ => .bind (.ite (.scheduleBanishment _ _) (.pure _)) fun _ => .pure _

theorem Books.compressBody (k : Key) : Books (compressBody k) := by
  unfold Referral.compressBody
  exact .bind (.update (.compressSelf k)) fun _ => .bind (.forEach fun _ => .update fun _ => .pure _) fun _ =>
    .bind (.climb (fun _ _ _ => .bind (.addCall _ _) fun _ => .pure _) _ _ _) fun _ => .pure _

/-- Referrals get another referrer. -/
theorem redirect_dated {p : Key} : ∀ (l : List Key) (s t : State), s.Dated (fun _ _ _ => False) →
    (∀ c ∈ l, (infoOf s.work c).referrer.isSome = true) →
    M.forEach l (fun c => update c false (fun v => (pure ({ v with referrer := some p }, ()) : Act (Info × Unit)))) s = (.ok (), t) →
    t.Dated fun _ _ _ => False := by
  intro l
  induction l with
  | nil => intro s t hs _ h; simp at h; rw [← h]; exact hs
  | cons c l ih =>
    intro s t hs hr h
    rw [M.forEach_cons, M.bind_ok_iff] at h
    obtain ⟨_, s1, h1, h⟩ := h
    obtain ⟨w, s2, h2, hw⟩ := update_plain h1
    simp at h2
    obtain ⟨rfl, rfl⟩ := h2
    refine ih s1 t ?_ ?_ h
    · refine update_dated h1 fun w s1 h3 => ?_
      simp at h3
      obtain ⟨rfl, rfl⟩ := h3
      refine ⟨hs.mono fun _ _ _ hc => hc.elim, (hs.rec c).less fun κ => .inl ?_⟩
      cases κ
      · rfl
      · unfold Info.date; dsimp only; rw [hr c (.head _)]; rfl
      · rfl
    · intro c' hc'
      rw [hw, infoOf_set]
      split
      · rfl
      · exact hr c' (.tail _ hc')

theorem compressBody_dated {k : Key} {s t : State} (hg : Good s) (hs : Safe s) (h : compressBody k s.fresh = (.ok true, t)) :
    t.Dated fun _ _ _ => False := by
  have hrm : ∀ a c, c ∈ (infoOf s.fresh.work a).referrals → (infoOf s.fresh.work c).referrer = some a := fun a c h => ((hg.mem a c).1 h).1
  have hs : s.fresh.Dated fun _ _ _ => False := hs
  generalize s.fresh = s at *
  unfold compressBody at h
  rw [M.bind_ok_iff] at h
  obtain ⟨old, s1, h1, h⟩ := h
  obtain ⟨w, s0, h0, hw⟩ := update_plain h1
  obtain ⟨q0, rfl, ⟨p, hp⟩, b, hcw⟩ := compressSelf_ok h0
  have d1 : s1.Dated fun _ _ _ => False := update_dated h1 fun w s1 h3 =>
    ⟨(hs.grow ((Books.compressSelf k _).of h3) (compressSelf_ok h3).1.work).mono fun _ _ _ hc => hc.elim, compressSelf_rec h3 (hs.rec k)⟩
  have w1 : w.referrer = (infoOf s.work k).referrer := (congrArg Info.referrer hcw : (core w).referrer = _)
  rw [M.bind_ok_iff] at h
  obtain ⟨_, s2, h2, h⟩ := h
  rw [hp] at h2
  have d2 := redirect_dated _ s1 s2 d1 (fun c hc => by
    rw [hw, infoOf_set]
    split
    · rw [w1, hp]; rfl
    · rw [q0.work, hrm k c hc]; rfl) h2
  rw [M.bind_ok_iff] at h
  obtain ⟨_, s3, h3, h⟩ := h
  simp at h
  rw [← h]
  refine KeepAct.climb (fun _ _ _ => .bind (.addCall _ _) fun _ => .pure _) (fun _ _ _ => .bind (.addCall _ _) fun _ => .pure _) ?_ 10 1 _ s2 () s3 h3 d2
  intro l a v s w s1 h κ
  rw [M.bind_ok_iff] at h
  obtain ⟨_, _, -, h⟩ := h
  simp at h
  rw [← h.1]
  split
  · exact date_congr (w := { squeezed _ l v with referrals := _, activeReferrals := _ }) (v := v) rfl rfl rfl rfl κ
  · exact date_congr (w := squeezed _ l v) (v := v) rfl rfl rfl rfl κ

/-! ### Balances, coming back -/

theorem openAncestor_some {st : KV Nat Info} {now month : Int} : ∀ {n : Nat} {k p : Option Key}, openAncestor st now month n k = some p →
    p.isSome = true → k.isSome = true := by
  intro n k p h hp
  cases k with
  | none => cases n <;> · simp [openAncestor] at h; rw [← h] at hp; exact hp
  | some k => rfl

theorem revived_dates {v : Info} {p : Option Key} (h : p.isSome = true → v.referrer.isSome = true) (κ : Fate) :
    ({ v with referrer := p, banished := false, status := 1 } : Info).date κ = v.date κ ∨
    ({ v with referrer := p, banished := false, status := 1 } : Info).date κ = none := by
  cases κ
  · exact .inl rfl
  · unfold Info.date
    dsimp only
    cases hp : p.isSome with
    | true => left; rw [h hp]
    | false => right; rfl
  · exact .inl rfl

theorem reviveDelegator_dated {k : Key} {w : Info} {s t : State} {v : Info} (hs : s.Dated fun _ _ _ => False)
    (hv : RecOk (fun _ _ _ => False) s k v) (h : reviveDelegator k v s = (.ok w, t)) :
    t.Dated (fun _ j _ => j = k) ∧ RecOk (fun _ _ _ => False) t k w := by
  unfold reviveDelegator at h
  rw [M.bind_ok_iff] at h
  obtain ⟨v1, s1, h1, h⟩ := h
  have fin : Spares k s s1 ∧ s1.work = s.work ∧ v1 = { v with banishmentAt := none } := by
    cases hb : v.banishmentAt with
    | some x =>
      rw [hb] at h1
      dsimp only at h1
      rw [M.bind_ok_iff] at h1
      obtain ⟨_, s2, h2, h1⟩ := h1
      simp at h1
      obtain ⟨rfl, rfl⟩ := h1
      exact ⟨delete_spares h2, ((Still.request _).of h2).work, rfl⟩
    | none =>
      rw [hb] at h1
      simp at h1
      obtain ⟨rfl, rfl⟩ := h1
      refine ⟨(Grow.refl s).spares k, rfl, ?_⟩
      rw [← hb]
  obtain ⟨sp, hw, hv1⟩ := fin
  have d1 : s1.Dated (fun _ j _ => j = k) := (hs.spares sp hw).mono fun _ _ _ hc => hc.elim False.elim id
  have r1 : RecOk (fun _ _ _ => False) s1 k v1 := by
    refine hv.spares sp (by rw [hv1]) fun κ => ?_
    rw [hv1]
    cases κ
    · exact .inl rfl
    · exact .inl rfl
    · exact .inr rfl
  split at h
  · rw [M.get_bind_ok, M.orPanic_bind_ok] at h
    obtain ⟨p, hp, h⟩ := h
    rw [M.bind_ok_iff] at h
    obtain ⟨_, s2, h2, h⟩ := h
    simp at h
    obtain ⟨rfl, rfl⟩ := h
    refine ⟨KeepAct.attach _ _ _ _ s1 () s2 h2 d1, (r1.grow ((Books.attach _ _ _ _).of h2)).less fun κ => ?_⟩
    exact revived_dates (openAncestor_some hp) κ
  · simp at h
    obtain ⟨rfl, rfl⟩ := h
    exact ⟨d1, r1⟩

theorem delegationChanged_dated {k : Key} {w : Info} {s t : State} {v : Info} {x : Int} (hs : s.Dated fun _ _ _ => False)
    (hv : RecOk (fun _ _ _ => False) s k v) (h : delegationChanged k v x s = (.ok w, t)) :
    t.Dated (fun _ j _ => j = k) ∧ RecOk (fun _ _ _ => False) t k w := by
  have weak : ∀ {s : State}, (s.Dated fun _ _ _ => False) → s.Dated fun _ j _ => j = k := fun h => h.mono fun _ _ _ hc => hc.elim
  unfold delegationChanged at h
  rw [M.get_bind_ok] at h
  split at h
  · simp at h; obtain ⟨rfl, rfl⟩ := h; exact ⟨weak hs, hv⟩
  · rw [M.orPanic_bind_ok] at h
    obtain ⟨d, -, h⟩ := h
    split at h
    · split at h
      · exact ⟨weak (hs.grow ((Books.scheduleBanishment _ _).of h) ((Still.scheduleBanishment _ _).of h).work), hv.banishment h⟩
      · simp at h; obtain ⟨rfl, rfl⟩ := h; exact ⟨weak hs, hv⟩
    · exact reviveDelegator_dated hs hv h

theorem balanceBody_dated {k : Key} {s t : State} (hs : s.Dated fun _ _ _ => False) (h : balanceBody k s = (.ok true, t)) :
    t.Dated fun _ _ _ => False := by
  unfold balanceBody at h
  rw [M.get_bind_ok] at h
  split at h
  · simp at h
  rw [M.bind_ok_iff] at h
  obtain ⟨r, s1, h1, h⟩ := h
  have d1 : s1.Dated fun _ _ _ => False := by
    refine update_dated h1 fun w s2 h2 => ?_
    unfold ownBalance at h2
    rw [M.get_bind_ok] at h2
    rw [M.bind_ok_iff] at h2
    obtain ⟨v1, s3, h3, h2⟩ := h2
    simp at h2
    obtain ⟨⟨rfl, -⟩, rfl⟩ := h2
    have key : s3.Dated (fun _ j _ => j = k) ∧ RecOk (fun _ _ _ => False) s3 k v1 := by
      split at h3
      · simp at h3
        obtain ⟨rfl, rfl⟩ := h3
        exact ⟨hs.mono fun _ _ _ hc => hc.elim, hs.rec k⟩
      · rw [M.bind_ok_iff] at h3
        obtain ⟨_, s4, h4, h3⟩ := h3
        have g4 := (Books.addCall _ _).of h4
        exact delegationChanged_dated (hs.grow g4 ((Still.addCall _ _).of h4).work) ((hs.rec k).grow g4) h3
    refine ⟨key.1.mono fun _ _ _ => .inr, key.2.less fun κ => .inl ?_⟩
    exact date_congr (w := { v1 with tot := _ }) (v := v1) rfl rfl rfl rfl κ
  rw [M.bind_ok_iff] at h
  obtain ⟨_, s2, h2, h⟩ := h
  simp at h
  rw [← h]
  split at h2
  · simp at h2; rw [← h2]; exact d1
  · refine KeepAct.climb (fun _ _ _ => .bind (.ite (.pure _) (.addCall _ _)) fun _ => .pure _)
      (fun _ _ _ => .bind (.ite (.pure _) (.addCall _ _)) fun _ => .pure _) ?_ 10 1 _ s1 () s2 h2 d1
    intro l a v s w s1 h κ
    rw [M.bind_ok_iff] at h
    obtain ⟨_, _, -, h⟩ := h
    simp at h
    rw [← h.1]
    exact date_congr (w := v.add _ l) (v := v) rfl rfl rfl rfl κ

theorem setPurse_safe {e : Env} {a : Addr} {p : Purse} {s t : State} (hs : Safe s) (h : setPurse e a p s = (.ok (), t)) : Safe t := by
  unfold setPurse at h
  rw [M.modify_bind_ok] at h
  have hs' : Safe { s with purse := fun b => if b = a then p else s.purse b } := hs
  generalize ({ s with purse := fun b => if b = a then p else s.purse b } : State) = s' at hs' h
  refine bunch_safe_ok (.balanceBody _) hs' h (fun t ht => balanceBody_dated (s := s'.fresh) hs' ht) ?_
  intro t ht
  unfold balanceBody at ht
  rw [M.get_bind_ok] at ht
  split at ht
  · simp at ht; rw [← ht]; rfl
  · rw [M.bind_ok_iff] at ht
    obtain ⟨_, _, -, ht⟩ := ht
    rw [M.bind_ok_iff] at ht
    obtain ⟨_, _, -, ht⟩ := ht
    simp at ht

/-! ### Changes of balance that fail -/

/-- No task is deleted: the account is active, or its delegation stays as it is or is dust, or it is not to be banished. -/
def Harmless (v : Info) (dust d : Int) : Prop := v.active = true ∨ d = v.tot .delegated 0 ∨ d ≤ dust ∨ v.banishmentAt = none

theorem grow_bind {α β : Type} {m : Act α} {f : α → Act β} {s : State} (hm : Grow s (m s).2) (hf : ∀ a, Books (f a)) :
    Grow s ((m >>= f) s).2 := by
  rw [M.bind_apply]
  rcases hms : m s with ⟨r, t⟩
  rw [hms] at hm
  cases r with
  | ok a => exact hm.trans (hf a t)
  | err => exact hm
  | panic => exact hm

theorem grow_recover {α : Type} {m : Act α} {s : State} (h : Grow s (m s).2) : Grow s (recover m s).2 := by
  unfold Referral.recover
  rcases hm : m s with ⟨r, t⟩
  rw [hm] at h
  cases r <;> exact h

theorem reviveDelegator_grow {k : Key} {v : Info} (hv : v.banishmentAt = none) : Books (reviveDelegator k v) := by
  unfold reviveDelegator
  refine .bind ?_ fun w => .ite (.bind .get fun _ => .bind (.orPanic _) fun _ => .bind (.attach _ _ _ _) fun _ => .pure _) (.pure _)
  rw [hv]
  exact .pure _

theorem delegationChanged_grow {k : Key} {v : Info} {d : Int} {s : State} (hd : d ≠ v.tot .delegated 0) (h : Harmless v s.dust d) :
    Grow s (delegationChanged k v d s).2 := by
  unfold delegationChanged
  rw [M.bind_ok (M.get_apply s)]
  split
  · exact .refl s
  · rename_i ha
    cases hx : toInt64? d with
    | none => rw [M.bind_panic (M.orPanic_none s)]; exact .refl s
    | some x =>
      have hx : x = d := by
        unfold toInt64? at hx
        split at hx
        · injection hx with hx; exact hx.symm
        · cases hx
      subst hx
      rw [M.bind_ok (M.orPanic_some x s)]
      split
      · exact Books.ite (.scheduleBanishment _ _) (.pure _) s
      · rename_i hle
        rcases h with h | h | h | h
        · exact absurd h ha
        · exact absurd h hd
        · exact absurd h hle
        · exact reviveDelegator_grow h s

theorem balanceBody_grow {k : Key} {s : State} (h : Harmless (infoOf s.work k) s.dust (s.delegated k)) : Grow s (balanceBody k s).2 := by
  unfold balanceBody
  rw [M.bind_ok (M.get_apply s)]
  split
  · exact .refl s
  refine grow_bind ?_ fun r => .bind (.ite (.pure _) (.climb (fun l a v => .bind (.ite (.pure _) (.addCall _ _)) fun _ => .pure _) _ _ _)) fun _ => .pure _
  unfold update
  refine grow_recover ?_
  rw [M.bind_ok (M.get_apply s)]
  refine grow_bind ?_ fun r => .bind (.ite (.checkStatus _ _) (.pure _)) fun v => .bind (.put _ _) fun _ => .pure _
  unfold ownBalance
  rw [M.bind_ok (M.get_apply s)]
  refine grow_bind ?_ fun _ => .pure _
  split
  · exact .refl s
  · rename_i hz
    have e : (do addCall .stakeChanged k; delegationChanged k (infoOf s.work k) (s.delegated k) : Act Info) s =
      delegationChanged k (infoOf s.work k) (s.delegated k) (addCall .stakeChanged k s).2 := rfl
    rw [e]
    refine Grow.trans ((Books.addCall .stakeChanged k).of (s := s) rfl) (delegationChanged_grow (by omega) ?_)
    exact h

/-- Whatever the outcome -/
theorem setPurse_harmless {e : Env} {a : Addr} {p : Purse} {s : State} (hs : Safe s)
    (h : Harmless (infoOf s.store (text a)) s.dust p.delegated) : Safe (setPurse e a p s).2 := by
  have hd : State.delegated (State.fresh { s with purse := fun b => if b = a then p else s.purse b }) (text a) = p.delegated := by
    have : addrOf (text a) = a := Nat.mul_div_cancel_left a (by decide)
    show ((if addrOf (text a) = a then p else s.purse (addrOf (text a))).delegated) = _
    rw [this, if_pos rfl]
  have hg : Grow (State.fresh { s with purse := fun b => if b = a then p else s.purse b })
      (balanceBody (text a) (State.fresh { s with purse := fun b => if b = a then p else s.purse b })).2 := balanceBody_grow (by rw [hd]; exact h)
  have e0 : setPurse e a p s = bunch e (balanceBody (text a)) { s with purse := fun b => if b = a then p else s.purse b } := rfl
  rw [e0]
  have hs' : Safe { s with purse := fun b => if b = a then p else s.purse b } := hs
  generalize ({ s with purse := fun b => if b = a then p else s.purse b } : State) = s' at hs' hg
  rcases bunch_end (e := e) (Framed.balanceBody (text a)) s' with ⟨h1, h2, h3⟩ | ⟨t, ht, h1, h2, h3⟩
  · unfold Safe
    rw [h1, h2, h3]
    intro κ k d hE hd hn
    rw [hg.1] at hn
    exact hg.2 _ _ _ (hs' κ k d id hd hn)
  · unfold Safe
    rw [h1, h2, h3]
    exact balanceBody_dated (s := s'.fresh) hs' ht

theorem pay_safe {e : Env} {a : Addr} {x : Int} {s t : State} (hs : Safe s) (h : pay e a x s = (.ok (), t)) : Safe t := by
  unfold pay at h
  rw [M.get_bind_ok, M.errIf_bind_ok] at h
  obtain ⟨-, h⟩ := h
  rw [M.bind_ok_iff] at h
  obtain ⟨_, s1, h1, h⟩ := h
  rw [M.get_bind_ok] at h
  exact setPurse_safe (setPurse_safe hs h1) h

theorem comeBackBody_dated {k : Key} {s t : State} (hs : s.Dated fun _ _ _ => False) (h : comeBackBody k s = (.ok true, t)) :
    t.Dated fun _ _ _ => False := by
  have : KeepAct (fun _ _ _ => False) (comeBackBody k) := by
    unfold comeBackBody
    refine .bind (.update (fun v => .bind .get fun s => .bind (.orPanic _) fun _ => .pure _)
      (fun v => .bind .get fun s => .bind (.orPanic _) fun _ => .pure _) ?_) fun r => .bind (.attach _ _ _ _) fun _ => .pure _
    intro v s w a s1 h κ
    rw [M.get_bind_ok, M.orPanic_bind_ok] at h
    obtain ⟨p, -, h⟩ := h
    simp at h
    rw [← h.1.1]
    cases κ
    · exact .inl rfl
    · right; unfold Info.date; dsimp only; split <;> rfl
    · exact .inr rfl
  exact this s true t h hs

theorem Books.comeBackBody (k : Key) : Books (comeBackBody k) := by
  unfold Referral.comeBackBody
  exact .bind (.update fun v => .bind .get fun s => .bind (.orPanic _) fun _ => .pure _) fun r => .bind (.attach _ _ _ _) fun _ => .pure _

theorem returnIfBanished_safe {e : Env} {k : Key} {s t : State} (hs : Safe s) (h : returnIfBanished e k s = (.ok (), t)) : Safe t := by
  unfold returnIfBanished at h
  rw [M.get_bind_ok] at h
  split at h
  · have := bunch_safe (e := e) (.comeBackBody k) (.comeBackBody k) hs fun t ht => comeBackBody_dated (s := s.fresh) hs ht
    unfold comeBack at h
    rw [h] at this; exact this
  · simp at h; rw [← h]; exact hs

/-! ### Banishment, downgrades -/

theorem Books.banishBody (k : Key) : Books (banishBody k) := by
  unfold Referral.banishBody
  exact .bind (.update fun v => .bind .get fun s => .bind (.errIf _) fun _ => .bind (.errIf _) fun _ => .bind (.orPanic _) fun _ =>
    .bind (.errIf _) fun _ => .pure _) fun r => .bind (.errIf _) fun _ => .bind (.detach _ _ _ _) fun _ => .pure _

theorem keep_banishBody (k : Key) : KeepAct (fun _ _ _ => False) (banishBody k) := by
  unfold banishBody
  refine .bind (.update (fun v => .bind .get fun s => .bind (.errIf _) fun _ => .bind (.errIf _) fun _ => .bind (.orPanic _) fun _ =>
    .bind (.errIf _) fun _ => .pure _) (fun v => .bind .get fun s => .bind (.errIf _) fun _ => .bind (.errIf _) fun _ => .bind (.orPanic _) fun _ =>
    .bind (.errIf _) fun _ => .pure _) ?_) fun r => .bind (.still (.errIf _) (.errIf _)) fun _ => .bind (.detach _ _ _ _) fun _ => .pure _
  intro v s w a s1 h κ
  unfold banishSelf at h
  rw [M.get_bind_ok, M.errIf_bind_ok, M.errIf_bind_ok, M.orPanic_bind_ok] at h
  obtain ⟨-, -, d, -, h⟩ := h
  rw [M.errIf_bind_ok] at h
  obtain ⟨-, h⟩ := h
  simp at h
  rw [← h.1.1]
  right
  cases κ
  · rfl
  · unfold Info.date; dsimp only; split <;> rfl
  · rfl

theorem Books.downgradeSelf (k : Key) (v : Info) : Books (downgradeSelf k v) := by
  unfold Referral.downgradeSelf
  exact .bind .get fun s => .ite (.pure _) (.ite .panic (.bind (.setStatus _ _ _) fun _ => .pure _))

theorem Books.downgradeBody (k : Key) : Books (downgradeBody k) :=
  .bind (.update (.downgradeSelf k)) fun _ => .bind (.addCall _ _) fun _ => .pure _

theorem keep_downgradeBody (k : Key) : KeepAct (fun _ _ _ => False) (downgradeBody k) := by
  unfold downgradeBody
  refine .bind (.update ?_ (.downgradeSelf k) ?_) fun _ => .bind (.still (.addCall _ _) (.addCall _ _)) fun _ => .pure _
  · intro v
    unfold downgradeSelf
    exact Still.bind .get fun s => .ite (.pure _) (.ite .panic (.bind (.setStatus _ _ _) fun _ => .pure _))
  · intro v s w a s1 h κ
    unfold downgradeSelf at h
    rw [M.get_bind_ok] at h
    split at h
    · simp at h; rw [h.1]; exact .inl rfl
    · split at h
      · simp at h
      · dsimp only at h
        rw [M.bind_ok_iff] at h
        obtain ⟨w1, s2, h1, h⟩ := h
        simp at h
        have e1 := setStatus_result h1
        rw [← h.1, e1]
        cases κ
        · exact .inr rfl
        · exact .inl rfl
        · exact .inl rfl

/-! ### Transitions -/

theorem keep_moveStep {E : Fate → Key → Int → Prop} {sign : Int} {x : What → Nat → Int} {l : Nat} (o : Option Key) :
    KeepAct E (match o with
      | none => (pure none : Act (Option Key))
      | some a => update a true (fun v => pure (v.addTree sign x l, v.referrer))) := by
  cases o with
  | none => exact .pure _
  | some a => exact .pureUpdate (g := fun v => (v.addTree sign x l, v.referrer)) fun v κ => date_congr (w := v.addTree sign x l) (v := v) rfl rfl rfl rfl κ

theorem keep_moveTotals {E : Fate → Key → Int → Prop} (x : What → Nat → Int) : ∀ (n l : Nat) (old new : Option Key), KeepAct E (moveTotals x n l old new) := by
  intro n
  induction n with
  | zero => intros; exact .pure _
  | succ n ih =>
    intro l old new
    unfold moveTotals
    split
    · exact .pure _
    · exact .bind (keep_moveStep old) fun _ => .bind (keep_moveStep new) fun _ => ih _ _ _

theorem books_moveStep {sign : Int} {x : What → Nat → Int} {l : Nat} (o : Option Key) :
    Books (match o with
      | none => (pure none : Act (Option Key))
      | some a => update a true (fun v => pure (v.addTree sign x l, v.referrer))) := by
  cases o with
  | none => exact .pure _
  | some a => exact .update fun _ => .pure _

theorem books_moveTotals (x : What → Nat → Int) : ∀ (n l : Nat) (old new : Option Key), Books (moveTotals x n l old new) := by
  intro n
  induction n with
  | zero => intros; exact .pure _
  | succ n ih =>
    intro l old new
    unfold moveTotals
    split
    · exact .pure _
    · exact .bind (books_moveStep old) fun _ => .bind (books_moveStep new) fun _ => ih _ _ _

theorem Books.moveBody (k : Key) (r : Info) (a b : Key) : Books (moveBody k r a b) := by
  unfold Referral.moveBody
  exact .bind (.update fun _ => .bind (.panicIf _) fun _ => .pure _) fun _ => .bind (.update fun _ => .pure _) fun _ =>
    .bind (books_moveTotals _ _ _ _ _) fun _ => .pure _

theorem keep_moveBody (k : Key) (r : Info) (a b : Key) : KeepAct (fun _ _ _ => False) (moveBody k r a b) := by
  unfold moveBody
  refine .bind (.update (fun _ => .bind (.panicIf _) fun _ => .pure _) (fun _ => .bind (.panicIf _) fun _ => .pure _) ?_) fun _ =>
    .bind (.pureUpdate (g := fun v => ({ v.addTree 1 r.tot 1 with
      referrals := v.referrals ++ [k]
      activeReferrals := if r.active then v.activeReferrals ++ [k] else v.activeReferrals }, v.referrer)) ?_) fun _ =>
    .bind (keep_moveTotals _ _ _ _ _) fun _ => .pure _
  · intro v s w x s1 h κ
    unfold leave at h
    rw [M.panicIf_bind_ok] at h
    obtain ⟨-, h⟩ := h
    simp at h
    rw [← h.1.1]
    exact .inl (date_congr (w := { v.addTree (-1) r.tot 1 with referrals := _, activeReferrals := _ }) (v := v) rfl rfl rfl rfl κ)
  · intro v κ
    exact date_congr (w := { v.addTree 1 r.tot 1 with referrals := _, activeReferrals := _ }) (v := v) rfl rfl rfl rfl κ

/-- One record is replaced by one with the same dates. -/
theorem setInfo_safe {k : Key} {v : Info} {s : State} (hs : Safe s) (h : ∀ κ, v.date κ = (infoOf s.store k).date κ) :
    Safe { s with store := s.store.set k v } := by
  intro κ j d hE hd hn
  have hd' : (infoOf (s.store.set k v) j).date κ = some d := hd
  rw [infoOf_set] at hd'
  by_cases hj : j = k
  · rw [if_pos hj, h κ] at hd'
    rw [hj]
    exact hs κ k d id hd' hn
  · rw [if_neg hj] at hd'
    exact hs κ j d id hd' hn

theorem affirmTransition_safe {e : Env} {k : Key} {s t : State} (hs : Safe s) (h : affirmTransition e k s = (.ok (), t)) : Safe t := by
  obtain ⟨a, b, hra, htb, -, -, -, -, -, -, -, -⟩ := affirmTransition_ok h
  have hra : (infoOf s.store k).referrer = some a := hra
  have htb : (infoOf s.store k).transition = some b := htb
  unfold affirmTransition at h
  rw [M.get_bind_ok, M.bind_ok_iff] at h
  obtain ⟨_, s0, h0, h⟩ := h
  obtain ⟨rfl, -⟩ := validateTransition_ok h0
  rw [M.bind_ok_iff] at h
  obtain ⟨_, s1, h1, h⟩ := h
  have e1 : s1 = { s0 with store := s0.store.set k { infoOf s0.store k with referrer := (infoOf s0.store k).transition, transition := none } } := by
    unfold setInfo at h1; simp at h1; exact h1.symm
  rw [hra, htb] at h
  dsimp only at h
  rw [must_ok_iff] at h
  have f1 : Safe s1 := by
    rw [e1]
    refine setInfo_safe hs fun κ => ?_
    cases κ
    · rfl
    · unfold Info.date; dsimp only; rw [hra, htb]; rfl
    · rfl
  have := bunch_safe (e := e) (.moveBody k (infoOf s0.store k) a b) (.moveBody k (infoOf s0.store k) a b) f1 fun t' ht =>
    keep_moveBody k (infoOf s0.store k) a b s1.fresh true t' ht f1
  rw [h] at this
  exact this

theorem requestTransition_safe {e : Env} {k : Key} {d : Option Key} {s t : State} (hs : Safe s) (h : requestTransition e k d s = (.ok (), t)) : Safe t := by
  unfold requestTransition at h
  rw [M.bind_ok_iff] at h
  obtain ⟨_, s0, h0, h⟩ := h
  have e0 : s0 = s := (validateTransition_ok h0).1
  subst e0
  rw [M.get_bind_ok, M.bind_ok_iff] at h
  obtain ⟨_, s1, h1, h⟩ := h
  have f1 : Safe s1 := by
    split at h1
    · exact pay_safe hs h1
    · simp at h1; rw [← h1]; exact hs
  rw [M.get_bind_ok, M.bind_ok_iff] at h
  obtain ⟨_, s2, h2, h⟩ := h
  have f2 : Safe s2 := by
    unfold setInfo at h2
    simp at h2
    rw [← h2]
    exact setInfo_safe f1 fun κ => date_congr (w := { infoOf s1.store k with transition := d }) (v := infoOf s1.store k) rfl rfl rfl rfl κ
  have hg := (Books.schedule _ _ _).of h
  have e2 : t.store = s2.store := request_quiet h
  intro κ j x hE hd hn
  rw [e2] at hd
  rw [hg.1] at hn
  exact hg.2 _ _ _ (f2 κ j x id hd hn)

end Verif.Referral
