import Verif.Referral.Earned

/-! Property C64: nobody keeps a status they did not earn, unless the day of the downgrade is set; the operations. -/
namespace Verif.Referral
open Relation

/-- Everybody has earned their status or is about to lose it. -/
def AllFair (st : KV Nat Info) : Prop := Fair (fun _ => False) st

theorem bunch_fair {e : Env} {m : Act Bool} (hm : Framed m) {s : State} (hs : AllFair s.store)
    (h : ∀ t, m s.fresh = (.ok true, t) → AllFair t.work) : AllFair (bunch e m s).2.store := by
  obtain ⟨ho, hc⟩ := bunch_cases (e := e) hm s
  rcases hc with hc | ⟨t, ht, hc⟩
  · rw [hc]; exact hs
  · rw [hc]; exact h t ht

theorem calm_bunch {e : Env} {m : Act Bool} (hm : Framed m) (hc : CalmAct m) {s : State} (hn : NoSelf s.store) (hs : AllFair s.store) :
    AllFair (bunch e m s).2.store := bunch_fair hm hs fun t ht => (hc s.fresh true t ht hn).fair _ hs

theorem Listed.noSelf {s : State} (hg : Good s) (h : Listed s) : NoSelf s.store := by
  intro k hk
  have := (h.mem k k).1 hk
  exact hg.irrefl (c := k) this.1

theorem add_money_active (v : Info) (c d : Int) (l j : Nat) : (v.add (money c d) l).tot .active j = v.tot .active j := by
  unfold Info.add money
  dsimp only
  split
  · omega
  · rfl

theorem calm_pure_update {α : Type} {k : Key} {g : Info → Info × α} (h : ∀ v, (g v).1.activeReferrals = v.activeReferrals ∧
    (g v).1.tot .active 1 = v.tot .active 1) : CalmAct (update k true fun v => (pure (g v) : Act (Info × α))) := by
  refine .update (fun v => (Still.pure _).calm) ?_
  intro v s w a s1 hh
  simp at hh
  have := h v
  rw [hh.1] at this
  exact this

theorem calm_climb_money {c d : Int} (n l : Nat) (k : Option Key) : CalmAct (climb true (fun l _ v => pure (v.add (money c d) l)) n l k) := by
  refine CalmAct.climb (m := 0) (fun _ _ _ => .pure _) ?_ n l k (by omega)
  intro l k v s w s1 _ h
  simp at h
  rw [← h.1]
  exact ⟨rfl, add_money_active _ _ _ _ _⟩

theorem calm_attach (k : Key) (c d : Int) (p : Option Key) : CalmAct (attach k c d p) := by
  cases p with
  | none => exact (Still.pure _).calm
  | some p =>
    unfold attach
    refine .bind (calm_pure_update (g := fun v => ({ v.add (money c d) 1 with referrals := v.referrals ++ [k] }, v.referrer))
      fun v => ⟨rfl, add_money_active v _ _ 1 1⟩) fun next => ?_
    split
    · exact (Still.pure _).calm
    · exact calm_climb_money _ _ _

theorem calm_detach (k : Key) (c d : Int) (p : Option Key) : CalmAct (detach k c d p) := by
  cases p with
  | none => exact (Still.pure _).calm
  | some p =>
    unfold detach
    refine .bind (calm_pure_update (g := fun v => ({ v.add (money (-c) (-d)) 1 with referrals := removeFast v.referrals k }, v.referrer))
      fun v => ⟨rfl, add_money_active v _ _ 1 1⟩) fun next => ?_
    split
    · exact (Still.pure _).calm
    · exact calm_climb_money _ _ _

/-! ### Registration -/

theorem appendBody_fair {p c : Key} {skip setc : Bool} {s t : State} (hn : NoSelf s.work) (hc : s.work.has c = false) (hs : AllFair s.work)
    (h : appendBody p c skip setc s = (.ok true, t)) : AllFair t.work := by
  unfold appendBody at h
  rw [M.get_bind_ok] at h
  dsimp only at h
  rw [M.bind_ok_iff] at h
  obtain ⟨_, s1, h1, h⟩ := h
  have c1 : Calm s s1 := by
    have : s1 = (put c (if setc then { newInfo (some p) (s.balance c) (s.delegated c) with compressionAt := some (s.now + s.compressionPeriod) }
      else newInfo (some p) (s.balance c) (s.delegated c)) s).2 := by rw [h1]
    rw [this]
    have hi := infoOf_of_not_has hc
    refine CalmAct.put ?_ ?_ ?_
    · rw [hi]; cases setc <;> rfl
    · rw [hi]; cases setc <;> rfl
    · cases setc <;> exact Nat.le_refl 1
  rw [M.bind_ok_iff] at h
  obtain ⟨r, s2, h2, h⟩ := h
  have c2 : Calm s1 s2 := by
    refine CalmAct.update (fun v => (Still.bind (.addCall _ _) fun _ => .pure _).calm) ?_ s1 r s2 h2 (c1.noSelf hn)
    intro v s w a s1 h
    rw [M.bind_ok_iff] at h
    obtain ⟨_, _, -, h⟩ := h
    simp at h
    rw [← h.1.1]
    exact ⟨rfl, add_money_active v _ _ 1 1⟩
  rw [M.errIf_bind_ok] at h
  obtain ⟨-, h⟩ := h
  rw [M.bind_ok_iff] at h
  obtain ⟨_, s3, h3, h⟩ := h
  have c3 : Calm s2 s3 := by
    refine CalmAct.climb (m := 0) (fun _ _ _ => .bind (.addCall _ _) fun _ => .pure _) ?_ 9 2 r.1 (by omega) s2 () s3 h3
      (c2.noSelf (c1.noSelf hn))
    intro l k v s w s1 _ h
    rw [M.bind_ok_iff] at h
    obtain ⟨_, _, -, h⟩ := h
    simp at h
    rw [← h.1]
    exact ⟨rfl, add_money_active _ _ _ _ _⟩
  simp at h
  rw [← h]
  exact c3.fair _ (c2.fair _ (c1.fair _ hs))

theorem appendChild_fair {e : Env} {p c : Key} {skip setc : Bool} {s : State} (hn : NoSelf s.store) (hs : AllFair s.store) :
    AllFair (appendChild e p c skip setc s).2.store := by
  unfold appendChild
  rw [M.bind_ok (M.get_apply s)]
  cases hh : s.store.has c with
  | true => exact hs
  | false =>
    rw [M.bind_ok (show M.errIf false s = (.ok (), s) from rfl)]
    exact bunch_fair (.appendBody _ _ _ _) hs fun t ht => appendBody_fair (s := s.fresh) hn hh hs ht

theorem addTopLevel_fair {e : Env} {k : Key} {s t : State} (hs : AllFair s.store) (h : addTopLevel e k s = (.ok (), t)) : AllFair t.store := by
  unfold addTopLevel at h
  rw [recover_ok_iff, M.get_bind_ok, M.errIf_bind_ok] at h
  obtain ⟨hh, h⟩ := h
  have hi := infoOf_of_not_has hh
  have fr : Framed (do put k (newInfo none (s.balance k) (s.delegated k)); pure true : Act Bool) :=
    .bind (.put _ _) fun _ => (Still.pure _).framed
  have := bunch_fair (e := e) fr hs fun t ht => by
    rw [M.bind_ok_iff] at ht
    obtain ⟨_, s1, h1, ht⟩ := ht
    simp at ht
    rw [← ht]
    have e1 : s1 = (put k (newInfo none (s.balance k) (s.delegated k)) s.fresh).2 := by rw [h1]
    rw [e1]
    refine (CalmAct.put ?_ ?_ (Nat.le_refl 1)).fair _ hs
    · show _ = (infoOf s.store k).activeReferrals; rw [hi]; rfl
    · show _ = (infoOf s.store k).tot .active 1; rw [hi]; rfl
  rw [h] at this
  exact this

/-! ### Balances, coming back, banishment, downgrades -/

theorem calm_reviveDelegator (k : Key) (v : Info) : CalmAct (reviveDelegator k v) := by
  unfold reviveDelegator
  refine .bind ?_ fun w => ?_
  · split
    · exact (Still.bind (.request _) fun _ => .pure _).calm
    · exact (Still.pure _).calm
  · split
    · exact .bind Still.get.calm fun s => .bind (Still.orPanic _).calm fun _ => .bind (calm_attach _ _ _ _) fun _ => (Still.pure _).calm
    · exact (Still.pure _).calm

theorem calm_delegationChanged (k : Key) (v : Info) (d : Int) : CalmAct (delegationChanged k v d) := by
  unfold delegationChanged
  refine .bind Still.get.calm fun s => ?_
  split
  · exact (Still.pure _).calm
  · refine .bind (Still.orPanic _).calm fun x => ?_
    split
    · split
      · exact (Still.scheduleBanishment _ _).calm
      · exact (Still.pure _).calm
    · exact calm_reviveDelegator _ _

theorem reviveDelegator_same {k : Key} {v w : Info} {s t : State} (h : reviveDelegator k v s = (.ok w, t)) :
    w.activeReferrals = v.activeReferrals ∧ w.tot = v.tot := by
  unfold reviveDelegator at h
  rw [M.bind_ok_iff] at h
  obtain ⟨v1, s1, h1, h⟩ := h
  have e1 : v1.activeReferrals = v.activeReferrals ∧ v1.tot = v.tot := by
    cases hb : v.banishmentAt with
    | some x =>
      rw [hb] at h1
      dsimp only at h1
      rw [M.bind_ok_iff] at h1
      obtain ⟨_, _, -, h1⟩ := h1
      simp at h1
      rw [← h1.1]; exact ⟨rfl, rfl⟩
    | none =>
      rw [hb] at h1
      simp at h1; rw [h1.1]; exact ⟨rfl, rfl⟩
  split at h
  · rw [M.get_bind_ok, M.orPanic_bind_ok] at h
    obtain ⟨p, -, h⟩ := h
    rw [M.bind_ok_iff] at h
    obtain ⟨_, _, -, h⟩ := h
    simp at h
    rw [← h.1]; exact e1
  · simp at h; rw [← h.1]; exact e1

theorem delegationChanged_same {k : Key} {v w : Info} {d : Int} {s t : State} (h : delegationChanged k v d s = (.ok w, t)) :
    w.activeReferrals = v.activeReferrals ∧ w.tot = v.tot := by
  unfold delegationChanged at h
  rw [M.get_bind_ok] at h
  split at h
  · simp at h; rw [h.1]; exact ⟨rfl, rfl⟩
  · rw [M.orPanic_bind_ok] at h
    obtain ⟨x, -, h⟩ := h
    split at h
    · split at h
      · unfold scheduleBanishment at h
        rw [M.get_bind_ok, M.bind_ok_iff] at h
        obtain ⟨_, _, -, h⟩ := h
        simp at h
        rw [← h.1]; exact ⟨rfl, rfl⟩
      · simp at h; rw [h.1]; exact ⟨rfl, rfl⟩
    · exact reviveDelegator_same h

theorem calm_balanceBody (k : Key) : CalmAct (balanceBody k) := by
  unfold balanceBody
  refine .bind Still.get.calm fun s => ?_
  split
  · exact (Still.pure _).calm
  · refine .bind (.update ?_ ?_) fun r => .bind ?_ fun _ => (Still.pure _).calm
    · intro v
      unfold ownBalance
      refine .bind Still.get.calm fun s => .bind ?_ fun _ => (Still.pure _).calm
      split
      · exact (Still.pure _).calm
      · exact .bind (Still.addCall _ _).calm fun _ => calm_delegationChanged _ _ _
    · intro v s w a s1 h
      unfold ownBalance at h
      rw [M.get_bind_ok, M.bind_ok_iff] at h
      obtain ⟨v1, s2, h1, h⟩ := h
      simp at h
      rw [← h.1.1]
      have : v1.activeReferrals = v.activeReferrals ∧ v1.tot = v.tot := by
        split at h1
        · simp at h1; rw [h1.1]; exact ⟨rfl, rfl⟩
        · rw [M.bind_ok_iff] at h1
          obtain ⟨_, _, -, h1⟩ := h1
          exact delegationChanged_same h1
      exact ⟨this.1, by rw [← this.2]; rfl⟩
    · split
      · exact (Still.pure _).calm
      · refine CalmAct.climb (m := 0) (fun _ _ _ => .bind (.ite (.pure _) (.addCall _ _)) fun _ => .pure _) ?_ 10 1 _ (by omega)
        intro l k v s w s1 _ h
        rw [M.bind_ok_iff] at h
        obtain ⟨_, _, -, h⟩ := h
        simp at h
        rw [← h.1]
        exact ⟨rfl, add_money_active _ _ _ _ _⟩

theorem calm_comeBackBody (k : Key) : CalmAct (comeBackBody k) := by
  unfold comeBackBody
  refine .bind (.plain (fun v => .bind .get fun s => .bind (.orPanic _) fun _ => .pure _) ?_) fun r =>
    .bind (calm_attach _ _ _ _) fun _ => (Still.pure _).calm
  intro v s w a s1 h
  rw [M.get_bind_ok, M.orPanic_bind_ok] at h
  obtain ⟨p, -, h⟩ := h
  simp at h
  rw [← h.1.1]
  exact ⟨rfl, rfl, .inl (Nat.le_refl 1)⟩

theorem calm_banishBody (k : Key) : CalmAct (banishBody k) := by
  unfold banishBody
  refine .bind (.plain (fun v => .bind .get fun s => .bind (.errIf _) fun _ => .bind (.errIf _) fun _ => .bind (.orPanic _) fun _ =>
    .bind (.errIf _) fun _ => .pure _) ?_) fun r => .bind (Still.errIf _).calm fun _ => .bind (calm_detach _ _ _ _) fun _ => (Still.pure _).calm
  intro v s w a s1 h
  unfold banishSelf at h
  rw [M.get_bind_ok, M.errIf_bind_ok, M.errIf_bind_ok, M.orPanic_bind_ok] at h
  obtain ⟨-, -, d, -, h⟩ := h
  rw [M.errIf_bind_ok] at h
  obtain ⟨-, h⟩ := h
  simp at h
  rw [← h.1.1]
  exact ⟨rfl, rfl, .inl (Nat.zero_le 1)⟩

theorem calm_downgradeBody (k : Key) : CalmAct (downgradeBody k) := by
  unfold downgradeBody
  refine .bind (.update ?_ ?_) fun _ => .bind (Still.addCall _ _).calm fun _ => (Still.pure _).calm
  · intro v
    unfold downgradeSelf
    exact (Still.bind .get fun s => .ite (.pure _) (.ite .panic (.bind (.setStatus _ _ _) fun _ => .pure _))).calm
  · intro v s w a s1 h
    unfold downgradeSelf at h
    rw [M.get_bind_ok] at h
    split at h
    · simp at h; rw [h.1]; exact ⟨rfl, rfl⟩
    · split at h
      · simp at h
      · dsimp only at h
        rw [M.bind_ok_iff] at h
        obtain ⟨w1, s2, h1, h⟩ := h
        simp at h
        have hc := setStatus_core h1
        have n1 : w1.activeReferrals = v.activeReferrals := (congrArg Info.activeReferrals hc : (core w1).activeReferrals = (core v).activeReferrals)
        have n2 : w1.tot = v.tot := (congrArg Info.tot hc : (core w1).tot = (core v).tot)
        rw [← h.1]
        exact ⟨n1, by show w1.tot .active 1 = _; rw [n2]⟩

/-! ### Activity -/

theorem mem_addSorted {x y : Key} : ∀ {l : List Key}, y ∈ addSorted l x → y = x ∨ y ∈ l := by
  intro l
  induction l with
  | nil => intro h; unfold addSorted at h; rw [List.mem_singleton] at h; exact .inl h
  | cons z l ih =>
    intro h
    unfold addSorted at h
    split at h
    · exact .inr h
    · split at h
      · rw [List.mem_cons] at h; exact h
      · rw [List.mem_cons] at h
        rcases h with h | h
        · rw [h]; exact .inr (.head _)
        · rcases ih h with h | h
          · exact .inl h
          · exact .inr (.tail _ h)

theorem activeBody_fair {k : Key} {value : Bool} {s t : State} (hg : Good s) (hl : Listed s) (hs : AllFair s.store)
    (h : activeBody k value true s.fresh = (.ok true, t)) : AllFair t.work := by
  have hn : NoSelf s.fresh.work := hl.noSelf hg
  have hs : AllFair s.fresh.work := hs
  have hlm : ∀ a c, c ∈ (infoOf s.fresh.work a).activeReferrals → (infoOf s.fresh.work c).referrer = some a := fun a c h => ((hl.mem a c).1 h).1
  have hir : (infoOf s.fresh.work k).referrer ≠ some k := hg.irrefl (c := k)
  generalize s.fresh = s at *
  unfold activeBody at h
  rw [M.get_bind_ok] at h
  split at h
  · simp at h
  rw [M.bind_ok_iff] at h
  obtain ⟨parent, s1, h1, h⟩ := h
  rw [M.bind_ok_iff] at h
  obtain ⟨_, s2, h2, h⟩ := h
  have ht : t.work = s2.work := by
    rw [M.bind_ok_iff] at h
    obtain ⟨_, s3, h3, h⟩ := h
    simp at h
    rw [← h]
    split at h3
    · exact ((Still.request _).of h3).work
    · simp at h3; rw [h3]
  rw [ht]
  clear h ht t
  have sta := fun v => Framed.activateSelf k value v
  have c1 : Calm s s1 := by
    refine CalmAct.plain sta ?_ s parent s1 h1 hn
    intro v s w a s1 h
    unfold activateSelf at h
    rw [M.get_bind_ok, M.bind_ok_iff] at h
    obtain ⟨w1, s2, h1, h⟩ := h
    simp at h
    rw [← h.1.1]
    have fin : w1.activeReferrals = v.activeReferrals ∧ w1.tot = (v.add (people value) 0).tot ∧ w1.status = v.status ∧ w1.downgradeAt = v.downgradeAt := by
      cases hb : v.banishmentAt with
      | some x =>
        rw [hb] at h1
        dsimp only at h1
        split at h1
        · rw [M.bind_ok_iff] at h1
          obtain ⟨_, _, -, h1⟩ := h1
          simp at h1
          rw [← h1.1]
          exact ⟨rfl, rfl, rfl, rfl⟩
        · simp at h1; rw [← h1.1]; exact ⟨rfl, rfl, rfl, rfl⟩
      | none => rw [hb] at h1; simp at h1; rw [← h1.1]; exact ⟨rfl, rfl, rfl, rfl⟩
    refine ⟨fin.1, by rw [fin.2.1]; rfl, .inr ⟨fin.2.2.1, fin.2.2.2, ?_⟩⟩
    rw [fin.2.1]
    funext j; unfold Info.add people; dsimp only; split <;> omega
  have n1 := c1.noSelf hn
  obtain ⟨w0, s0, h0, hw0⟩ := update_plain h1
  have q0 := (sta _).of h0
  have hp : parent = (infoOf s.work k).referrer := by
    unfold activateSelf at h0
    rw [M.get_bind_ok, M.bind_ok_iff] at h0
    obtain ⟨w1, s2, -, h0⟩ := h0
    simp at h0
    exact h0.1.2.symm
  cases parent with
  | none =>
    have : s2.work = s1.work := by simp [climb] at h2; rw [h2]
    rw [this]
    exact c1.fair _ hs
  | some p =>
    have hpk : p ≠ k := fun e => hir (by rw [← hp, e])
    have hrp : (infoOf s1.work p).referrer = (infoOf s.work p).referrer := by rw [hw0, infoOf_set, if_neg hpk, q0.work]
    unfold climb at h2
    rw [M.bind_ok_iff] at h2
    obtain ⟨next, s3, h3, h4⟩ := h2
    obtain ⟨w, s4, n, h5, hw, hc, he⟩ := update_checked h3
    rw [M.bind_ok_iff] at h5
    obtain ⟨w', s5, h6, h5⟩ := h5
    rw [if_pos rfl] at h6
    simp at h6 h5
    obtain ⟨⟨rfl, hnx⟩, rfl⟩ := h5
    obtain ⟨h5, rfl⟩ := h6
    have m1 : n.activeReferrals = w'.activeReferrals := (congrArg Info.activeReferrals hc : (core n).activeReferrals = (core w').activeReferrals)
    have hpn : p ∉ n.activeReferrals := by
      rw [m1, ← h5]
      intro hm
      have hm : p ∈ (if value then addSorted (infoOf s1.work p).activeReferrals k else removeOrdered (infoOf s1.work p).activeReferrals k) := hm
      split at hm
      · rcases mem_addSorted hm with hm | hm
        · exact hpk hm
        · exact n1 p hm
      · exact n1 p (List.mem_of_mem_erase hm)
    have f3 := (c1.fair _ hs).set he hpn
    rw [← hw] at f3
    have n3 : NoSelf s3.work := by
      intro j
      rw [hw, infoOf_set]
      split
      · rename_i hj; rw [hj]; exact hpn
      · exact n1 j
    refine climb_clears (m := 2) (n := 8) (fun _ _ _ => Still.pure _) ?_ (Nat.le_refl 2) h4 n3 f3 ?_
    · intro l a v s w s1 hl h
      rw [if_neg (by omega)] at h
      simp at h
      rw [← h.1]
      refine ⟨rfl, ?_⟩
      unfold Info.add
      dsimp only
      rw [if_neg (by omega)]
    · rintro j ⟨hj, h | ⟨h, -⟩⟩
      · exact h.elim
      · rw [c1.lists] at h
        rw [← hnx, hrp]
        exact hlm j p h

end Verif.Referral
