import Verif.Referral.Earned2

/-! Property C64: nobody keeps a status they did not earn, unless the day of the downgrade is set; compression, transitions, executions. -/
namespace Verif.Referral
open Relation

/-! ### Compression -/

theorem compressSelf_status {k : Key} {v w old : Info} {s t : State} (h : compressSelf k v s = (.ok (w, old), t)) : w.status = 1 := by
  unfold compressSelf at h
  rw [M.errIf_bind_ok] at h
  obtain ⟨-, h⟩ := h
  rw [M.bind_ok_iff] at h
  obtain ⟨_, s1, -, h⟩ := h
  rw [M.bind_ok_iff] at h
  obtain ⟨w1, s2, h2, h⟩ := h
  have e2 := setStatus_result h2
  rw [M.bind_ok_iff] at h
  obtain ⟨_, s3, -, h⟩ := h
  rw [M.orPanic_bind_ok] at h
  obtain ⟨d, -, h⟩ := h
  rw [M.get_bind_ok, M.bind_ok_iff] at h
  obtain ⟨w2, s4, h4, h⟩ := h
  simp at h
  obtain ⟨⟨rfl, -⟩, -⟩ := h
  split at h4
  · unfold scheduleBanishment at h4
    rw [M.get_bind_ok, M.bind_ok_iff] at h4
    obtain ⟨_, s5, -, h4⟩ := h4
    simp at h4
    rw [← h4.1, e2]
  · simp at h4
    rw [← h4.1, e2]

theorem calm_redirect {p : Option Key} (l : List Key) :
    CalmAct (M.forEach l (fun c => update c false (fun v => (pure ({ v with referrer := p }, ()) : Act (Info × Unit))))) := by
  induction l with
  | nil => exact (Still.pure _).calm
  | cons c l ih =>
    rw [M.forEach_cons]
    refine .bind (.plain (fun v => .pure _) ?_) fun _ => ih
    intro v s w a s1 h
    simp at h
    rw [← h.1]
    exact ⟨rfl, rfl, .inr ⟨rfl, rfl, rfl⟩⟩

theorem earned_low {st : KV Nat Info} {v : Info} (h : v.status ≤ 1) : Earned st v := by
  intro d hd
  have : v.status = 0 ∨ v.status = 1 := by omega
  rcases this with h | h <;> rw [h] at hd <;> cases hd

theorem compressBody_fair {k : Key} {s t : State} (hg : Good s) (hl : Listed s) (hs : AllFair s.store)
    (h : compressBody k s.fresh = (.ok true, t)) : AllFair t.work := by
  have hn : NoSelf s.fresh.work := hl.noSelf hg
  have hs : AllFair s.fresh.work := hs
  have hlm : ∀ a c, c ∈ (infoOf s.fresh.work a).activeReferrals → (infoOf s.fresh.work c).referrer = some a := fun a c h => ((hl.mem a c).1 h).1
  have hrm : ∀ a c, c ∈ (infoOf s.fresh.work a).referrals → (infoOf s.fresh.work c).referrer = some a := fun a c h => ((hg.mem a c).1 h).1
  have hir : (infoOf s.fresh.work k).referrer ≠ some k := hg.irrefl (c := k)
  have hcy : ∀ p, (infoOf s.fresh.work k).referrer = some p → (infoOf s.fresh.work p).referrer ≠ some k := by
    intro p hp hc
    have h1 : (treeOf (view s.store)).over p k := hp
    have h2 : (treeOf (view s.store)).over k p := hc
    have : ∀ x, Acc (TransGen (treeOf (view s.store)).over) x → x = k → False := by
      intro x hx
      induction hx with
      | intro x _ ih => intro hxc; subst hxc; exact ih x (.tail (.single h2) h1) rfl
    exact this k (hg.acc k).transGen rfl
  generalize s.fresh = s at *
  unfold compressBody at h
  rw [M.bind_ok_iff] at h
  obtain ⟨old, s1, h1, h⟩ := h
  obtain ⟨w, s0, h0, hw⟩ := update_plain h1
  obtain ⟨q0, rfl, ⟨p, hp⟩, b, hcw⟩ := compressSelf_ok h0
  have hst := compressSelf_status h0
  rw [q0.work] at hw
  have w1 : w.activeReferrals = [] := (congrArg Info.activeReferrals hcw : (core w).activeReferrals = _)
  have hpk : p ≠ k := fun e => hir (by rw [hp, e])
  have f1 := hs.set (k := k) (n := w) (fun _ => earned_low (by omega)) (by rw [w1]; simp)
  rw [← hw] at f1
  have i1 : ∀ j, infoOf s1.work j = if j = k then w else infoOf s.work j := by intro j; rw [hw, infoOf_set]
  have n1 : NoSelf s1.work := by
    intro j; rw [i1]; split
    · rw [w1]; simp
    · exact hn j
  rw [M.bind_ok_iff] at h
  obtain ⟨_, s2, h2, h⟩ := h
  have c2 := calm_redirect _ s1 () s2 h2 n1
  obtain ⟨-, v2⟩ := redirect_forEach _ _ _ h2
  have n2 := c2.noSelf n1
  have hrp : (infoOf s2.work p).referrer = (infoOf s.work p).referrer := by
    have e : (infoOf s2.work p).referrer = (view s2.work p).referrer := rfl
    rw [e, v2]
    unfold redirect
    rw [if_neg fun hm => hcy p hp (hrm k p hm)]
    show (infoOf s1.work p).referrer = _
    rw [i1, if_neg hpk]
  rw [M.bind_ok_iff] at h
  obtain ⟨_, s3, h3, h⟩ := h
  simp at h
  subst h
  rw [hp] at h3
  unfold climb at h3
  rw [M.bind_ok_iff] at h3
  obtain ⟨next, s4, h4, h3⟩ := h3
  obtain ⟨w', s5, n, h5, hw', hc, he⟩ := update_checked h4
  rw [M.bind_ok_iff] at h5
  obtain ⟨w'', s6, h6, h5⟩ := h5
  simp at h5
  obtain ⟨⟨rfl, hnx⟩, rfl⟩ := h5
  rw [M.bind_ok_iff] at h6
  obtain ⟨_, s7, h7, h6⟩ := h6
  have q7 := (Still.addCall _ _).of h7
  rw [if_pos rfl] at h6
  simp at h6
  obtain ⟨h6, rfl⟩ := h6
  rw [q7.work] at hw' he
  have m1 : n.activeReferrals = w''.activeReferrals := (congrArg Info.activeReferrals hc : (core n).activeReferrals = (core w'').activeReferrals)
  have hpn : p ∉ n.activeReferrals := by
    rw [m1, ← h6]
    show p ∉ mergeSorted (infoOf s2.work p).activeReferrals (infoOf s.work k).activeReferrals
    rw [c2.lists, i1, if_neg hpk]
    have dis : List.Disjoint (infoOf s.work p).activeReferrals (infoOf s.work k).activeReferrals := by
      intro x hx hy
      have := (hlm p x hx).symm.trans (hlm k x hy)
      injection this with this
      exact hpk this
    rw [(mergeSorted_perm dis).mem_iff, List.mem_append, not_or]
    exact ⟨hn p, fun hm => hcy p hp (hlm k p hm)⟩
  have f3 := (c2.fair _ f1).set he hpn
  rw [← hw'] at f3
  have n3 : NoSelf s4.work := by
    intro j
    rw [hw', infoOf_set]
    split
    · rename_i hj; rw [hj]; exact hpn
    · exact n2 j
  refine climb_clears (m := 2) (n := 8) (fun _ _ _ => .bind (.addCall _ _) fun _ => Still.pure _) ?_ (Nat.le_refl 2) h3 n3 f3 ?_
  · intro l a v s w s1 hl h
    rw [M.bind_ok_iff] at h
    obtain ⟨_, _, -, h⟩ := h
    rw [if_neg (by omega)] at h
    simp at h
    rw [← h.1]
    refine ⟨rfl, ?_⟩
    unfold squeezed
    dsimp only
    rw [if_neg (by omega), if_neg (by omega)]
  · rintro j ⟨hj, ⟨hjk, h | ⟨h, -⟩⟩ | ⟨h, -⟩⟩
    · exact h.elim
    · have := hlm j k h
      rw [hp] at this
      injection this with this
      exact absurd this.symm hj
    · rw [c2.lists, i1] at h
      split at h
      · rw [w1] at h; simp at h
      · rw [← hnx, hrp]
        exact hlm j p h

/-! ### Transitions -/

theorem addTree_one (v : Info) (sign : Int) (x : What → Nat → Int) {l : Nat} (hl : 2 ≤ l) : (v.addTree sign x l).tot .active 1 = v.tot .active 1 := by
  unfold Info.addTree
  dsimp only
  rw [if_neg (by omega)]

theorem calm_moveStep {sign : Int} {x : What → Nat → Int} {l : Nat} (hl : 2 ≤ l) (o : Option Key) :
    CalmAct (match o with
      | none => (pure none : Act (Option Key))
      | some a => update a true (fun v => pure (v.addTree sign x l, v.referrer))) := by
  cases o with
  | none => exact (Still.pure _).calm
  | some a => exact calm_pure_update fun v => ⟨rfl, addTree_one v sign x hl⟩

theorem moveStep_clears {sign : Int} {x : What → Nat → Int} {l : Nat} (hl : 2 ≤ l) {o o' : Option Key} {s t : State}
    (h : (match o with
      | none => (pure none : Act (Option Key))
      | some a => update a true (fun v => pure (v.addTree sign x l, v.referrer))) s = (.ok o', t)) (hs : NoSelf s.work)
    {E : Key → Prop} (hE : Fair E s.work) : Fair (fun j => E j ∧ o ≠ some j) t.work := by
  cases o with
  | none =>
    simp at h
    rw [← h.2]
    exact hE.mono fun j hj => ⟨hj, by simp⟩
  | some a =>
    refine (update_clears (k := a) (f := fun v => pure (v.addTree sign x l, v.referrer)) (fun v => (Still.pure _).calm) ?_ h hs hE).mono ?_
    · intro v s w a s1 hh
      simp at hh
      rw [← hh.1.1]
      exact ⟨rfl, addTree_one v sign x hl⟩
    · rintro j ⟨h1, h2⟩
      exact ⟨h1, fun e => h2 (by injection e with e; exact e.symm)⟩

theorem calm_moveTotals (x : What → Nat → Int) : ∀ (n l : Nat) (old new : Option Key), 2 ≤ l → CalmAct (moveTotals x n l old new) := by
  intro n
  induction n with
  | zero => intros; exact (Still.pure _).calm
  | succ n ih =>
    intro l old new hl
    unfold moveTotals
    split
    · exact (Still.pure _).calm
    · exact .bind (calm_moveStep hl old) fun _ => .bind (calm_moveStep hl new) fun _ => ih _ _ _ (by omega)

theorem moveBody_fair {k : Key} {r : Info} {a b : Key} {s t : State} (hab : a ≠ b) (hbk : b ≠ k) (hn : NoSelf s.work)
    (hd : (infoOf s.work a).activeReferrals.Nodup)
    (hla : ∀ j, a ∈ (infoOf s.work j).activeReferrals → (infoOf s.work a).referrer = some j)
    (hlb : ∀ j, b ∈ (infoOf s.work j).activeReferrals → (infoOf s.work b).referrer = some j)
    (hap : r.tot .active 0 ≠ 0 → ∀ g, (infoOf s.work a).referrer = some g → (infoOf s.work b).referrer ≠ some g)
    (hs : AllFair s.work) (h : moveBody k r a b s = (.ok true, t)) : AllFair t.work := by
  unfold moveBody at h
  rw [M.bind_ok_iff] at h
  obtain ⟨old, s1, h1, h⟩ := h
  obtain ⟨w1, s0, n1, h0, hw1, hc1, he1⟩ := update_checked h1
  unfold leave at h0
  rw [M.panicIf_bind_ok] at h0
  obtain ⟨-, h0⟩ := h0
  simp at h0
  obtain ⟨⟨h0, ho⟩, rfl⟩ := h0
  have m1 : n1.activeReferrals = w1.activeReferrals := (congrArg Info.activeReferrals hc1 : (core n1).activeReferrals = (core w1).activeReferrals)
  have t1 : n1.tot = w1.tot := (congrArg Info.tot hc1 : (core n1).tot = (core w1).tot)
  have sub1 : ∀ x, x ∈ n1.activeReferrals → x ∈ (infoOf s.work a).activeReferrals := by
    intro x hx
    rw [m1, ← h0] at hx
    have hx : x ∈ (if r.active then removeFast (infoOf s.work a).activeReferrals k else (infoOf s.work a).activeReferrals) := hx
    split at hx
    · exact ((mem_removeFast hd).1 hx).1
    · exact hx
  have f1 := hs.set he1 (fun hm => hn a (sub1 a hm))
  rw [← hw1] at f1
  have i1 : ∀ j, infoOf s1.work j = if j = a then n1 else infoOf s.work j := by intro j; rw [hw1, infoOf_set]
  have N1 : NoSelf s1.work := by
    intro j; rw [i1]; split
    · rename_i hj; rw [hj]; exact fun hm => hn a (sub1 a hm)
    · exact hn j
  rw [M.bind_ok_iff] at h
  obtain ⟨new, s2, h2, h⟩ := h
  obtain ⟨w2, s3, n2, h3, hw2, hc2, he2⟩ := update_checked h2
  unfold join at h3
  simp at h3
  obtain ⟨⟨h3, ho2⟩, rfl⟩ := h3
  have hib : infoOf s1.work b = infoOf s.work b := by rw [i1, if_neg (Ne.symm hab)]
  rw [hib] at h3 ho2
  have m2 : n2.activeReferrals = w2.activeReferrals := (congrArg Info.activeReferrals hc2 : (core n2).activeReferrals = (core w2).activeReferrals)
  have t2 : n2.tot = w2.tot := (congrArg Info.tot hc2 : (core n2).tot = (core w2).tot)
  have hb2 : b ∉ n2.activeReferrals := by
    rw [m2, ← h3]
    intro hm
    have hm : b ∈ (if r.active then (infoOf s.work b).activeReferrals ++ [k] else (infoOf s.work b).activeReferrals) := hm
    split at hm
    · rw [List.mem_append, List.mem_singleton] at hm
      rcases hm with hm | hm
      · exact hn b hm
      · exact hbk hm
    · exact hn b hm
  have f2 := f1.set he2 hb2
  rw [← hw2] at f2
  have N2 : NoSelf s2.work := by
    intro j; rw [hw2, infoOf_set]; split
    · rename_i hj; rw [hj]; exact hb2
    · exact N1 j
  have d1 : n1.tot .active 1 = (infoOf s.work a).tot .active 1 + -1 * r.tot .active 0 := by rw [t1, ← h0]; rfl
  have d2 : n2.tot .active 1 = (infoOf s.work b).tot .active 1 + 1 * r.tot .active 0 := by rw [t2, ← h3]; rfl
  have f3 : Fair (fun j => r.tot .active 0 ≠ 0 ∧ (old = some j ∨ new = some j)) s2.work := by
    refine f2.mono ?_
    rintro j ⟨-, ⟨-, h | ⟨h, h'⟩⟩ | ⟨h, h'⟩⟩
    · exact h.elim
    · refine ⟨fun e => h' ?_, .inl ?_⟩
      · rw [d1, e]; omega
      · rw [← ho]; exact hla j h
    · refine ⟨fun e => h' ?_, .inr ?_⟩
      · rw [hib, d2, e]; omega
      · rw [← ho2]
        refine hlb j ?_
        rw [i1] at h
        split at h
        · rename_i hj; rw [hj]; exact sub1 b h
        · exact h
  rw [M.bind_ok_iff] at h
  obtain ⟨_, s4, h4, h⟩ := h
  simp at h
  subst h
  by_cases hz : r.tot .active 0 = 0
  · exact (calm_moveTotals _ _ _ _ _ (Nat.le_refl 2) s2 () s4 h4 N2).fair _ (f3.mono fun j hj => hj.1 hz)
  · unfold moveTotals at h4
    split at h4
    · rename_i he
      simp at h4
      subst h4
      refine f3.mono ?_
      rintro j ⟨-, hj⟩
      have hj : old = some j ∧ new = some j := by
        rcases hj with hj | hj
        · exact ⟨hj, he ▸ hj⟩
        · exact ⟨he.symm ▸ hj, hj⟩
      exact hap hz j (ho.trans hj.1) (ho2.trans hj.2)
    · rw [M.bind_ok_iff] at h4
      obtain ⟨old', s5, h5, h4⟩ := h4
      rw [M.bind_ok_iff] at h4
      obtain ⟨new', s6, h6, h4⟩ := h4
      have c5 := calm_moveStep (Nat.le_refl 2) _ s2 _ s5 h5 N2
      have N5 := c5.noSelf N2
      have f5 := moveStep_clears (Nat.le_refl 2) h5 N2 f3
      have c6 := calm_moveStep (Nat.le_refl 2) _ s5 _ s6 h6 N5
      have f6 := moveStep_clears (Nat.le_refl 2) h6 N5 f5
      refine (calm_moveTotals _ _ _ _ _ (by omega) s6 () s4 h4 (c6.noSelf N5)).fair _ (f6.mono ?_)
      rintro j ⟨⟨⟨-, h | h⟩, h1⟩, h2⟩
      · exact h1 h
      · exact h2 h

/-! ### Operations -/

theorem setInfo_fair {k : Key} {v : Info} {st : KV Nat Info} (hs : AllFair st) (h1 : v.activeReferrals = (infoOf st k).activeReferrals)
    (h2 : v.tot = (infoOf st k).tot) (h3 : v.status = (infoOf st k).status) (h4 : v.downgradeAt = (infoOf st k).downgradeAt) :
    AllFair (st.set k v) := hs.same h1 (by rw [h2]) (.inr ⟨h3, h4, by rw [h2]⟩)

theorem onBalanceChanged_fair {e : Env} {k : Key} {s : State} (hn : NoSelf s.store) (hs : AllFair s.store) :
    AllFair (onBalanceChanged e k s).2.store := calm_bunch (.balanceBody _) (calm_balanceBody k) hn hs

theorem setPurse_fair {e : Env} {a : Addr} {p : Purse} {s : State} (hn : NoSelf s.store) (hs : AllFair s.store) :
    AllFair (setPurse e a p s).2.store := by
  unfold setPurse
  rw [M.bind_ok (M.modify_apply _ s)]
  exact onBalanceChanged_fair (s := { s with purse := _ }) hn hs

theorem pay_fair {e : Env} {a : Addr} {x : Int} {s t : State} (hg : Good s) (hl : Listed s) (hs : AllFair s.store) (h : pay e a x s = (.ok (), t)) :
    AllFair t.store := by
  unfold pay at h
  rw [M.get_bind_ok, M.errIf_bind_ok] at h
  obtain ⟨-, h⟩ := h
  rw [M.bind_ok_iff] at h
  obtain ⟨_, s1, h1, h⟩ := h
  have g1 := setPurse_good (e := e) (a := a) (p := { s.purse a with main := (s.purse a).main - x }) hg
  have l1 := setPurse_listed (e := e) (a := a) (p := { s.purse a with main := (s.purse a).main - x }) hl
  have f1 := setPurse_fair (e := e) (a := a) (p := { s.purse a with main := (s.purse a).main - x }) (hl.noSelf hg) hs
  rw [h1] at g1 l1 f1
  rw [M.get_bind_ok] at h
  have f2 := setPurse_fair (e := e) (a := s1.collector) (p := { s1.purse s1.collector with main := (s1.purse s1.collector).main + x })
    (l1.noSelf g1) f1
  rw [h] at f2
  exact f2

theorem tx_fair {α : Type} {m : Act α} {s : State} (hs : AllFair s.store) (h : ∀ a t, m s = (.ok a, t) → AllFair t.store) :
    AllFair (M.tx m s).store := by
  rcases M.tx_cases m s with ⟨x, hx⟩ | ⟨-, hx⟩
  · exact h x _ hx
  · rw [hx]; exact hs

theorem setActive_fair {e : Env} {k : Key} {value : Bool} {s : State} (hg : Good s) (hl : Listed s) (hs : AllFair s.store) :
    AllFair (setActive e k value true s).2.store :=
  bunch_fair (.activeBody _ _ _) hs fun _ ht => activeBody_fair hg hl hs ht

theorem register_fair {e : Env} {c p : Key} {a : Bool} {s t : State} (hg : Good s) (hl : Listed s) (hs : AllFair s.store) (hne : c ≠ p)
    (h : register e c p a s = (.ok (), t)) : AllFair t.store := by
  unfold register at h
  rw [M.bind_ok_iff] at h
  obtain ⟨_, s1, h1, h⟩ := h
  have g1 := appendChild_good (e := e) (skip := false) (setc := true) hg hne
  have l1 := appendChild_listed (e := e) (p := p) (c := c) (skip := false) (setc := true) hl
  have f1 := appendChild_fair (e := e) (p := p) (c := c) (skip := false) (setc := true) (hl.noSelf hg) hs
  rw [h1] at g1 l1 f1
  rw [M.get_bind_ok, M.bind_ok_iff] at h
  obtain ⟨_, s2, h2, h⟩ := h
  have e2 : s2.store = s1.store := request_quiet h2
  have g2 : Good s2 := by unfold Good; rw [e2]; exact g1
  have l2 : Listed s2 := by unfold Listed; rw [e2]; exact l1
  have f2 : AllFair s2.store := by rw [e2]; exact f1
  split at h
  · have := setActive_fair (e := e) (k := c) (value := true) g2 l2 f2
    rw [h] at this; exact this
  · simp at h; rw [← h]; exact f2

theorem returnIfBanished_fair {e : Env} {k : Key} {s t : State} (hg : Good s) (hl : Listed s) (hs : AllFair s.store)
    (h : returnIfBanished e k s = (.ok (), t)) : AllFair t.store := by
  unfold returnIfBanished at h
  rw [M.get_bind_ok] at h
  split at h
  · have := calm_bunch (e := e) (.comeBackBody k) (calm_comeBackBody k) (hl.noSelf hg) hs
    unfold comeBack at h
    rw [h] at this; exact this
  · simp at h; rw [← h]; exact hs

/-- What is asked of the steps: those of `structureOk`; no import; and an active account is not moved between referrals of the same
account. -/
def fairOk : Op → State → Prop
  | .banished _ _, _ => False
  | .times _ _ _ _ _ _, _ => False
  | .activate _, _ => False
  | .resolve _ k _, s => ∀ a b g, (infoOf s.store k).referrer = some a → (infoOf s.store k).transition = some b →
      (infoOf s.store k).tot .active 0 ≠ 0 → (infoOf s.store a).referrer = some g → (infoOf s.store b).referrer ≠ some g
  | op, s => structureOk op s

theorem fairOk.actives {op : Op} {s : State} (h : fairOk op s) : activesOk op s := by
  cases op <;> first | exact h | trivial

theorem affirmTransition_fair {e : Env} {k : Key} {s t : State} (hg : Good s) (hl : Listed s) (hs : AllFair s.store)
    (hap : ∀ a b g, (infoOf s.store k).referrer = some a → (infoOf s.store k).transition = some b →
      (infoOf s.store k).tot .active 0 ≠ 0 → (infoOf s.store a).referrer = some g → (infoOf s.store b).referrer ≠ some g)
    (h : affirmTransition e k s = (.ok (), t)) : AllFair t.store := by
  obtain ⟨a, b, hra, htb, hab, hkb, -, -, -, -, -, -⟩ := affirmTransition_ok h
  have hra : (infoOf s.store k).referrer = some a := hra
  have htb : (infoOf s.store k).transition = some b := htb
  have hak : a ≠ k := fun e => hg.irrefl (c := k) (by show (infoOf s.store k).referrer = _; rw [hra, e])
  unfold affirmTransition at h
  rw [M.get_bind_ok, M.bind_ok_iff] at h
  obtain ⟨_, s0, h0, h⟩ := h
  obtain ⟨rfl, -⟩ := validateTransition_ok h0
  rw [M.bind_ok_iff] at h
  obtain ⟨_, s1, h1, h⟩ := h
  have e1 : s1 = { s0 with store := s0.store.set k { infoOf s0.store k with referrer := (infoOf s0.store k).transition, transition := none } } := by
    unfold setInfo at h1; simp at h1; exact h1.symm
  rw [hra, htb] at h
  dsimp only at h
  rw [must_ok_iff] at h
  have f1 : AllFair s1.store := by
    rw [e1]; exact setInfo_fair hs rfl rfl rfl rfl
  have i1 : ∀ j, infoOf s1.store j = if j = k then { infoOf s0.store k with referrer := (infoOf s0.store k).transition, transition := none } else infoOf s0.store j := by
    intro j; rw [e1]; exact infoOf_set _ _ _ _
  have la : ∀ j, (infoOf s1.store j).activeReferrals = (infoOf s0.store j).activeReferrals := by
    intro j; rw [i1]; split
    · rename_i hj; rw [hj]
    · rfl
  have ia : infoOf s1.store a = infoOf s0.store a := by rw [i1, if_neg hak]
  have ib : infoOf s1.store b = infoOf s0.store b := by rw [i1, if_neg (Ne.symm hkb)]
  have hn := hl.noSelf hg
  have := bunch_fair (e := e) (Framed.moveBody k (infoOf s0.store k) a b) f1 fun t' ht => by
    refine moveBody_fair (s := s1.fresh) hab (Ne.symm hkb) ?_ ?_ ?_ ?_ ?_ f1 ht
    · intro j; show j ∉ (infoOf s1.store j).activeReferrals; rw [la]; exact hn j
    · show (infoOf s1.store a).activeReferrals.Nodup; rw [la]; exact hl.nodup a
    · intro j hj
      have hj : a ∈ (infoOf s1.store j).activeReferrals := hj
      rw [la] at hj
      show (infoOf s1.store a).referrer = _
      rw [ia]
      exact ((hl.mem j a).1 hj).1
    · intro j hj
      have hj : b ∈ (infoOf s1.store j).activeReferrals := hj
      rw [la] at hj
      show (infoOf s1.store b).referrer = _
      rw [ib]
      exact ((hl.mem j b).1 hj).1
    · intro hz g hga
      have hga : (infoOf s1.store a).referrer = some g := hga
      rw [ia] at hga
      show (infoOf s1.store b).referrer ≠ _
      rw [ib]
      exact hap a b g hra htb hz hga
  rw [h] at this
  exact this

theorem step_fair (e : Env) (op : Op) (s : State) (hg : Good s) (hl : Listed s) (hs : AllFair s.store) (h : fairOk op s) :
    AllFair (step e op s).store := by
  have from2 : ∀ {m : Act Unit} {t : State}, AllFair (m s).2.store → m s = (.ok (), t) → AllFair t.store := by
    intro m t g h; rw [h] at g; exact g
  have hn := hl.noSelf hg
  cases op with
  | top k => exact tx_fair hs fun _ t h => addTopLevel_fair hs h
  | child p c => exact tx_fair hs fun _ t h' => from2 (appendChild_fair hn hs) h'
  | banished k f => exact h.elim
  | times k c b d x n => exact h.elim
  | activate k => exact h.elim
  | register c p a => exact tx_fair hs fun _ t h' => register_fair hg hl hs h h'
  | comeBack k => exact tx_fair hs fun _ t h => returnIfBanished_fair hg hl hs h
  | subscribe k =>
    refine tx_fair hs fun _ t h => ?_
    unfold subscribe at h
    rw [M.bind_ok_iff] at h
    obtain ⟨_, s1, h1, h⟩ := h
    have f1 := returnIfBanished_fair hg hl hs h1
    have g1 := returnIfBanished_good hg h1
    have l1 := (returnIfBanished_listed hl h1).1
    have := setActive_fair (e := e) (k := k) (value := true) g1 l1 f1
    rw [h] at this; exact this
  | expire k => exact setActive_fair hg hl hs
  | balance a p => exact setPurse_fair hn hs
  | request k d =>
    refine tx_fair hs fun _ t h => ?_
    obtain ⟨s1, h1, -, h3⟩ := requestTransition_ok h
    have f1 : AllFair s1.store := by
      rcases h1 with rfl | h1
      · exact hs
      · exact pay_fair hg hl hs h1
    rw [h3]
    exact setInfo_fair f1 rfl rfl rfl rfl
  | resolve g k b =>
    refine tx_fair hs fun _ t h' => ?_
    unfold resolveTransition at h'
    rw [M.get_bind_ok, M.errIf_bind_ok] at h'
    obtain ⟨-, h'⟩ := h'
    split at h'
    · exact affirmTransition_fair hg hl hs h h'
    · unfold cancelTransition setInfo at h'
      rw [M.get_bind_ok] at h'
      simp at h'
      rw [← h']
      exact setInfo_fair hs rfl rfl rfl rfl
  | downgrade k => exact calm_bunch (.downgradeBody k) (calm_downgradeBody k) hn hs
  | compression k =>
    show AllFair (performCompression e k s).2.store
    unfold performCompression
    rw [M.bind_ok (M.get_apply s)]
    split
    · exact hs
    · exact bunch_fair (.compressBody _) hs fun _ ht => compressBody_fair hg hl hs ht
  | timeout k => exact setInfo_fair hs rfl rfl rfl rfl
  | banish k =>
    show AllFair (banish e k s).2.store
    unfold banish
    have := calm_bunch (e := e) (.banishBody k) (calm_banishBody k) hn hs
    rw [M.bind_apply]
    rcases hb : bunch e (banishBody k) s with ⟨r, t⟩
    rw [hb] at this
    cases r with
    | ok _ =>
      dsimp only
      generalize (!e.call .banished k) = x
      cases x <;> exact this
    | err => exact this
    | panic => exact this
  | world n d p c => exact hs

/-! ### The property -/

/-- After any history, from a moment on when everybody had earned their status or was about to lose it, this stays so: an account whose
status is higher than its structure allows has a date of downgrade.  (The empty store is such a moment.)  Missing from the full statement:
the criterion of teams of statuses 4 and higher, and moves of active accounts between referrals of the same account; both are wrong, see
`C64_siblings_violation` and `C64_teams_violation`. -/
theorem C64_status_earned_partial (l0 l : List (Env × Op)) (s : State) (h0 : s.start) (h1 : Along activesOk l0 s)
    (hf : ∀ k, (infoOf (run l0 s).store k).downgradeAt = none → Earned (run l0 s).store (infoOf (run l0 s).store k))
    (h : Along fairOk l (run l0 s)) (k : Key) (hk : (infoOf (run l (run l0 s)).store k).downgradeAt = none) :
    Earned (run l (run l0 s)).store (infoOf (run l (run l0 s)).store k) := by
  obtain ⟨g1, l1⟩ := run_listed l0 s h0 h1
  have := Along.run (P := fun s => Good s ∧ Listed s ∧ AllFair s.store)
    (fun e op s hs h => ⟨step_good e op s hs.1 h.actives.structure, step_listed e op s hs.1 hs.2.1 h.actives, step_fair e op s hs.1 hs.2.1 hs.2.2 h⟩)
    l _ ⟨g1, l1, fun k _ hd => hf k hd⟩ h
  exact this.2.2 k id hk

/-- The same from the beginning, without genesis file. -/
theorem C64_from_start_partial (l : List (Env × Op)) (s : State) (h0 : s.start) (h : Along fairOk l s) (k : Key)
    (hk : (infoOf (run l s).store k).downgradeAt = none) : Earned (run l s).store (infoOf (run l s).store k) := by
  refine C64_status_earned_partial [] l s h0 trivial ?_ h k hk
  intro k _
  have h0 : s.store = KV.empty := h0
  show Earned s.store (infoOf s.store k)
  rw [h0]
  exact earned_low (Nat.zero_le 1)

/-! ### Examples and violations -/

/-- The status is earned; when a subscription two levels below ends, the day of the downgrade is set. -/
example : (infoOf (run network empty0).store 2).status = 2 ∧ (infoOf (run network empty0).store 2).downgradeAt = none ∧
    (infoOf (run (network ++ [(yes, .expire 10)]) empty0).store 2).status = 2 ∧
    (infoOf (run (network ++ [(yes, .expire 10)]) empty0).store 2).downgradeAt = some 172900 := by decide +kernel

theorem along_append {ok : Op → State → Prop} : ∀ {l l' : List (Env × Op)} {s : State}, Along ok l s → Along ok l' (Referral.run l s) → Along ok (l ++ l') s
  | [], _, _, _, h => h
  | _ :: _, _, _, h, h' => ⟨h.1, along_append h.2 h'⟩

/-- Before the move: account 10 expires, and account 8 asks to be a referral of account 2. -/
def asked : List (Env × Op) := network ++ [(yes, .expire 10), (yes, .request 8 (some 2))]

/-- An execution meeting the hypotheses, with a move to another line. -/
example : empty0.start ∧ Along fairOk (asked ++ [(yes, .resolve 4 8 true)]) empty0 ∧
    (infoOf (run (asked ++ [(yes, .resolve 4 8 true)]) empty0).store 8).referrer = some 2 := by
  have ne : ∀ a b : Key, a ≠ b → a ≠ b := fun _ _ h => h
  refine ⟨rfl, along_append ⟨trivial, ne 4 2 (by decide), ne 6 2 (by decide), ne 8 4 (by decide), ne 10 4 (by decide), ne 12 6 (by decide),
    ne 14 6 (by decide), trivial, trivial, trivial, trivial⟩ ⟨?_, trivial⟩, by decide +kernel⟩
  have e1 : (infoOf (run asked empty0).store 8).transition = some 2 := by decide +kernel
  have e2 : (infoOf (run asked empty0).store 2).referrer = none := by decide +kernel
  generalize run asked empty0 = s at *
  intro a b g ha hb _ hg hb2
  rw [e1] at hb
  injection hb with hb
  subst hb
  rw [e2] at hb2
  cases hb2

/-- An active account moves between referrals of account 2. -/
def siblings : List (Env × Op) := network ++ [(yes, .request 10 (some 6)), (yes, .resolve 4 10 true)]

/-- Account 2 stays a Leader, with no date of downgrade, although only one of its referrals has two active referrals. -/
theorem C64_siblings_violation : empty0.start ∧ Along structureOk siblings empty0 ∧
    (infoOf (run siblings empty0).store 2).status = 2 ∧ (infoOf (run siblings empty0).store 2).downgradeAt = none ∧
    ¬ Earned (run siblings empty0).store (infoOf (run siblings empty0).store 2) := by
  have hs : (infoOf (run siblings empty0).store 2).status = 2 := by decide +kernel
  refine ⟨rfl, ?_, hs, by decide +kernel, ?_⟩
  · have ne : ∀ a b : Key, a ≠ b → a ≠ b := fun _ _ h => h
    exact ⟨trivial, ne 4 2 (by decide), ne 6 2 (by decide), ne 8 4 (by decide), ne 10 4 (by decide), ne 12 6 (by decide), ne 14 6 (by decide),
      trivial, trivial, trivial, trivial⟩
  · intro h
    have := (h ⟨4, 20000, 2, 2, none⟩ (by rw [hs]; rfl)).2
    exact absurd this (by decide +kernel)

/-- Account 2 has three referrals with teams of ten; the tenth account in the team of account 4 is account 32, eleven levels below
account 2. -/
def deepTree : List (Env × Op) :=
  (yes, .top 2) :: ([(4, 2, true), (6, 2, true), (8, 2, true),
    (10, 4, true), (12, 4, true), (14, 4, true), (16, 14, true), (18, 16, true), (20, 18, true), (22, 20, true), (24, 22, true),
    (26, 24, false), (28, 26, false), (30, 28, false), (32, 30, true),
    (40, 6, true), (42, 6, true), (44, 6, true), (46, 40, true), (48, 40, true), (50, 40, true), (52, 42, true), (54, 42, true), (56, 42, true),
    (60, 8, true), (62, 8, true), (64, 8, true), (66, 60, true), (68, 60, true), (70, 60, true), (72, 62, true), (74, 62, true), (76, 62, true)]
    : List (Key × Key × Bool)).map (fun x => (yes, .register x.1 x.2.1 x.2.2)) ++
  [(yes, .balance 1 { main := 5, delegated := 150000000000 }), (yes, .expire 32)]

/-- When account 32 expires, account 2 keeps status 4, which demands three teams of ten, with no date of downgrade: the check
itself would say no. -/
theorem C64_teams_violation : empty0.start ∧ (infoOf (run deepTree empty0).store 2).status = 4 ∧
    (infoOf (run deepTree empty0).store 2).downgradeAt = none ∧
    meets (run deepTree empty0).store 4 (infoOf (run deepTree empty0).store 2) = some false ∧
    (infoOf (run deepTree empty0).store 2).activeReferrals.countP (fun c => decide (10 ≤ (infoOf (run deepTree empty0).store c).team)) = 2 :=
  ⟨rfl, by decide +kernel, by decide +kernel, by decide +kernel, by decide +kernel⟩

end Verif.Referral
