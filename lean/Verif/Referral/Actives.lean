import Verif.Referral.Totals2

/-! C57: the lists of active referrals are exact. -/
namespace Verif.Referral
open Relation

/-! ### Specification -/

/-- The list of active referrals of every account holds exactly the active accounts among its referrals, each once. -/
structure ActivesMatch (st : KV Nat Info) : Prop where
  once : ∀ a, (infoOf st a).activeReferrals.Nodup
  exact : ∀ a c, c ∈ (infoOf st a).activeReferrals ↔ c ∈ (infoOf st a).referrals ∧ (infoOf st c).active = true

/-- What is asked of the steps: those of `structureOk`, and no account is both banished and active in the genesis file. -/
def activesOk : Op → State → Prop
  | .activate k, s => (infoOf s.store k).banished = false
  | op, s => structureOk op s

theorem activesOk.structure {op : Op} {s : State} (h : activesOk op s) : structureOk op s := by
  cases op <;> first | exact h | trivial

/-! ### Proofs -/

structure Roster (I : View) : Prop where
  nodup : ∀ a, (I a).activeReferrals.Nodup
  mem : ∀ a c, c ∈ (I a).activeReferrals ↔ (I c).referrer = some a ∧ (I c).active = true
  asleep : ∀ a, (I a).banished = true → (I a).active = false

/-- Only inactive accounts got another referrer. -/
theorem Roster.idle {I J : View} (h : Roster I) (h1 : ∀ c, (J c).active = (I c).active) (h2 : ∀ c, (J c).activeReferrals = (I c).activeReferrals)
    (h3 : ∀ c, (I c).active = true → (J c).referrer = (I c).referrer) (h4 : ∀ c, (J c).banished = true → (J c).active = false) : Roster J := by
  refine ⟨fun a => by rw [h2]; exact h.nodup a, fun a c => ?_, h4⟩
  rw [h2, h.mem, h1]
  by_cases hc : (I c).active = true
  · rw [h3 c hc]
  · simp [hc]

theorem Roster.upd {I : View} (h : Roster I) {k : Key} {w : Info} (h1 : w.active = (I k).active) (h2 : w.activeReferrals = (I k).activeReferrals)
    (h3 : w.active = true → w.referrer = (I k).referrer) (h4 : w.banished = true → w.active = false) : Roster (upd I k w) := by
  have sp : ∀ c, c = k ∨ Referral.upd I k w c = I c := by
    intro c
    by_cases hc : c = k
    · exact .inl hc
    · exact .inr (upd_ne _ _ hc)
  refine h.idle ?_ ?_ ?_ ?_ <;> intro c <;> rcases sp c with rfl | hc
  · rw [upd_self, h1]
  · rw [hc]
  · rw [upd_self, h2]
  · rw [hc]
  · rw [upd_self, ← h1]; exact h3
  · intro _; rw [hc]
  · rw [upd_self]; exact h4
  · rw [hc]; exact h.asleep c

/-- A walk that changes neither the lists of active referrals nor anything else that matters here. -/
theorem Roster.walk {I : View} (h : Roster I) {g : Nat → Info → Info} (g1 : ∀ l v, (g l v).active = v.active)
    (g2 : ∀ l v, (g l v).activeReferrals = v.activeReferrals) (g3 : ∀ l v, (g l v).referrer = v.referrer)
    (g4 : ∀ l v, (g l v).banished = v.banished) (n m : Nat) (p : Option Key) : Roster (climbV g n m p I) := by
  refine h.idle (climbV_all (π := Info.active) g1 n m p I) (climbV_all (π := Info.activeReferrals) g2 n m p I)
    (fun c _ => climbV_all (π := Info.referrer) g3 n m p I c) fun c hc => ?_
  rw [climbV_all (π := Info.banished) g4] at hc
  rw [climbV_all (π := Info.active) g1]
  exact h.asleep c hc

theorem bunch_view {Q : View → Prop} {e : Env} {m : Act Bool} (hm : Framed m) {s : State} (hs : Q (view s.store))
    (h : ∀ t, m s.fresh = (.ok true, t) → Q (view t.work)) : Q (view (bunch e m s).2.store) := by
  obtain ⟨ho, hc⟩ := bunch_cases (e := e) hm s
  rcases hc with hc | ⟨t, ht, hc⟩
  · rw [hc]; exact hs
  · rw [hc]; exact h t ht

def Listed (s : State) : Prop := Roster (view s.store)

theorem bump_roster {I : View} (h : Roster I) {d : What → Int} {L : Info → Info} (n m : Nat) (p : Option Key) (L1 : ∀ v, (L v).active = v.active)
    (L2 : ∀ v, (L v).activeReferrals = v.activeReferrals) (L3 : ∀ v, (L v).referrer = v.referrer) (L4 : ∀ v, (L v).banished = v.banished) :
    Roster (climbV (bump d L) n m p I) :=
  h.walk (bump_all (fun _ _ => rfl) L1) (bump_all (fun _ _ => rfl) L2) (bump_all (fun _ _ => rfl) L3) (bump_all (fun _ _ => rfl) L4) n m p

theorem appendChild_listed {e : Env} {p c : Key} {skip setc : Bool} {s : State} (hs : Listed s) : Listed (appendChild e p c skip setc s).2 := by
  unfold appendChild
  rw [M.bind_ok (M.get_apply s)]
  cases hh : s.store.has c with
  | true => exact hs
  | false =>
    rw [M.bind_ok (show M.errIf false s = (.ok (), s) from rfl)]
    refine bunch_view (.appendBody _ _ _ _) hs fun t ht => ?_
    obtain ⟨-, -, -, -, hv⟩ := appendBody_ok ht
    have hci : view s.fresh.work c = core {} := by show core (infoOf s.store c) = _; rw [infoOf_of_not_has hh]
    rw [hv]
    refine bump_roster ?_ _ _ _ (fun _ => rfl) (fun _ => rfl) (fun _ => rfl) (fun _ => rfl)
    have hf : (freshInfo s.fresh p c setc).active = false ∧ (freshInfo s.fresh p c setc).activeReferrals = [] := by
      unfold freshInfo; cases setc <;> exact ⟨rfl, rfl⟩
    refine Roster.upd (I := view s.fresh.work) hs ?_ ?_ ?_ ?_
    · rw [hf.1, hci]; rfl
    · rw [hf.2, hci]; rfl
    · rw [hf.1]; intro h; cases h
    · intro _; exact hf.1

theorem compress_listed {e : Env} {k : Key} {s : State} (hg : Good s) (hs : Listed s) : Listed (compress e k s).2 := by
  refine bunch_view (.compressBody _) hs fun t ht => ?_
  obtain ⟨-, p, x, hp, hv⟩ := compressBody_ok ht
  have hv0 : view s.fresh.work = view s.store := rfl
  rw [hv0] at hv hp
  generalize hI : view s.store = I at hv hp
  have hg : Forest (treeOf I) (fun k => s.store.has k = true) := by rw [← hI]; exact hg
  have hs : Roster I := by rw [← hI]; exact hs
  have hne : p ≠ k := fun e => hg.irrefl (c := k) (by show (I k).referrer = _; rw [hp, e])
  have hr : ∀ {β : Type} (π : Info → β), (∀ v r, π { v with referrer := r } = π v) → ∀ (J : View) i,
      π (redirect (I k).referrals (some p) J i) = π (J i) := by
    intro β π h J i; unfold redirect; split
    · exact h _ _
    · rfl
  have act : ∀ c, (view t.work c).active = (I c).active := by
    intro c
    rw [hv, climbV_all (π := Info.active) (g := squeeze _) (by intro l v; unfold squeeze; split <;> rfl), hr Info.active fun _ _ => rfl]
    by_cases hc : c = k
    · subst hc; rw [upd_self]; rfl
    · rw [upd_ne _ _ hc]
  have ban : ∀ c, (view t.work c).banished = (I c).banished := by
    intro c
    rw [hv, climbV_all (π := Info.banished) (g := squeeze _) (by intro l v; unfold squeeze; split <;> rfl), hr Info.banished fun _ _ => rfl]
    by_cases hc : c = k
    · subst hc; rw [upd_self]; rfl
    · rw [upd_ne _ _ hc]
  have ref : ∀ c, (view t.work c).referrer = if c ∈ (I k).referrals then some p else (I c).referrer := by
    intro c
    rw [hv, climbV_all (π := Info.referrer) (g := squeeze _) (by intro l v; unfold squeeze; split <;> rfl)]
    unfold redirect
    split
    · rfl
    · by_cases hj : c = k
      · subst hj; rw [upd_self]; rfl
      · rw [upd_ne _ _ hj]
  have lst : ∀ a, (view t.work a).activeReferrals =
      if a = p then mergeSorted (I p).activeReferrals (I k).activeReferrals else if a = k then [] else (I a).activeReferrals := by
    intro a
    rw [hv, climbV_first (π := Info.activeReferrals) (g := squeeze _) (by
      intro l v hl; unfold squeeze; rw [if_neg (by omega)]; rfl)]
    by_cases ha : a = p
    · rw [if_pos ha, if_pos ha]
      unfold squeeze
      rw [if_pos rfl]
      show mergeSorted (redirect _ _ _ p).activeReferrals _ = _
      rw [hr Info.activeReferrals fun _ _ => rfl, upd_ne _ _ hne]
    · rw [if_neg ha, if_neg ha, hr Info.activeReferrals fun _ _ => rfl]
      by_cases hk : a = k
      · subst hk; rw [upd_self, if_pos rfl]; rfl
      · rw [upd_ne _ _ hk, if_neg hk]
  have dis : List.Disjoint (I p).activeReferrals (I k).activeReferrals := by
    intro c h1 h2
    have e1 := ((hs.mem p c).1 h1).1
    have e2 := ((hs.mem k c).1 h2).1
    rw [e1] at e2
    injection e2 with e2
    exact hne e2
  have kid : ∀ c, (I c).active = true → (c ∈ (I k).referrals ↔ (I c).referrer = some k) := by
    intro c hc
    have := hg.mem k c
    refine this.trans ⟨fun h => h.1, fun h => ⟨h, ?_⟩⟩
    show (I c).banished = false
    cases hb : (I c).banished with
    | false => rfl
    | true => rw [hs.asleep c hb] at hc; cases hc
  refine ⟨fun a => ?_, fun a c => ?_, fun a => ?_⟩
  · rw [lst]
    split
    · rw [(mergeSorted_perm dis).nodup_iff]
      exact List.nodup_append'.2 ⟨hs.nodup p, hs.nodup k, dis⟩
    · split
      · exact List.nodup_nil
      · exact hs.nodup a
  · rw [lst, act, ref]
    by_cases hc : (I c).active = true
    · simp only [kid c hc, hc, and_true]
      by_cases ha : a = p
      · subst ha
        rw [if_pos rfl, (mergeSorted_perm dis).mem_iff, List.mem_append, hs.mem, hs.mem]
        simp only [hc, and_true]
        split
        · rename_i h; simp [h]
        · rename_i h; simp [h]
      · rw [if_neg ha]
        by_cases hk : a = k
        · subst hk
          rw [if_pos rfl]
          simp only [List.not_mem_nil, false_iff]
          split
          · intro h; injection h with h; exact hne h
          · assumption
        · rw [if_neg hk, hs.mem]
          simp only [hc, and_true]
          split
          · rename_i h
            rw [h]
            constructor
            · intro h; injection h with h; exact absurd h.symm hk
            · intro h; injection h with h; exact absurd h.symm ha
          · rfl
    · refine ⟨fun hm => absurd ?_ hc, fun hm => absurd hm.2 hc⟩
      split at hm
      · rw [(mergeSorted_perm dis).mem_iff, List.mem_append, hs.mem, hs.mem] at hm
        rcases hm with hm | hm <;> exact hm.2
      · split at hm
        · cases hm
        · exact ((hs.mem a c).1 hm).2
  · rw [act, ban]; exact hs.asleep a

theorem performCompression_listed {e : Env} {k : Key} {s : State} (hg : Good s) (hs : Listed s) : Listed (performCompression e k s).2 := by
  unfold performCompression
  rw [M.bind_ok (M.get_apply s)]
  split
  · exact hs
  · exact compress_listed hg hs

theorem onBalanceChanged_listed {e : Env} {k : Key} {s : State} (hs : Listed s) : Listed (onBalanceChanged e k s).2 := by
  refine bunch_view (.balanceBody _) hs fun t ht => ?_
  obtain ⟨h, -⟩ := balanceBody_ok ht
  have hs : Roster (view s.fresh.work) := hs
  cases h with
  | nothing h _ => subst h; exact hs
  | out b hb hv =>
    rw [hv]
    exact hs.upd rfl rfl (fun _ => rfl) (fun _ => hs.asleep k hb)
  | stay b hb hv =>
    rw [hv]
    refine bump_roster ?_ _ _ _ (fun _ => rfl) (fun _ => rfl) (fun _ => rfl) (fun _ => rfl)
    exact hs.upd rfl rfl (fun _ => rfl) (fun h => by rw [show (view s.fresh.work k).banished = true from h] at hb; cases hb)
  | back parent b n hb ha ho hv =>
    rw [hv]
    refine bump_roster ?_ _ _ _ (fun _ => rfl) (fun _ => rfl) (fun _ => rfl) (fun _ => rfl)
    have h1 : Roster (climbV (bump (money ((view s.fresh.work k).tot .coins 0) ((view s.fresh.work k).tot .delegated 0)) (addKid k)) 10 1 parent
        (view s.fresh.work)) := bump_roster hs _ _ _ (fun _ => rfl) (fun _ => rfl) (fun _ => rfl) (fun _ => rfl)
    refine h1.upd ?_ ?_ ?_ ?_
    · rw [climbV_all (π := Info.active) (g := bump _ (addKid _)) (bump_all (fun _ _ => rfl) (fun _ => rfl))]; rfl
    · rw [climbV_all (π := Info.activeReferrals) (g := bump _ (addKid _)) (bump_all (fun _ _ => rfl) (fun _ => rfl))]; rfl
    · intro h
      rw [show (view s.fresh.work k).active = true from h] at ha; cases ha
    · intro h; cases h

theorem comeBack_listed {e : Env} {k : Key} {s : State} (hs : Listed s) (hb : (infoOf s.store k).banished = true) : Listed (comeBack e k s).2 := by
  refine bunch_view (.comeBackBody _) hs fun t ht => ?_
  obtain ⟨-, parent, n, ho, hv⟩ := comeBackBody_ok ht
  have hs : Roster (view s.fresh.work) := hs
  have ha : (view s.fresh.work k).active = false := hs.asleep k hb
  rw [hv]
  refine bump_roster ?_ _ _ _ (fun _ => rfl) (fun _ => rfl) (fun _ => rfl) (fun _ => rfl)
  refine hs.upd rfl rfl ?_ ?_
  · intro h
    rw [show (view s.fresh.work k).active = true from h] at ha; cases ha
  · intro h; cases h

theorem Roster.setActive {I J : View} (h : Roster I) {k : Key} {value : Bool} (ha : (I k).active = !value)
    (hb : value = true → (I k).banished = false) (j1 : ∀ c, (J c).active = if c = k then value else (I c).active)
    (j2 : ∀ c, (J c).referrer = (I c).referrer) (j3 : ∀ c, (J c).banished = (I c).banished)
    (j4 : ∀ a, (J a).activeReferrals = if some a = (I k).referrer then
      (if value then addSorted (I a).activeReferrals k else removeOrdered (I a).activeReferrals k) else (I a).activeReferrals) : Roster J := by
  refine ⟨fun a => ?_, fun a c => ?_, fun a => ?_⟩
  · rw [j4]
    split
    · cases value with
      | true =>
        have hk : k ∉ (I a).activeReferrals := by rw [h.mem, ha]; simp
        rw [if_pos rfl, (addSorted_perm hk).nodup_iff, List.nodup_cons]
        exact ⟨hk, h.nodup a⟩
      | false => rw [if_neg (by simp)]; exact (h.nodup a).erase k
    · exact h.nodup a
  · rw [j4, j1, j2]
    by_cases hc : c = k
    · subst hc
      rw [if_pos rfl]
      split
      · rename_i hp
        rw [← hp]
        cases value with
        | true =>
          have hk : c ∉ (I a).activeReferrals := by rw [h.mem, ha]; simp
          rw [if_pos rfl, (addSorted_perm hk).mem_iff]; simp
        | false =>
          rw [if_neg (by simp)]
          unfold removeOrdered
          simp [(h.nodup a).mem_erase_iff]
      · rename_i hp
        rw [h.mem]
        constructor
        · intro hm; exact absurd hm.1.symm hp
        · intro hm; exact absurd hm.1.symm hp
    · rw [if_neg hc]
      split
      · rename_i hp
        cases value with
        | true =>
          have hk : k ∉ (I a).activeReferrals := by rw [h.mem, ha]; simp
          rw [if_pos rfl, (addSorted_perm hk).mem_iff, List.mem_cons, h.mem]; simp [hc]
        | false =>
          rw [if_neg (by simp)]
          unfold removeOrdered
          rw [(h.nodup a).mem_erase_iff, h.mem]; simp [hc]
      · exact h.mem a c
  · rw [j1, j3]
    intro hba
    by_cases hak : a = k
    · subst hak
      rw [if_pos rfl]
      cases value with
      | false => rfl
      | true => rw [hb rfl] at hba; cases hba
    · rw [if_neg hak]; exact h.asleep a hba

theorem setActive_listed {e : Env} {k : Key} {value check : Bool} {s : State} (hs : Listed s) (hg : Good s)
    (hb : value = true → (infoOf s.store k).banished = false) : Listed (setActive e k value check s).2 := by
  refine bunch_view (.activeBody _ _ _) hs fun t ht => ?_
  rcases activeBody_ok ht with ⟨h, -, -⟩ | ⟨-, ha, -, x, hv⟩
  · cases h
  have hs : Roster (view s.fresh.work) := hs
  generalize hw : activated (view s.fresh.work k) value (if value then none else some (s.fresh.now + s.fresh.compressionPeriod)) x = w at hv
  have w1 : w.active = value := by rw [← hw]; rfl
  have w2 : w.referrer = (view s.fresh.work k).referrer := by rw [← hw]; rfl
  have w3 : w.banished = (view s.fresh.work k).banished := by rw [← hw]; rfl
  have w4 : w.activeReferrals = (view s.fresh.work k).activeReferrals := by rw [← hw]; rfl
  refine hs.setActive ha hb ?_ ?_ ?_ ?_ <;> intro c <;> rw [hv]
  · rw [climbV_all (π := Info.active) (bump_all (fun _ _ => rfl) (fun v => by cases value <;> rfl))]
    by_cases hc : c = k
    · subst hc; rw [upd_self, if_pos rfl, w1]
    · rw [upd_ne _ _ hc, if_neg hc]
  · rw [climbV_all (π := Info.referrer) (bump_all (fun _ _ => rfl) (fun v => by cases value <;> rfl))]
    by_cases hc : c = k
    · subst hc; rw [upd_self, w2]
    · rw [upd_ne _ _ hc]
  · rw [climbV_all (π := Info.banished) (bump_all (fun _ _ => rfl) (fun v => by cases value <;> rfl))]
    by_cases hc : c = k
    · subst hc; rw [upd_self, w3]
    · rw [upd_ne _ _ hc]
  · have hu : ∀ y, (upd (view s.fresh.work) k w y).activeReferrals = (view s.fresh.work y).activeReferrals := by
      intro y
      by_cases hy : y = k
      · subst hy; rw [upd_self, w4]
      · rw [upd_ne _ _ hy]
    cases hp : (view s.fresh.work k).referrer with
    | none => rw [climbV_none, hu, if_neg (by simp)]
    | some p =>
      rw [climbV_first (π := Info.activeReferrals) (bump_proj (fun _ _ => rfl))]
      by_cases hc : c = p
      · subst hc
        rw [if_pos rfl, if_pos rfl]
        show (bump (people value) (relist value k) 1 _).activeReferrals = _
        unfold bump
        rw [if_pos rfl]
        show (relist value k _).activeReferrals = _
        cases value <;> (unfold relist; simp only [if_true, Bool.false_eq_true, if_false, addActive, dropActive, hu])
      · rw [if_neg hc, if_neg (by simpa using hc), hu]

theorem banish_listed {e : Env} {k : Key} {s : State} (hs : Listed s) : Listed (banish e k s).2 := by
  have key : Listed (bunch e (banishBody k) s).2 := by
    refine bunch_view (.banishBody _) hs fun t ht => ?_
    obtain ⟨-, p, hp, ha, hb, -, hv⟩ := banishBody_ok ht
    have hs : Roster (view s.fresh.work) := hs
    rw [hv]
    refine bump_roster ?_ _ _ _ (fun _ => rfl) (fun _ => rfl) (fun _ => rfl) (fun _ => rfl)
    exact hs.upd rfl rfl (fun _ => rfl) (fun _ => ha)
  unfold banish
  rcases hr : bunch e (banishBody k) s with ⟨r, t⟩
  rw [hr] at key
  cases r with
  | ok a =>
    rw [M.bind_ok hr]
    cases e.call .banished k <;> exact key
  | err => rw [M.bind_err hr]; exact key
  | panic => rw [M.bind_panic hr]; exact key

theorem performDowngrade_listed {e : Env} {k : Key} {s : State} (hs : Listed s) : Listed (performDowngrade e k s).2 := by
  obtain ⟨-, hv⟩ := performDowngrade_store (e := e) (k := k) s
  unfold Listed; rw [hv]; exact hs

theorem setTransition_listed {k : Key} {x : Option Key} {s : State} (hs : Listed s) :
    Listed (setInfo k { infoOf s.store k with transition := x } s).2 := by
  show Roster (view (s.store.set k { infoOf s.store k with transition := x }))
  rw [view_set]
  exact Roster.upd (I := view s.store) hs rfl rfl (fun _ => rfl) (fun h => hs.asleep k h)

theorem cancelTransition_listed {k : Key} {s : State} (hs : Listed s) : Listed (cancelTransition k s).2 := by
  unfold cancelTransition
  rw [M.bind_ok (M.get_apply s)]
  exact setTransition_listed hs

theorem setPurse_listed {e : Env} {a : Addr} {p : Purse} {s : State} (hs : Listed s) : Listed (setPurse e a p s).2 := by
  unfold setPurse
  rw [M.bind_ok (M.modify_apply _ s)]
  exact onBalanceChanged_listed hs

theorem pay_listed {e : Env} {a : Addr} {x : Int} {s : State} (hs : Listed s) : Listed (pay e a x s).2 := by
  unfold pay
  rw [M.bind_ok (M.get_apply s)]
  generalize decide ((s.purse a).main < x) = c
  cases c with
  | true => exact hs
  | false =>
    rw [M.bind_ok (show M.errIf false s = (.ok (), s) from rfl)]
    have h := setPurse_listed (e := e) (a := a) (p := { s.purse a with main := (s.purse a).main - x }) hs
    rcases hr : setPurse e a { s.purse a with main := (s.purse a).main - x } s with ⟨r, t⟩
    rw [hr] at h
    cases r with
    | ok a =>
      rw [M.bind_ok hr, M.bind_ok (M.get_apply t)]
      exact setPurse_listed h
    | err => rw [M.bind_err hr]; exact h
    | panic => rw [M.bind_panic hr]; exact h

theorem requestTransition_listed {e : Env} {k : Key} {x : Option Key} {s t : State} (hs : Listed s)
    (h : requestTransition e k x s = (.ok (), t)) : Listed t := by
  obtain ⟨s1, h1, -, ht⟩ := requestTransition_ok h
  have g1 : Listed s1 := by
    rcases h1 with rfl | h1
    · exact hs
    · have := pay_listed (e := e) (a := addrOf k) (x := s.price) hs
      rw [h1] at this; exact this
  unfold Listed
  rw [ht]
  exact setTransition_listed (k := k) (x := x) g1

theorem affirmTransition_listed {e : Env} {k : Key} {s t : State} (hg : Good s) (hs : Listed s) (h : affirmTransition e k s = (.ok (), t)) :
    Listed t := by
  obtain ⟨a, b, hra, htb, hab, hkb, hak, hnb, hka, hhb, hgr, refe, bane, kide, -⟩ := affirmTransition_tree hg h
  obtain ⟨a', b', hra', htb', -, -, -, -, -, -, -, hv⟩ := affirmTransition_ok h
  rw [hra] at hra'
  injection hra' with hra'; subst hra'
  rw [htb] at htb'
  injection htb' with htb'; subst htb'
  dsimp only at hv
  generalize hr : infoOf s.store k = r at hv
  have ra : r.active = (view s.store k).active := by rw [← hr]; rfl
  have acte : ∀ j, (view t.store j).active = (view s.store j).active := by
    intro j
    rw [hv, moveV_proj (π := Info.active) (fun _ _ _ _ => rfl)]
    by_cases hj : j = k
    · subst hj
      rw [upd_ne _ _ hkb, upd_ne _ _ (Ne.symm hak), upd_self]
    · by_cases hjb : j = b
      · subst hjb
        rw [upd_self]
        show (upd _ a _ j).active = _
        rw [upd_ne _ _ (Ne.symm hab), upd_ne _ _ hj]
      · rw [upd_ne _ _ hjb]
        by_cases hja : j = a
        · subst hja; rw [upd_self]
          show (upd _ k _ j).active = _
          rw [upd_ne _ _ hj]
        · rw [upd_ne _ _ hja, upd_ne _ _ hj]
  have lste : ∀ j, (view t.store j).activeReferrals =
      if j = b then (if r.active then (view s.store b).activeReferrals ++ [k] else (view s.store b).activeReferrals) else
      if j = a then (if r.active then removeFast (view s.store a).activeReferrals k else (view s.store a).activeReferrals) else
      (view s.store j).activeReferrals := by
    intro j
    rw [hv, moveV_proj (π := Info.activeReferrals) (fun _ _ _ _ => rfl)]
    by_cases hjb : j = b
    · subst hjb
      rw [upd_self, if_pos rfl]
      show (if r.active then (upd _ a _ j).activeReferrals ++ [k] else (upd _ a _ j).activeReferrals) = _
      rw [upd_ne _ _ (Ne.symm hab), upd_ne _ _ (Ne.symm hkb)]
    · rw [upd_ne _ _ hjb, if_neg hjb]
      by_cases hja : j = a
      · subst hja; rw [upd_self, if_pos rfl]
        show (if r.active then removeFast (upd _ k _ j).activeReferrals k else (upd _ k _ j).activeReferrals) = _
        rw [upd_ne _ _ hak]
      · rw [upd_ne _ _ hja, if_neg hja]
        by_cases hj : j = k
        · subst hj; rw [upd_self]
        · rw [upd_ne _ _ hj]
  cases hact : r.active with
  | false =>
    simp only [hact, Bool.false_eq_true, if_false] at lste
    refine Roster.idle hs acte ?_ ?_ ?_
    · intro c
      rw [lste]
      split
      · rename_i h; rw [h]
      · split
        · rename_i h; rw [h]
        · rfl
    · intro c hc
      rw [refe]
      by_cases hck : c = k
      · subst hck; rw [← ra, hact] at hc; cases hc
      · rw [if_neg hck]
    · intro c; rw [bane, acte]; exact hs.asleep c
  | true =>
    simp only [hact, if_true] at lste
    have ka : k ∈ (view s.store a).activeReferrals := (hs.mem a k).2 ⟨hra, by rw [← ra]; exact hact⟩
    have kb : k ∉ (view s.store b).activeReferrals := by
      intro hm
      have := ((hs.mem b k).1 hm).1
      rw [hra] at this
      injection this with this; exact hab this
    refine ⟨fun j => ?_, fun j c => ?_, fun c => by rw [bane, acte]; exact hs.asleep c⟩
    · rw [lste]
      split
      · rw [List.nodup_append']
        exact ⟨hs.nodup b, List.nodup_singleton k, by intro x hx hk; rw [List.mem_singleton] at hk; subst hk; exact kb hx⟩
      · split
        · exact removeFast_nodup (hs.nodup a)
        · exact hs.nodup j
    · rw [lste, refe, acte]
      by_cases hck : c = k
      · subst hck
        rw [if_pos rfl]
        have hca : (view s.store c).active = true := by rw [← ra]; exact hact
        by_cases hjb : j = b
        · subst hjb; rw [if_pos rfl]; simp [hca]
        · rw [if_neg hjb]
          have hn : ¬ (some b = some j) := by intro h; injection h with h; exact hjb h.symm
          by_cases hja : j = a
          · subst hja
            rw [if_pos rfl, mem_removeFast (hs.nodup j)]
            simp [hn]
          · rw [if_neg hja, hs.mem, hra]
            have hn' : ¬ (some a = some j) := by intro h; injection h with h; exact hja h.symm
            simp [hn, hn']
      · rw [if_neg hck]
        by_cases hjb : j = b
        · subst hjb; rw [if_pos rfl, List.mem_append, hs.mem]; simp [hck]
        · rw [if_neg hjb]
          by_cases hja : j = a
          · subst hja; rw [if_pos rfl, mem_removeFast (hs.nodup j), hs.mem]; simp [hck]
          · rw [if_neg hja, hs.mem]

theorem resolveTransition_listed {e : Env} {signer k : Key} {ok : Bool} {s t : State} (hg : Good s) (hs : Listed s)
    (h : resolveTransition e signer k ok s = (.ok (), t)) : Listed t := by
  unfold resolveTransition at h
  rw [M.get_bind_ok, M.errIf_bind_ok] at h
  obtain ⟨-, h⟩ := h
  split at h
  · exact affirmTransition_listed hg hs h
  · have := cancelTransition_listed (k := k) hs
    rw [h] at this; exact this

theorem register_listed {e : Env} {c p : Key} {a : Bool} {s t : State} (hg : Good s) (hs : Listed s) (hne : c ≠ p)
    (h : register e c p a s = (.ok (), t)) : Listed t := by
  unfold register at h
  rw [M.bind_ok_iff] at h
  obtain ⟨_, s1, h1, h⟩ := h
  have g1 := appendChild_listed (e := e) (p := p) (c := c) (skip := false) (setc := true) hs
  have k1 := appendChild_good (e := e) (p := p) (c := c) (skip := false) (setc := true) hg hne
  rw [h1] at g1 k1
  have b1 := appendChild_banished h1
  rw [M.get_bind_ok, M.bind_ok_iff] at h
  obtain ⟨_, s2, h2, h⟩ := h
  have q := (Still.request _).of h2
  have g2 : Listed s2 := by unfold Listed; rw [q.store]; exact g1
  have k2 : Good s2 := by unfold Good; rw [q.store]; exact k1
  split at h
  · have := setActive_listed (e := e) (k := c) (value := true) (check := true) g2 k2 (fun _ => by rw [q.store]; exact b1)
    rw [h] at this; exact this
  · simp at h; rw [← h]; exact g2

theorem returnIfBanished_listed {e : Env} {k : Key} {s t : State} (hs : Listed s)
    (h : returnIfBanished e k s = (.ok (), t)) : Listed t ∧ (infoOf t.store k).banished = false := by
  unfold returnIfBanished at h
  rw [M.get_bind_ok] at h
  split at h
  · rename_i hb
    have := comeBack_listed (e := e) hs hb
    rw [h] at this; exact ⟨this, comeBack_banished h⟩
  · rename_i hb
    simp at h; rw [← h]; exact ⟨hs, by simpa using hb⟩

theorem subscribe_listed {e : Env} {k : Key} {s t : State} (hg : Good s) (hs : Listed s)
    (h : subscribe e k s = (.ok (), t)) : Listed t := by
  unfold subscribe at h
  rw [M.bind_ok_iff] at h
  obtain ⟨_, s1, h1, h⟩ := h
  obtain ⟨g1, b1⟩ := returnIfBanished_listed hs h1
  have := setActive_listed (e := e) (k := k) (value := true) (check := true) g1 (returnIfBanished_good hg h1) (fun _ => b1)
  rw [h] at this; exact this

theorem addTopLevel_listed {e : Env} {k : Key} {s t : State} (hs : Listed s) (h : addTopLevel e k s = (.ok (), t)) : Listed t := by
  unfold addTopLevel at h
  rw [recover_ok_iff, M.get_bind_ok, M.errIf_bind_ok] at h
  obtain ⟨hk, h⟩ := h
  obtain ⟨b, t', h1, h2, -⟩ := bunch_ok h
  rw [M.bind_ok_iff] at h1
  obtain ⟨_, s1, h3, h1⟩ := h1
  simp at h1
  obtain ⟨rfl, rfl⟩ := h1
  have e1 : s1.work = s.store.set k (newInfo none (s.balance k) (s.delegated k)) := by
    unfold put at h3; simp at h3; rw [← h3]; rfl
  have hv : view t.store = upd (view s.store) k (core (newInfo none (s.balance k) (s.delegated k))) := by
    rw [h2 rfl, e1, view_set]
  have hk0 : view s.store k = core {} := by unfold view; rw [infoOf_of_not_has hk]
  unfold Listed
  rw [hv]
  refine Roster.upd (I := view s.store) hs ?_ ?_ ?_ ?_
  · rw [hk0]; rfl
  · rw [hk0]; rfl
  · intro h; cases h
  · intro h; cases h

theorem importTimes_listed {k : Key} {c b d : Option Int} {x : Option Key} {n : Nat} {s t : State} (hs : Listed s)
    (h : importTimes k c b d x n s = (.ok (), t)) : Listed t := by
  unfold importTimes at h
  simp at h
  rw [← h]
  show Roster (view (s.store.set k _))
  rw [view_set]
  exact Roster.upd (I := view s.store) hs rfl rfl (fun _ => rfl) (fun h => hs.asleep k h)

theorem importBanished_listed {k f : Key} {s t : State} (hs : Listed s) (hk : s.store.has k = false)
    (h : importBanished k (some f) s = (.ok (), t)) : Listed t := by
  unfold importBanished at h
  simp at h
  rw [← h]
  have hk0 : view s.store k = core {} := by unfold view; rw [infoOf_of_not_has hk]
  show Roster (view (s.store.set k _))
  rw [view_set]
  refine Roster.upd (I := view s.store) hs ?_ ?_ ?_ ?_
  · rw [hk0]; rfl
  · rw [hk0]; rfl
  · intro h; cases h
  · intro _; rfl

theorem tx_listed {α : Type} {m : Act α} {s : State} (hs : Listed s) (h : ∀ a t, m s = (.ok a, t) → Listed t) : Listed (M.tx m s) := by
  rcases M.tx_cases m s with ⟨x, hx⟩ | ⟨-, hx⟩
  · exact h x _ hx
  · rw [hx]; exact hs

theorem step_listed (e : Env) (op : Op) (s : State) (hg : Good s) (hs : Listed s) (h : activesOk op s) : Listed (step e op s) := by
  have from2 : ∀ {m : Act Unit} {t : State}, Listed (m s).2 → m s = (.ok (), t) → Listed t := by
    intro m t g h; rw [h] at g; exact g
  cases op with
  | top k => exact tx_listed hs fun _ t h => addTopLevel_listed hs h
  | child p c => exact tx_listed hs fun _ t h' => from2 (appendChild_listed hs) h'
  | banished k f => exact tx_listed hs fun _ t h' => importBanished_listed hs h.1 h'
  | times k c b d x n => exact tx_listed hs fun _ t h => importTimes_listed hs h
  | activate k => exact tx_listed hs fun _ t h' => from2 (setActive_listed hs hg fun _ => h) h'
  | register c p a => exact tx_listed hs fun _ t h' => register_listed hg hs h h'
  | comeBack k => exact tx_listed hs fun _ t h => (returnIfBanished_listed hs h).1
  | subscribe k => exact tx_listed hs fun _ t h => subscribe_listed hg hs h
  | expire k => exact setActive_listed hs hg (by intro h; cases h)
  | balance a p => exact setPurse_listed hs
  | request k d => exact tx_listed hs fun _ t h => requestTransition_listed hs h
  | resolve g k b => exact tx_listed hs fun _ t h => resolveTransition_listed hg hs h
  | downgrade k => exact performDowngrade_listed hs
  | compression k => exact performCompression_listed hg hs
  | timeout k => exact cancelTransition_listed hs
  | banish k => exact banish_listed hs
  | world n d p c => exact hs

theorem start_listed {s : State} (h : s.start) : Listed s := by
  unfold State.start at h
  have hv : ∀ k, view s.store k = core {} := by
    intro k; unfold view; rw [h, infoOf_of_not_has (by simp [KV.has])]
  refine ⟨?_, ?_, ?_⟩
  · intro a; rw [hv]; exact List.nodup_nil
  · intro a c; rw [hv, hv]; simp [core]
  · intro a; rw [hv]; intro h; rfl

theorem Listed.actives {s : State} (hg : Good s) (h : Listed s) : ActivesMatch s.store := by
  refine ⟨h.nodup, fun a c => ?_⟩
  have h1 := h.mem a c
  have h2 := hg.mem a c
  have h2 : c ∈ (infoOf s.store a).referrals ↔ (infoOf s.store c).referrer = some a ∧ (infoOf s.store c).banished = false := h2
  have h1 : c ∈ (infoOf s.store a).activeReferrals ↔ (infoOf s.store c).referrer = some a ∧ (infoOf s.store c).active = true := h1
  rw [h1, h2]
  constructor
  · rintro ⟨ha, hb⟩
    refine ⟨⟨ha, ?_⟩, hb⟩
    cases hc : (infoOf s.store c).banished with
    | false => rfl
    | true =>
      have : (infoOf s.store c).active = false := h.asleep c hc
      rw [this] at hb; cases hb
  · rintro ⟨⟨ha, -⟩, hb⟩; exact ⟨ha, hb⟩

theorem run_listed (l : List (Env × Op)) (s : State) (h0 : s.start) (h : Along activesOk l s) : Good (run l s) ∧ Listed (run l s) :=
  Along.run (P := fun s => Good s ∧ Listed s) (fun e op s hs h => ⟨step_good e op s hs.1 h.structure, step_listed e op s hs.1 hs.2 h⟩) l s
    ⟨start_good h0, start_listed h0⟩ h

end Verif.Referral
