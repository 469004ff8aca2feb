import Verif.Referral.Farewell
import Verif.Referral.Order

/-! Property C111: a compression that is due is carried out. -/
namespace Verif.Referral
open Relation

theorem climb_wider {L : List Key} {f : Nat → Key → Info → Act Info} {g : Nat → Info → Info}
    (hf : ∀ l k v s, ∃ w t, f l k v s = (.ok w, t) ∧ Quiet s t ∧ core w = g l (core v) ∧ w.status = v.status ∧
      ∀ c ∈ w.activeReferrals, c ∈ v.activeReferrals ∨ c ∈ L) :
    ∀ (n l : Nat) (p : Option Key) (s : State), Ready s → (∀ c ∈ L, s.work.has c = true) → Affords g n l p (view s.work) →
      ∃ t, climb true f n l p s = (.ok (), t) := by
  intro n
  induction n with
  | zero => intro l p s _ _ _; exact ⟨s, rfl⟩
  | succ n ih =>
    intro l p s hs hL ha
    cases p with
    | none => exact ⟨s, rfl⟩
    | some k =>
      obtain ⟨w, s1, h1, q, e, es, ea⟩ := hf l k (infoOf s.work k) s
      have hw : Affordable w := ha.1.congr fun x => by
        have := congrArg Info.tot e
        show (core w).tot _ _ = _
        rw [this]; rfl
      obtain ⟨t, h2, ht⟩ := update_succeeds (k := k) (f := fun v => do let w ← f l k v; pure (w, v.referrer)) (s := s) (s1 := s1) (w := w)
        (a := (infoOf s.work k).referrer) (by rw [M.bind_ok h1]; rfl) hw (by rw [es]; exact hs.low.work k)
        (fun c hc => by rw [q.work]; exact (ea c hc).elim (fun h => hs.stored k c h) (hL c)) (hs.quiet q)
      obtain ⟨w', s1', h1', fr, hv, -⟩ := update_ok h2
      rw [M.bind_ok h1] at h1'
      cases h1'
      obtain ⟨t', h3⟩ := ih (l + 1) (infoOf s.work k).referrer t ht (fun c hc => fr.grows c (q.grows c (hL c hc))) (by
        rw [hv, q.work, e]; exact ha.2)
      refine ⟨t', ?_⟩
      unfold climb
      rw [M.bind_ok h2]
      exact h3

theorem compress_forest {I : View} {P : Key → Prop} (hs : Forest (treeOf I) P) {k p : Key} (hp : (I k).referrer = some p) (x : Option Int) :
    Forest (treeOf (climbV (squeeze (I k)) 10 1 (some p) (redirect (I k).referrals (some p) (upd I k (compressed (I k) x))))) P ∧
    ∀ j, (climbV (squeeze (I k)) 10 1 (some p) (redirect (I k).referrals (some p) (upd I k (compressed (I k) x))) j).referrals =
      if j = p then (I p).referrals ++ (I k).referrals else if j = k then [] else (I j).referrals := by
  have kids : ∀ j, (climbV (squeeze (I k)) 10 1 (some p) (redirect (I k).referrals (some p) (upd I k (compressed (I k) x))) j).referrals =
      if j = p then (I p).referrals ++ (I k).referrals else if j = k then [] else (I j).referrals := by
    intro j
    rw [climbV_first (π := Info.referrals) (g := squeeze _) (by
      intro l v hl; unfold squeeze; rw [if_neg (by omega)]; rfl)]
    have hr : ∀ i, (redirect (I k).referrals (some p) (upd I k (compressed (I k) x)) i).referrals =
        if i = k then [] else (I i).referrals := by
      intro i
      have : ∀ J : View, (redirect (I k).referrals (some p) J i).referrals = (J i).referrals := by
        intro J; unfold redirect; split <;> rfl
      rw [this]
      by_cases hi : i = k
      · subst hi; rw [upd_self, if_pos rfl]; rfl
      · rw [upd_ne _ _ hi, if_neg hi]
    have hne : p ≠ k := fun e => hs.irrefl (c := k) (by show (I k).referrer = _; rw [hp, e])
    by_cases hj : j = p
    · rw [if_pos hj, if_pos hj]
      unfold squeeze
      rw [if_pos rfl]
      show _ ++ _ = _
      rw [hr, if_neg hne]
    · rw [if_neg hj, if_neg hj, hr]
  refine ⟨Forest.compress (k := k) (p := p) hs hp ?_ kids ?_ fun _ h => h, kids⟩
  · intro j
    show (climbV _ 10 1 (some p) _ j).referrer = _
    rw [climbV_all (π := Info.referrer) (g := squeeze _) (by intro l v; unfold squeeze; split <;> rfl)]
    unfold redirect
    show _ = if j ∈ (I k).referrals then some p else (I j).referrer
    split
    · rfl
    · by_cases hj : j = k
      · subst hj; rw [upd_self]; rfl
      · rw [upd_ne _ _ hj]
  · intro j
    show (climbV _ 10 1 (some p) _ j).banished = _
    rw [climbV_all (π := Info.banished) (g := squeeze _) (by intro l v; unfold squeeze; split <;> rfl)]
    have : ∀ J : View, (redirect (I k).referrals (some p) J j).banished = (J j).banished := by
      intro J; unfold redirect; split <;> rfl
    rw [this]
    by_cases hj : j = k
    · subst hj; rw [upd_self]; rfl
    · rw [upd_ne _ _ hj]; rfl

/-- What does not depend on sums of levels, referrers and lists is not changed by a compression elsewhere. -/
theorem compress_all {β : Type} (π : Info → β) (h1 : ∀ old l v, 1 ≤ l → π (squeeze old l v) = π v) (h2 : ∀ v p, π { v with referrer := p } = π v)
    (I : View) (k p j : Key) (w : Info) :
    π (climbV (squeeze (I k)) 10 1 (some p) (redirect (I k).referrals (some p) (upd I k w)) j) = π (upd I k w j) := by
  rw [climbV_from (π := π) (m0 := 1) (g := squeeze (I k)) (fun l v hl => h1 _ l v hl) 10 1 _ _ (by omega) j]
  unfold redirect
  split
  · exact h2 _ _
  · rfl

theorem squeeze_own (old : Info) (l : Nat) (v : Info) (hl : 1 ≤ l) (x : What) : (squeeze old l v).tot x 0 = v.tot x 0 := by
  have : ∀ m, 1 ≤ m → (squeezed old.tot m v).tot x 0 = v.tot x 0 := by
    intro m hm
    show (if 0 = m then _ else if m < 0 ∧ _ then _ else _) = _
    rw [if_neg (by omega), if_neg (by omega)]
  unfold squeeze
  split
  · exact this 1 le_rfl
  · exact this l hl

theorem redirect_succeeds {p : Option Key} : ∀ (l : List Key) (s : State),
    ∃ t, M.forEach l (fun c => update c false (fun v => pure ({ v with referrer := p }, ()))) s = (.ok (), t) := by
  intro l
  induction l with
  | nil => intro s; exact ⟨s, rfl⟩
  | cons c l ih =>
    intro s
    have h1 := update_unchecked (k := c) (f := fun v => pure ({ v with referrer := p }, ())) (s := s) (s1 := s)
      (w := { infoOf s.work c with referrer := p }) (a := ()) rfl
    obtain ⟨t, ht⟩ := ih { s with work := s.work.set c { infoOf s.work c with referrer := p } }
    exact ⟨t, (M.bind_ok h1).trans ht⟩

theorem compressSelf_succeeds {k p : Key} {v : Info} {s : State} (hp : v.referrer = some p) (h64 : (toInt64? (v.tot .delegated 0)).isSome)
    (h4 : Schedule.inRange (s.now + 30 * s.day) = true) : ∃ r t, compressSelf k v s = (.ok r, t) := by
  obtain ⟨d, hd⟩ := Option.isSome_iff_exists.1 h64
  unfold compressSelf
  have e1 : ∀ u : State, M.errIf false u = (.ok (), u) := fun u => rfl
  have hn : v.referrer.isNone = false := by rw [hp]; rfl
  rw [hn, M.bind_ok (e1 s)]
  obtain ⟨w, s2, h2⟩ := setStatus_succeeds { v with
    referrals := [], activeReferrals := []
    tot := fun x l => if x ≠ .active ∧ l = 0 then v.tot x l else 0
    compressionAt := none } 1 k (addCall .stakeChanged k s).2
  have q := ((Still.addCall .stakeChanged k s).trans ((Still.setStatus _ 1 k).of h2)).trans (Still.addCall .statusUpdated k s2)
  have last : ∃ w' t, (if d ≤ (addCall .statusUpdated k s2).2.dust then scheduleBanishment k w else pure w : Act Info) (addCall .statusUpdated k s2).2 = (.ok w', t) := by
    split
    · refine scheduleBanishment_succeeds ?_
      have hm : (addCall .statusUpdated k s2).2.month = 30 * s.day := by rw [q.month]; rfl
      rw [q.now, hm]; exact h4
    · exact ⟨_, _, rfl⟩
  obtain ⟨w', t, ht⟩ := last
  refine ⟨(w', v), t, ?_⟩
  refine (M.bind_ok (show addCall .stakeChanged k s = (.ok (), (addCall .stakeChanged k s).2) from rfl)).trans ?_
  refine (M.bind_ok h2).trans ?_
  refine (M.bind_ok (show addCall .statusUpdated k s2 = (.ok (), (addCall .statusUpdated k s2).2) from rfl)).trans ?_
  rw [hd]
  refine (M.bind_ok (M.orPanic_some d _)).trans ?_
  refine (M.bind_ok (M.get_apply _)).trans ?_
  exact (M.bind_ok ht).trans rfl

theorem compressBody_succeeds {k p : Key} {s : State} (hw : s.work = s.store) (ht : Tally 10 s) (hr : Ready s) (hp : (infoOf s.store k).referrer = some p)
    (ha : (infoOf s.store k).active = false) (hb : (infoOf s.store k).banished = false) (hk : Shallow s.store k)
    (h1 : ∀ c, 0 ≤ (infoOf s.store c).tot .delegated 0)
    (h2 : (s.store.keys.map fun c => (infoOf s.store c).tot .delegated 0).sum < 9223372036854775808)
    (h4 : Schedule.inRange (s.now + 30 * s.day) = true) : ∃ t, compressBody k s = (.ok true, t) := by
  have hhas : s.store.has k = true := by
    cases hh : s.store.has k with
    | true => rfl
    | false => rw [infoOf_of_not_has hh] at hp; cases hp
  have h64 : (toInt64? ((infoOf s.store k).tot .delegated 0)).isSome := by
    have h3 := own_le_sum h1 k hhas
    have h4 := h1 k
    unfold toInt64?
    rw [if_pos ⟨by omega, by omega⟩]; rfl
  obtain ⟨⟨w, old⟩, s1, hself⟩ := compressSelf_succeeds (k := k) (v := infoOf s.work k) (s := s) (by rw [hw]; exact hp) (by rw [hw]; exact h64) h4
  obtain ⟨q, rfl, -, x, hx⟩ := compressSelf_ok hself
  have hup := update_unchecked (k := k) hself
  have hv1 : view (s1.work.set k w) = upd (view s.store) k (compressed (view s.store k) x) := by
    rw [view_set, q.work, hw, hx, hw]; rfl
  obtain ⟨s2, h3⟩ := redirect_succeeds (p := (infoOf s.work k).referrer) (infoOf s.work k).referrals { s1 with work := s1.work.set k w }
  obtain ⟨fr, hv2⟩ := redirect_forEach _ _ _ h3
  have hv2 : view s2.work = redirect (view s.store k).referrals (some p) (upd (view s.store) k (compressed (view s.store k) x)) := by
    rw [hv2]
    show redirect _ _ (view (s1.work.set k w)) = _
    rw [hv1, hw, hp]; rfl
  have grows : ∀ c, s.store.has c = true → s2.work.has c = true := by
    intro c hc
    refine fr.grows c ?_
    show (s1.work.set k w).has c = true
    rw [has_set, Bool.or_eq_true]
    right
    rw [q.work, hw]; exact hc
  have hlow : Low s2 := by
    have k1 : Keeps Any (update k false (compressSelf k)) := by
      refine .update fun v hv => ?_
      unfold compressSelf
      refine .bind (.errIf _) fun _ _ => .bind (.still (.addCall _ _)) fun _ _ => .bind (.setStatus (by decide) k) fun w hw =>
        .bind (.still (.addCall _ _)) fun _ _ => .bind (.orPanic fun _ _ => trivial) fun d _ => .bind .get fun s _ =>
        .bind (Q := LowI) (.ite ?_ (.pure hw)) fun w hw => .pure ⟨hw, trivial⟩
      exact .bind .get fun _ _ => .bind (.still (.request _)) fun _ _ => .pure hw
    have k2 : Keeps Any (M.forEach (infoOf s.work k).referrals (fun c =>
        update c false (fun v => pure ({ v with referrer := (infoOf s.work k).referrer }, ())))) :=
      .forEach fun c => .update fun v hv => .pure ⟨hv, trivial⟩
    have g1 := (k1 s hr.low).1
    rw [hup] at g1
    have g2 := (k2 _ g1).1
    rw [h3] at g2
    exact g2
  have hready : Ready s2 := by
    refine ⟨hlow, fun a c hc => grows c ?_, ?_⟩
    · rw [hv2] at hc
      have e1 : (redirect (view s.store k).referrals (some p) (upd (view s.store) k (compressed (view s.store k) x)) a).activeReferrals =
          (upd (view s.store) k (compressed (view s.store k) x) a).activeReferrals := by
        unfold redirect; split <;> rfl
      rw [e1] at hc
      by_cases hak : a = k
      · subst hak; rw [upd_self] at hc; cases hc
      · rw [upd_ne _ _ hak] at hc
        have := hr.stored a c (by rw [hw]; exact hc)
        rw [hw] at this; exact this
    · have := hr.soon
      rw [fr.now, fr.day]
      show Schedule.inRange (s1.now + 2 * s1.day) = true
      rw [q.now, q.day]; exact this
  have hfor := (compress_forest ht.forest hp x).1
  have hneat := Neat.compress (x := x) ht (.inr ⟨le_rfl, by have := shallow_levels ht hk; rw [hp] at this; exact this⟩) hp hb ha hfor
  have own : ∀ c, (climbV (squeeze (view s.store k)) 10 1 (some p) (redirect (view s.store k).referrals (some p)
      (upd (view s.store) k (compressed (view s.store k) x))) c).tot .delegated 0 = (infoOf s.store c).tot .delegated 0 := by
    intro c
    rw [compress_all (fun v => v.tot .delegated 0) (fun old l v hl => squeeze_own old l v hl _) (fun _ _ => rfl)]
    by_cases hc : c = k
    · subst hc; rw [upd_self]; rfl
    · rw [upd_ne _ _ hc]; rfl
  have hsq : ∀ l v, (squeeze (view s.store k) l v).referrer = v.referrer := by intro l v; unfold squeeze; split <;> rfl
  have hover : (treeOf (climbV (squeeze (view s.store k)) 10 1 (some p) (view s2.work))).over = (treeOf (view s2.work)).over := by
    funext a b
    show ((climbV _ 10 1 (some p) _ b).referrer = some a) = ((view s2.work b).referrer = some a)
    rw [climbV_all (π := Info.referrer) (g := squeeze _) hsq]
  obtain ⟨t, h5⟩ := climb_wider (L := (infoOf s.work k).activeReferrals) (g := squeeze (view s.store k)) (f := fun l a v => do
      addCall .stakeChanged a
      let w := squeezed (infoOf s.work k).tot l v
      pure (if l = 1 then
          { w with referrals := v.referrals ++ (infoOf s.work k).referrals
                   activeReferrals := mergeSorted v.activeReferrals (infoOf s.work k).activeReferrals }
        else w)) (by
      intro l a v u
      refine ⟨_, (addCall .stakeChanged a u).2, rfl, Still.addCall _ _ _, ?_, ?_, ?_⟩
      · rw [hw]
        unfold squeeze
        by_cases hl : l = 1
        · subst hl; rw [if_pos rfl, if_pos rfl]; rfl
        · rw [if_neg hl, if_neg hl]; rfl
      · split <;> rfl
      · intro c hc
        split at hc
        · exact Order.mem_mergeLoop_imp _ _ _ hc
        · exact .inl hc) 10 1 (some p) s2 hready (fun c hc => grows c (by
        have := hr.stored k c hc
        rw [hw] at this; exact this)) (by
      refine affords_of_result hsq 10 1 _ _ ?_ fun a => ?_
      · rw [← hover, hv2]
        exact fun y hy => no_loop hfor hy .refl
      · rw [hv2]
        refine hneat.affordable (K := s.store.keys) (fun c => by rw [own]; exact h1 c) (fun c hc => ?_) ?_ a
        · rw [own]
          rw [mem_keys_of_has] at hc
          rw [infoOf_of_not_has (by simpa using hc)]
        · rw [List.map_congr_left fun c _ => own c]
          omega)
  refine ⟨t, ?_⟩
  unfold compressBody
  rw [M.bind_ok hup]
  refine (M.bind_ok h3).trans ?_
  have hp' : (infoOf s.work k).referrer = some p := by rw [hw]; exact hp
  rw [hp']
  exact (M.bind_ok h5).trans rfl

/-- The compression of `k`, which is below `p`, is due. -/
structure Ripe (S : State) (k p : Key) : Prop where
  referrer : (infoOf S.store k).referrer = some p
  due : ∃ x, (infoOf S.store k).compressionAt = some x ∧ x ≤ S.now

theorem squash {S : State} {e : Env} (he : ∀ c k, e.call c k = true) {k p : Key} (ht : Tally 10 S) (hl : Listed S) (hlow : Low S) (hk : Ripe S k p)
    (hsh : Shallow S.store k) (h1 : ∀ c, 0 ≤ (infoOf S.store c).tot .delegated 0)
    (h2 : (S.store.keys.map fun c => (infoOf S.store c).tot .delegated 0).sum < 9223372036854775808)
    (h3 : Schedule.inRange (S.now + 2 * S.day) = true) (h4 : Schedule.inRange (S.now + 30 * S.day) = true) :
    ∃ t, performCompression e k S = (.ok (), t) ∧ (infoOf t.store k).referrals = [] ∧ (infoOf t.store k).compressionAt = none ∧
      ((infoOf S.store k).tot .delegated 0 ≤ S.dust → (infoOf t.store k).banishmentAt = some (S.now + 30 * S.day)) ∧
      (infoOf t.store p).referrals = (infoOf S.store p).referrals ++ (infoOf S.store k).referrals ∧
      (∀ a, a ≠ p → a ≠ k → (infoOf t.store a).referrals = (infoOf S.store a).referrals) ∧
      (∀ c, (infoOf t.store c).referrer = if c ∈ (infoOf S.store k).referrals then some p else (infoOf S.store c).referrer) ∧
      ∀ c, (infoOf t.store c).active = (infoOf S.store c).active ∧ (infoOf t.store c).banished = (infoOf S.store c).banished ∧
        (infoOf t.store c).tot .coins 0 = (infoOf S.store c).tot .coins 0 ∧ (infoOf t.store c).tot .delegated 0 = (infoOf S.store c).tot .delegated 0 := by
  have hR : Roomy 0 S := roomy_of_inv ht hl hlow h1 h2 h3 (by decide)
  obtain ⟨x0, hx0, hdue⟩ := hk.due
  have hb : (infoOf S.store k).banished = false := by
    cases hb : (infoOf S.store k).banished with
    | false => rfl
    | true =>
      have : (infoOf S.store k).compressionAt = none := ht.tidy.done k hb
      rw [hx0] at this; cases this
  have ha : (infoOf S.store k).active = false := by
    cases hb : (infoOf S.store k).active with
    | false => rfl
    | true =>
      have : (infoOf S.store k).compressionAt = none := ht.tidy.idle k hb
      rw [hx0] at this; cases this
  obtain ⟨w, hw⟩ := compressBody_succeeds (k := k) (s := S.fresh) rfl ht ⟨⟨hR.low, hR.low⟩, hR.stored, hR.soon⟩ hk.referrer ha hb hsh h1 h2 h4
  have hcom : compress e k S = (.ok (), { w with store := w.work }) := by
    have e0 : compress e k S = (compressBody k >>= fun b => if b then commit e else pure ()) S.fresh := rfl
    rw [e0, M.bind_ok hw, if_pos rfl, commit_fine he]
  have hper : performCompression e k S = (.ok (), { w with store := w.work }) := by
    unfold performCompression
    have hn : notDue (infoOf S.store k).compressionAt S.now = false := by
      rw [hx0]; exact decide_eq_false (by omega)
    rw [M.bind_ok (M.get_apply S), hn]
    exact hcom
  obtain ⟨d1, d2, -⟩ := C66_compress hcom
  obtain ⟨-, q, x, hq, hv⟩ := compressBody_ok hw
  have hv0 : view S.fresh.work = view S.store := rfl
  rw [hv0] at hv hq
  have hpq : q = p := by
    have h5 : (view S.store k).referrer = some p := hk.referrer
    rw [h5] at hq; injection hq with hq; exact hq.symm
  subst hpq
  have hne : q ≠ k := fun e => ht.forest.irrefl (c := k) (by show (view S.store k).referrer = _; rw [hq, e])
  have kids : ∀ j, (infoOf w.work j).referrals = if j = q then (infoOf S.store q).referrals ++ (infoOf S.store k).referrals else if j = k then [] else
      (infoOf S.store j).referrals := by
    intro j
    show (view w.work j).referrals = _
    rw [hv]
    exact (compress_forest ht.forest hq x).2 j
  refine ⟨_, hper, ?_, d1, d2, ?_, fun a ha hak => ?_, fun c => ?_, fun c => ?_⟩
  · have := kids k
    rw [if_neg (Ne.symm hne), if_pos rfl] at this
    exact this
  · have := kids q
    rw [if_pos rfl] at this
    exact this
  · have := kids a
    rw [if_neg ha, if_neg hak] at this
    exact this
  · show (view w.work c).referrer = _
    rw [hv, climbV_all (π := Info.referrer) (g := squeeze _) (by intro l v; unfold squeeze; split <;> rfl)]
    unfold redirect
    show _ = if c ∈ (view S.store k).referrals then some q else (view S.store c).referrer
    split
    · rfl
    · by_cases hc : c = k
      · subst hc; rw [upd_self]; rfl
      · rw [upd_ne _ _ hc]
  · have all : (fun v : Info => (v.active, v.banished, v.tot .coins 0, v.tot .delegated 0)) (view w.work c) =
        (fun v : Info => (v.active, v.banished, v.tot .coins 0, v.tot .delegated 0)) (upd (view S.store) k (compressed (view S.store k) x) c) := by
      rw [hv]
      refine compress_all (fun v : Info => (v.active, v.banished, v.tot .coins 0, v.tot .delegated 0)) (fun old l v hl => ?_) (fun _ _ => rfl) _ _ _ _ _
      rw [squeeze_own old l v hl, squeeze_own old l v hl]
      have : (squeeze old l v).active = v.active ∧ (squeeze old l v).banished = v.banished := by unfold squeeze; split <;> exact ⟨rfl, rfl⟩
      rw [this.1, this.2]
    have same : (fun v : Info => (v.active, v.banished, v.tot .coins 0, v.tot .delegated 0)) (upd (view S.store) k (compressed (view S.store k) x) c) =
        (fun v : Info => (v.active, v.banished, v.tot .coins 0, v.tot .delegated 0)) (view S.store c) := by
      by_cases hc : c = k
      · subst hc; rw [upd_self]; rfl
      · rw [upd_ne _ _ hc]
    have := all.trans same
    exact ⟨(congrArg Prod.fst this :), (congrArg (fun p => p.2.1) this :), (congrArg (fun p => p.2.2.1) this :), (congrArg (fun p => p.2.2.2) this :)⟩

/-! ### The property -/

/-- **C111** for executions that meet `acceptOk` (as in C58), for accounts that are not in the midst of a line of ten levels or more, when the callbacks of
other modules succeed, own delegations are not negative and add up to less than 2⁶³, and dates are before 2263. -/
theorem C111_compressed_partial (l : List (Env × Op)) (s : State) (h0 : s.start) (hw : s.work = KV.empty) (h : Along acceptOk l s) (e : Env)
    (he : ∀ c k, e.call c k = true) (k p : Key) :
    let S := run l s
    Ripe S k p → Shallow S.store k → (∀ c, 0 ≤ (infoOf S.store c).tot .delegated 0) →
    (S.store.keys.map fun c => (infoOf S.store c).tot .delegated 0).sum < 9223372036854775808 →
    Schedule.inRange (S.now + 2 * S.day) = true → Schedule.inRange (S.now + 30 * S.day) = true →
    ∃ t, performCompression e k S = (.ok (), t) ∧ (infoOf t.store k).referrals = [] ∧ (infoOf t.store k).compressionAt = none ∧
      ((infoOf S.store k).tot .delegated 0 ≤ S.dust → (infoOf t.store k).banishmentAt = some (S.now + 30 * S.day)) ∧
      (infoOf t.store p).referrals = (infoOf S.store p).referrals ++ (infoOf S.store k).referrals ∧
      (∀ a, a ≠ p → a ≠ k → (infoOf t.store a).referrals = (infoOf S.store a).referrals) ∧
      (∀ c, (infoOf t.store c).referrer = if c ∈ (infoOf S.store k).referrals then some p else (infoOf S.store c).referrer) ∧
      ∀ c, (infoOf t.store c).active = (infoOf S.store c).active ∧ (infoOf t.store c).banished = (infoOf S.store c).banished ∧
        (infoOf t.store c).tot .coins 0 = (infoOf S.store c).tot .coins 0 ∧ (infoOf t.store c).tot .delegated 0 = (infoOf S.store c).tot .delegated 0 := by
  intro S hk hsh h1 h2 h3 h4
  obtain ⟨ht, hl, hlow⟩ := accept_inv l s h0 hw h
  exact squash he ht hl hlow hk hsh h1 h2 h3 h4

/-- **C111**, the other way round, for all states: before the date, or without one, nothing happens. -/
theorem C111_not_before (e : Env) (k : Key) (s : State) (h : ∀ x, (infoOf s.store k).compressionAt = some x → s.now < x) :
    performCompression e k s = (.ok (), s) := by
  unfold performCompression
  have hn : notDue (infoOf s.store k).compressionAt s.now = true := by
    cases hc : (infoOf s.store k).compressionAt with
    | none => rfl
    | some x => exact decide_eq_true (h x hc)
  rw [M.bind_ok (M.get_apply s), hn]
  rfl

/-- Account 1 has lost its subscription and is compressed; its referral, account 2, comes below account 0. -/
example : plain.start ∧ plain.work = KV.empty ∧ Along acceptOk (sample.take 5) plain ∧ Ripe (run (sample.take 5) plain) (text 1) (text 0) ∧
    Shallow (run (sample.take 5) plain).store (text 1) ∧
    ((run (sample.take 5) plain).store.keys.map fun c => (infoOf (run (sample.take 5) plain).store c).tot .delegated 0) = [0, 0, 0] ∧
    Schedule.inRange ((run (sample.take 5) plain).now + 30 * (run (sample.take 5) plain).day) = true ∧
    (infoOf (run (sample.take 5) plain).store (text 1)).referrals = [text 2] ∧
    (infoOf (step fine (.compression (text 1)) (run (sample.take 5) plain)).store (text 0)).referrals = [text 1, text 2] ∧
    (infoOf (step fine (.compression (text 1)) (run (sample.take 5) plain)).store (text 0)).activeReferrals = [text 2] ∧
    (infoOf (step fine (.compression (text 1)) (run (sample.take 5) plain)).store (text 1)).banishmentAt = some 1000 := by
  refine ⟨rfl, rfl, ⟨⟨trivial, trivial⟩, ⟨(show text 1 ≠ text 0 by decide), trivial⟩, ⟨(show text 2 ≠ text 1 by decide), trivial⟩, ⟨trivial, trivial⟩,
    ⟨trivial, trivial⟩, trivial⟩, ⟨by decide +kernel, 600, by decide +kernel, by decide +kernel⟩, shallow_of_depth (by decide +kernel) _, ?_, ?_, ?_, ?_, ?_, ?_⟩ <;>
    decide +kernel

end Verif.Referral
