import Verif.Referral.Lapse

/-! Property C110: an account that may be banished is banished. -/
namespace Verif.Referral
open Relation

theorem detach_succeeds {k : Key} {c d : Int} {p : Option Key} {s : State} (hs : Ready s)
    (ha : Affords (bump (money (-c) (-d)) (dropKid k)) 10 1 p (view s.work)) : ∃ t, detach k c d p s = (.ok (), t) ∧ Ready t := by
  cases p with
  | none => exact ⟨s, rfl, hs⟩
  | some p =>
    obtain ⟨t, h2, ht⟩ := update_succeeds (k := p) (s := s) (s1 := s)
      (f := fun v => pure ({ v.add (money (-c) (-d)) 1 with referrals := removeFast v.referrals k }, v.referrer))
      (w := { (infoOf s.work p).add (money (-c) (-d)) 1 with referrals := removeFast (infoOf s.work p).referrals k }) (a := (infoOf s.work p).referrer) rfl
      (ha.1.congr fun _ => rfl) (hs.low.work p) (fun x hx => hs.stored p x hx) hs
    obtain ⟨w', s1', h1', -, hv, -⟩ := update_ok h2
    cases h1'
    have e : detach k c d (some p) s = (if c = 0 ∧ d = 0 then pure () else climb true (fun l _ v => pure (v.add (money (-c) (-d)) l)) 9 2
        (infoOf s.work p).referrer : Act Unit) t := M.bind_ok h2
    rw [e]
    split
    · exact ⟨t, rfl, ht⟩
    · refine climb_succeeds (g := fun l v => v.add (money (-c) (-d)) l) (fun l a v s => ⟨v.add (money (-c) (-d)) l, s, rfl, .refl _, rfl, rfl, rfl⟩) _ _ _ t ht ?_
      refine affords_congr 9 2 _ _ (g := bump (money (-c) (-d)) (dropKid k)) (fun l hl => bump_ge hl) ?_
      rw [hv]
      exact ha.2

theorem banish_forest {I : View} {P : Key → Prop} (hs : Forest (treeOf I) P) {k p : Key} (hp : (I k).referrer = some p) (d : What → Int) :
    Forest (treeOf (climbV (bump d (dropKid k)) 10 1 (some p)
      (upd I k { I k with banished := true, compressionAt := none, banishmentAt := none }))) P := by
  have hne : p ≠ k := fun e => hs.irrefl (c := k) (by show (I k).referrer = _; rw [hp, e])
  have kids : ∀ j, (climbV (bump d (dropKid k)) 10 1 (some p)
      (upd I k { I k with banished := true, compressionAt := none, banishmentAt := none }) j).referrals =
      if j = p then removeFast (I p).referrals k else (I j).referrals := by
    intro j
    rw [climbV_first (π := Info.referrals) (bump_proj (fun _ _ => rfl))]
    by_cases hj : j = p
    · rw [if_pos hj, if_pos hj, upd_ne _ _ hne]; rfl
    · rw [if_neg hj, if_neg hj]
      by_cases hjk : j = k
      · subst hjk; rw [upd_self]
      · rw [upd_ne _ _ hjk]
  refine Forest.banish (k := k) (p := p) hs hp ?_ ?_ ?_ ?_ fun _ h => h
  · intro j
    show (climbV _ 10 1 (some p) _ j).referrer = _
    rw [climbV_all (π := Info.referrer) (g := bump _ (dropKid _)) (bump_all (fun _ _ => rfl) (fun _ => rfl))]
    by_cases hj : j = k
    · subst hj; rw [upd_self]; rfl
    · rw [upd_ne _ _ hj]; rfl
  · have := kids p
    rw [if_pos rfl] at this
    have hn : (I p).referrals.Nodup := hs.nodup p
    show (climbV _ 10 1 (some p) _ p).referrals.Nodup ∧ ∀ x, x ∈ (climbV _ 10 1 (some p) _ p).referrals ↔ _
    rw [this]
    exact ⟨removeFast_nodup hn, fun x => mem_removeFast hn⟩
  · intro x hx
    show (climbV _ 10 1 (some p) _ x).referrals = _
    rw [kids, if_neg hx]; rfl
  · intro j
    show (climbV _ 10 1 (some p) _ j).banished = _
    rw [climbV_all (π := Info.banished) (g := bump _ (dropKid _)) (bump_all (fun _ _ => rfl) (fun _ => rfl))]
    by_cases hj : j = k
    · subst hj; rw [upd_self, if_pos rfl]
    · rw [upd_ne _ _ hj, if_neg hj]; rfl

theorem banishBody_succeeds {k p : Key} {s : State} (hw : s.work = s.store) (ht : Tally 10 s) (hr : Ready s) (hp : (infoOf s.store k).referrer = some p)
    (ha : (infoOf s.store k).active = false) (hb : (infoOf s.store k).banished = false) (hk : (infoOf s.store k).referrals = [])
    (hd : (infoOf s.store k).tot .delegated 0 ≤ s.dust) (h1 : ∀ c, 0 ≤ (infoOf s.store c).tot .delegated 0)
    (h2 : (s.store.keys.map fun c => (infoOf s.store c).tot .delegated 0).sum < 9223372036854775808) : ∃ t, banishBody k s = (.ok true, t) := by
  have hhas : s.store.has k = true := by
    cases hh : s.store.has k with
    | true => rfl
    | false => rw [infoOf_of_not_has hh] at hp; cases hp
  have h64 : toInt64? ((infoOf s.store k).tot .delegated 0) = some ((infoOf s.store k).tot .delegated 0) := by
    have h3 := own_le_sum h1 k hhas
    have h4 := h1 k
    unfold toInt64?
    rw [if_pos ⟨by omega, by omega⟩]
  have hself : banishSelf (infoOf s.work k) s = (.ok ({ infoOf s.store k with banished := true, status := 0, compressionAt := none, downgradeAt := none, banishmentAt := none },
      infoOf s.store k), s) := by
    rw [hw]
    unfold banishSelf
    rw [M.bind_ok (M.get_apply s)]
    simp only [hp, ha, h64, Option.isNone_some]
    have h5 : decide (s.dust < (infoOf s.store k).tot .delegated 0) = false := decide_eq_false (by omega)
    have e1 : ∀ u : State, M.errIf false u = (.ok (), u) := fun u => rfl
    rw [M.bind_ok (e1 s), M.bind_ok (e1 s), M.bind_ok (M.orPanic_some _ s), h5, M.bind_ok (e1 s)]
    rfl
  have hup := update_unchecked (k := k) hself
  have hview : view (s.work.set k { infoOf s.store k with banished := true, status := 0, compressionAt := none, downgradeAt := none, banishmentAt := none }) =
      upd (view s.store) k { view s.store k with banished := true, compressionAt := none, banishmentAt := none } := by
    rw [view_set, hw]; rfl
  have irr : ∀ x, ¬ TransGen (treeOf (view s.store)).over x x := fun x hx => no_loop ht.forest hx .refl
  have hover : (treeOf (upd (view s.store) k { view s.store k with banished := true, compressionAt := none, banishmentAt := none })).over =
      (treeOf (view s.store)).over := by
    funext x y
    show ((upd _ k _ y).referrer = some x) = ((view s.store y).referrer = some x)
    by_cases hy : y = k
    · subst hy; rw [upd_self]
    · rw [upd_ne _ _ hy]
  have hneat := Neat.detach (top := 10) le_rfl ht (w := { view s.store k with banished := true, compressionAt := none, banishmentAt := none })
      hp hb ha hk rfl rfl rfl rfl rfl (banish_forest ht.forest hp _)
  have own : ∀ c, (climbV (bump (money (-(view s.store k).tot .coins 0) (-(view s.store k).tot .delegated 0)) (dropKid k)) 10 1 (some p)
      (upd (view s.store) k { view s.store k with banished := true, compressionAt := none, banishmentAt := none }) c).tot .delegated 0 =
      (infoOf s.store c).tot .delegated 0 := by
    intro c
    rw [climbV_own _ (L := dropKid k) (fun _ => rfl)]
    by_cases hc : c = k
    · subst hc; rw [upd_self]; rfl
    · rw [upd_ne _ _ hc]; rfl
  obtain ⟨t, h3, -⟩ := detach_succeeds (k := k) (c := (infoOf s.store k).tot .coins 0) (d := (infoOf s.store k).tot .delegated 0) (p := some p)
    (s := { s with work := s.work.set k { infoOf s.store k with banished := true, status := 0, compressionAt := none, downgradeAt := none, banishmentAt := none } })
    (by
      refine ⟨⟨hr.low.store, hr.low.work.set (by decide : (0 : Nat) ≤ 9)⟩, fun x c hc => ?_, hr.soon⟩
      have hc : c ∈ (view (s.work.set k { infoOf s.store k with banished := true, status := 0, compressionAt := none, downgradeAt := none, banishmentAt := none }) x).activeReferrals := hc
      show (s.work.set k _).has c = true
      rw [has_set, Bool.or_eq_true]
      right
      rw [hview] at hc
      refine hr.stored x c ?_
      rw [hw]
      by_cases hx : x = k
      · subst hx; rw [upd_self] at hc; exact hc
      · rw [upd_ne _ _ hx] at hc; exact hc)
    (by
      show Affords _ 10 1 (some p) (view (s.work.set k _))
      rw [hview]
      refine affords_of_result (bump_all (π := Info.referrer) (L := dropKid k) (fun _ _ => rfl) (fun _ => rfl)) 10 1 _ _ (by rw [hover]; exact irr) fun a => ?_
      refine hneat.affordable (K := s.store.keys) (fun c => by rw [own]; exact h1 c) (fun c hc => ?_) ?_ a
      · rw [own]
        rw [mem_keys_of_has] at hc
        rw [infoOf_of_not_has (by simpa using hc)]
      · rw [List.map_congr_left fun c _ => own c]
        omega)
  refine ⟨t, ?_⟩
  unfold banishBody
  rw [M.bind_ok hup, hb]
  have e1 : ∀ u : State, M.errIf false u = (.ok (), u) := fun u => rfl
  rw [M.bind_ok (e1 _), hp, M.bind_ok h3]
  rfl

/-- Who may be banished -/
structure Dismissible (S : State) (k : Key) : Prop where
  present : (infoOf S.store k).banished = false
  inactive : (infoOf S.store k).active = false
  referred : (infoOf S.store k).referrer ≠ none
  alone : (infoOf S.store k).referrals = []
  dust : (infoOf S.store k).tot .delegated 0 ≤ S.dust

theorem farewell {S : State} {e : Env} (he : ∀ c k, e.call c k = true) {k : Key} (ht : Tally 10 S) (hl : Listed S) (hlow : Low S) (hk : Dismissible S k)
    (h1 : ∀ c, 0 ≤ (infoOf S.store c).tot .delegated 0) (h2 : (S.store.keys.map fun c => (infoOf S.store c).tot .delegated 0).sum < 9223372036854775808)
    (h3 : Schedule.inRange (S.now + 2 * S.day) = true) :
    ∃ t, banish e k S = (.ok (), t) ∧ (infoOf t.store k).banished = true ∧ (∀ a, k ∉ (infoOf t.store a).referrals) ∧
      (∀ j, (infoOf t.store j).referrer = (infoOf S.store j).referrer ∧ (infoOf t.store j).active = (infoOf S.store j).active ∧
        ∀ x, (infoOf t.store j).tot x 0 = (infoOf S.store j).tot x 0) ∧
      (∀ j, j ≠ k → (infoOf t.store j).banished = (infoOf S.store j).banished) ∧
      ∀ a j, j ≠ k → (j ∈ (infoOf t.store a).referrals ↔ j ∈ (infoOf S.store a).referrals) := by
  obtain ⟨p, hp⟩ := Option.ne_none_iff_exists'.1 hk.referred
  have hR : Roomy 0 S := roomy_of_inv ht hl hlow h1 h2 h3 (by decide)
  obtain ⟨w, hw⟩ := banishBody_succeeds (k := k) (s := S.fresh) rfl ht ⟨⟨hR.low, hR.low⟩, hR.stored, hR.soon⟩ hp hk.inactive hk.present hk.alone hk.dust h1 h2
  have hbun : bunch e (banishBody k) S = (.ok (), { w with store := w.work }) := by
    have e0 : bunch e (banishBody k) S = (banishBody k >>= fun b => if b then commit e else pure ()) S.fresh := rfl
    rw [e0, M.bind_ok hw, if_pos rfl, commit_fine he]
  have hban : banish e k S = (.ok (), { w with store := w.work }) := by
    unfold banish
    rw [M.bind_ok hbun, he]
    rfl
  have hg : Good { w with store := w.work } := by
    have := banish_good (e := e) (k := k) ht.good
    rw [hban] at this; exact this
  obtain ⟨-, q, -, -, -, -, hv⟩ := banishBody_ok hw
  have hv0 : view S.fresh.work = view S.store := rfl
  rw [hv0] at hv
  have all : ∀ j, (fun v : Info => (v.active, v.banished, v.referrer)) (view w.work j) = (fun v : Info => (v.active, v.banished, v.referrer))
      (upd (view S.store) k { view S.store k with banished := true, compressionAt := none, banishmentAt := none } j) := by
    intro j
    rw [hv]
    exact climbV_all (π := fun v : Info => (v.active, v.banished, v.referrer))
      (g := bump (money (-(view S.store k).tot .coins 0) (-(view S.store k).tot .delegated 0)) (dropKid k))
      (bump_all (π := fun v : Info => (v.active, v.banished, v.referrer)) (L := dropKid k) (fun _ _ => rfl) (fun _ => rfl)) 10 1 _ _ j
  have hk' := all k
  rw [upd_self] at hk'
  have r1 : (infoOf w.work k).banished = true := (congrArg (fun p => p.2.1) hk' :)
  have rest : ∀ j, (infoOf w.work j).referrer = (infoOf S.store j).referrer ∧ (infoOf w.work j).active = (infoOf S.store j).active := by
    intro j
    by_cases hj : j = k
    · subst hj
      exact ⟨(congrArg (fun p => p.2.2) hk' :), (congrArg Prod.fst hk' :)⟩
    · have hj' := all j
      rw [upd_ne _ _ hj] at hj'
      exact ⟨(congrArg (fun p => p.2.2) hj' :), (congrArg Prod.fst hj' :)⟩
  have others : ∀ j, j ≠ k → (infoOf w.work j).banished = (infoOf S.store j).banished := by
    intro j hj
    have hj' := all j
    rw [upd_ne _ _ hj] at hj'
    exact (congrArg (fun p => p.2.1) hj' :)
  refine ⟨_, hban, r1, fun a hka => ?_, fun j => ⟨(rest j).1, (rest j).2, fun x => ?_⟩, others, fun a j hj => ?_⟩
  · have h5 : (infoOf w.work k).banished = false := ((hg.mem a k).1 hka).2
    rw [r1] at h5; cases h5
  · show (view w.work j).tot x 0 = _
    rw [hv, climbV_own _ (L := dropKid k) (fun _ => rfl)]
    by_cases hj : j = k
    · subst hj; rw [upd_self]; rfl
    · rw [upd_ne _ _ hj]; rfl
  · have m1 : j ∈ (infoOf w.work a).referrals ↔ (infoOf w.work j).referrer = some a ∧ (infoOf w.work j).banished = false := hg.mem a j
    have m2 : j ∈ (infoOf S.store a).referrals ↔ (infoOf S.store j).referrer = some a ∧ (infoOf S.store j).banished = false := ht.good.mem a j
    show j ∈ (infoOf w.work a).referrals ↔ _
    rw [m1, m2, (rest j).1, others j hj]

/-! ### The property -/

/-- **C110** for executions that meet `acceptOk` (as in C58), when the callbacks of other modules succeed, own delegations are not negative and add up
to less than 2⁶³, and dates are before 2263. -/
theorem C110_dismissed_partial (l : List (Env × Op)) (s : State) (h0 : s.start) (hw : s.work = KV.empty) (h : Along acceptOk l s) (e : Env)
    (he : ∀ c k, e.call c k = true) (k : Key) :
    let S := run l s
    Dismissible S k → (∀ c, 0 ≤ (infoOf S.store c).tot .delegated 0) →
    (S.store.keys.map fun c => (infoOf S.store c).tot .delegated 0).sum < 9223372036854775808 →
    Schedule.inRange (S.now + 2 * S.day) = true →
    ∃ t, banish e k S = (.ok (), t) ∧ (infoOf t.store k).banished = true ∧ (∀ a, k ∉ (infoOf t.store a).referrals) ∧
      (∀ j, (infoOf t.store j).referrer = (infoOf S.store j).referrer ∧ (infoOf t.store j).active = (infoOf S.store j).active ∧
        ∀ x, (infoOf t.store j).tot x 0 = (infoOf S.store j).tot x 0) ∧
      (∀ j, j ≠ k → (infoOf t.store j).banished = (infoOf S.store j).banished) ∧
      ∀ a j, j ≠ k → (j ∈ (infoOf t.store a).referrals ↔ j ∈ (infoOf S.store a).referrals) := by
  intro S hk h1 h2 h3
  obtain ⟨ht, hl, hlow⟩ := accept_inv l s h0 hw h
  exact farewell he ht hl hlow hk h1 h2 h3

/-- **C110** for genesis files in which all records are in order, and executions in which tasks run on time: it is enough that the banishment is announced
and that not more than dust is delegated. -/
theorem C110_announced_partial (l0 l : List (Env × Op)) (s : State) (h0 : s.start) (hw : s.work = KV.empty) (h1 : Along acceptOk l0 s)
    (hf : ∀ k, Settled (infoOf (run l0 s).store k)) (h : Along calmOk l (run l0 s)) (e : Env) (he : ∀ c k, e.call c k = true) (k : Key) :
    let S := run l (run l0 s)
    (infoOf S.store k).banishmentAt ≠ none → (infoOf S.store k).banished = false → (infoOf S.store k).tot .delegated 0 ≤ S.dust →
    (∀ c, 0 ≤ (infoOf S.store c).tot .delegated 0) →
    (S.store.keys.map fun c => (infoOf S.store c).tot .delegated 0).sum < 9223372036854775808 →
    Schedule.inRange (S.now + 2 * S.day) = true →
    ∃ t, banish e k S = (.ok (), t) ∧ (infoOf t.store k).banished = true ∧ (∀ a, k ∉ (infoOf t.store a).referrals) ∧
      (∀ j, (infoOf t.store j).referrer = (infoOf S.store j).referrer ∧ (infoOf t.store j).active = (infoOf S.store j).active ∧
        ∀ x, (infoOf t.store j).tot x 0 = (infoOf S.store j).tot x 0) ∧
      (∀ j, j ≠ k → (infoOf t.store j).banished = (infoOf S.store j).banished) ∧
      ∀ a j, j ≠ k → (j ∈ (infoOf t.store a).referrals ↔ j ∈ (infoOf S.store a).referrals) := by
  intro S hk hb hd
  have hr := C74_out_of_business_partial l0 l s h0 (along_imp (fun _ _ h => h.1.actives.structure) h1) hf (along_imp (fun _ _ h => h.1) h) k (.inr (.inl hk))
  have := C110_dismissed_partial (l0 ++ l) s h0 hw (orderly_accept h0 h1 hf h) e he k
  rw [run_append] at this
  exact this ⟨hb, hr.2.1, hr.1, hr.2.2.2.1, hd⟩

/-- **C110**, the other way round, for all states: nobody is banished who is at the top, active, banished already or has more than dust delegated. -/
theorem C110_spared (e : Env) (k : Key) (s t : State) (h : (infoOf s.store k).banished = true ∨ (infoOf s.store k).active = true ∨
    (infoOf s.store k).referrer = none ∨ s.dust < (infoOf s.store k).tot .delegated 0) : banish e k s ≠ (.ok (), t) := by
  intro hb
  obtain ⟨h1, h2, h3, h4, -⟩ := C66_banish hb
  rcases h with h | h | h | h
  · rw [h3] at h; cases h
  · rw [h1] at h; cases h
  · exact h4 h
  · omega

/-- Three accounts below each other; the last one keeps 3 of its delegated coins, which is dust. -/
def parting : List (Env × Op) :=
  [(fine, .top (text 0)), (fine, .child (text 0) (text 1)), (fine, .child (text 1) (text 2)), (fine, .balance 2 { delegated := 9 }),
   (fine, .world 100 5 0 99), (fine, .balance 2 { delegated := 3 }), (fine, .world 401 5 0 99)]

example : plain.start ∧ plain.work = KV.empty ∧ Along acceptOk parting plain ∧ Dismissible (run parting plain) (text 2) ∧
    ((run parting plain).store.keys.map fun c => (infoOf (run parting plain).store c).tot .delegated 0) = [0, 0, 3] ∧
    Schedule.inRange ((run parting plain).now + 2 * (run parting plain).day) = true ∧
    (infoOf (run parting plain).store (text 1)).referrals = [text 2] ∧
    (infoOf (step fine (.banish (text 2)) (run parting plain)).store (text 1)).referrals = [] ∧
    (infoOf (run parting plain).store (text 0)).tot .delegated 2 = 3 ∧
    (infoOf (step fine (.banish (text 2)) (run parting plain)).store (text 0)).tot .delegated 2 = 0 ∧
    (infoOf (step fine (.banish (text 2)) (run parting plain)).store (text 2)).tot .delegated 0 = 3 := by
  refine ⟨rfl, rfl, ?_, ⟨?_, ?_, ?_, ?_, ?_⟩, ?_, ?_, ?_, ?_, ?_, ?_, ?_⟩
  · exact ⟨⟨trivial, trivial⟩, ⟨⟨(show text 1 ≠ text 0 by decide), by decide +kernel⟩, trivial⟩, ⟨⟨(show text 2 ≠ text 1 by decide), by decide +kernel⟩, trivial⟩,
      ⟨trivial, trivial⟩, ⟨trivial, trivial⟩, ⟨trivial, trivial⟩, ⟨trivial, trivial⟩, trivial⟩
  all_goals decide +kernel

/-- The hypotheses of the theorem on announced banishments are met by account 1 of `revived` after its compression. -/
example : (infoOf (run (revived.take 5) (run [(fine, .top (text 0))] plain)).store (text 1)).banishmentAt ≠ none ∧
    Along acceptOk [(fine, .top (text 0))] plain ∧ (∀ k, Settled (infoOf (run [(fine, .top (text 0))] plain).store k)) ∧
    Along calmOk (revived.take 5) (run [(fine, .top (text 0))] plain) ∧
    (infoOf (run (revived.take 6) (run [(fine, .top (text 0))] plain)).store (text 1)).banished = true := by
  refine ⟨by decide +kernel, ⟨⟨trivial, trivial⟩, trivial⟩, settled_of (by decide +kernel), ?_, by decide +kernel⟩
  have h3 : Shallow (run (revived.take 4) (run [(fine, .top (text 0))] plain)).store (text 1) := shallow_of_depth (by decide +kernel) _
  exact ⟨calm_of rfl (show text 1 ≠ text 0 by decide), calm_of rfl (show text 2 ≠ text 1 by decide), calm_of rfl trivial, calm_of rfl trivial,
    calm_compression h3, trivial⟩

/-- With one coin more than dust the account stays. -/
example : (banish fine (text 2) (step fine (.world 401 2 0 99) (run parting plain))).1 = .err := by decide +kernel

end Verif.Referral
