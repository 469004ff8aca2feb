import Verif.Referral.Actives
import Verif.Referral.Low
import Verif.Referral.Afford
import Verif.Referral.Walk

/-! C58: when a change of balance is accepted. -/
namespace Verif.Referral
open Relation

/-! ### The status check succeeds -/

theorem hasRefs_some {st : KV Nat Info} {c : Key} {n : Int} (h : st.has c = true) : ∃ b, hasRefs st c n = some b := by
  unfold hasRefs
  unfold KV.has at h
  cases hg : st.get c with
  | none => rw [hg] at h; cases h
  | some v => exact ⟨_, rfl⟩

theorem xByX_some {st : KV Nat Info} {count : Nat} {size : Int} : ∀ (l : List Key) (found : Nat), (∀ c ∈ l, st.has c = true) →
    ∃ b, xByXLoop st count size found l = some b := by
  intro l
  induction l with
  | nil => intro found _; exact ⟨_, rfl⟩
  | cons c l ih =>
    intro found h
    obtain ⟨b, hb⟩ := hasRefs_some (n := size) (h c (by simp))
    unfold xByXLoop
    rw [hb]
    show ∃ b', (if b = true then (if count ≤ found + 1 then some true else xByXLoop st count size (found + 1) l)
      else xByXLoop st count size found l) = some b'
    have h' : ∀ c ∈ l, st.has c = true := fun c hc => h c (List.mem_cons_of_mem _ hc)
    split
    · split
      · exact ⟨_, rfl⟩
      · exact ih _ h'
    · exact ih _ h'

theorem teams_some {st : KV Nat Info} {leg : Int} : ∀ (l : List Key) (teams xs : Nat), (∀ c ∈ l, st.has c = true) →
    ∃ b, teamsLoop st leg teams xs l = some b := by
  intro l
  induction l with
  | nil => intro teams xs _; exact ⟨_, rfl⟩
  | cons c l ih =>
    intro teams xs h
    have hc := h c (by simp)
    unfold KV.has at hc
    have h' : ∀ c ∈ l, st.has c = true := fun c hc => h c (List.mem_cons_of_mem _ hc)
    unfold teamsLoop
    cases hg : st.get c with
    | none => rw [hg] at hc; cases hc
    | some v =>
      dsimp only
      generalize (if teams < 3 ∧ bigTeam v leg 11 0 = true then teams + 1 else teams) = a
      generalize (if xs < 3 ∧ 3 ≤ u64 (v.tot What.active 1) then xs + 1 else xs) = b
      split
      · exact ⟨_, rfl⟩
      · exact ih _ _ h'

theorem enough_some {v : Info} (h : Affordable v) {lines : Nat} (hl : lines ≤ 10) (coins : Int) : ∃ b, enoughCoins v lines coins = some b := by
  unfold enoughCoins
  rw [if_pos (h lines hl)]
  exact ⟨_, rfl⟩

theorem meets_some {st : KV Nat Info} {v : Info} (ha : Affordable v) (hr : ∀ c ∈ v.activeReferrals, st.has c = true) {n : Nat} (hn : n ≤ 9)
    (h8 : n ≠ 8) : ∃ b, meets st n v = some b := by
  have x : ∀ lines coins count size, lines ≤ 10 → ∃ b, reqXByX st v lines coins count size = some b := by
    intro lines coins count size hl
    obtain ⟨b, hb⟩ := enough_some ha hl coins
    obtain ⟨b', hb'⟩ := xByX_some (st := st) (count := count) (size := size) v.activeReferrals 0 hr
    unfold reqXByX
    rw [hb]
    show ∃ b'', (Option.bind (xByXLoop _ _ _ _ _) _) = some b''
    rw [hb']
    exact ⟨_, rfl⟩
  have y : ∀ lines coins leg, lines ≤ 10 → ∃ b, reqCore st v lines coins leg = some b := by
    intro lines coins leg hl
    obtain ⟨b, hb⟩ := enough_some ha hl coins
    obtain ⟨b', hb'⟩ := teams_some (st := st) (leg := leg) v.activeReferrals 0 0 hr
    unfold reqCore
    rw [hb]
    show ∃ b'', (Option.bind (teamsLoop _ _ _ _ _) _) = some b''
    rw [hb']
    exact ⟨_, rfl⟩
  unfold meets
  split
  · exact ⟨_, rfl⟩
  · split
    · exact ⟨_, rfl⟩
    · have : n = 1 ∨ n = 2 ∨ n = 3 ∨ n = 4 ∨ n = 5 ∨ n = 6 ∨ n = 7 ∨ n = 9 := by omega
      rcases this with rfl | rfl | rfl | rfl | rfl | rfl | rfl | rfl
      · exact ⟨_, rfl⟩
      · exact x _ _ _ _ (by omega)
      · exact x _ _ _ _ (by omega)
      · exact y _ _ _ (by omega)
      · exact y _ _ _ (by omega)
      · exact y _ _ _ (by omega)
      · exact y _ _ _ (by omega)
      · exact y _ _ _ (by omega)

theorem highest_some {st : KV Nat Info} {v : Info} (ha : Affordable v) (hr : ∀ c ∈ v.activeReferrals, st.has c = true) :
    ∀ (n cur : Nat), cur ≤ 9 → cur ≠ 8 → ∃ x, highest st v n cur = some x := by
  intro n
  induction n with
  | zero => intro cur _ _; exact ⟨_, rfl⟩
  | succ n ih =>
    intro cur h h8
    unfold highest
    split
    · exact ⟨_, rfl⟩
    · dsimp only
      have hnext : (if cur + 1 = 8 then 9 else cur + 1) ≤ 9 ∧ (if cur + 1 = 8 then 9 else cur + 1) ≠ 8 := by
        split <;> omega
      obtain ⟨b, hb⟩ := meets_some ha hr hnext.1 hnext.2
      rw [hb]
      show ∃ x, (if b = true then highest st v n _ else some cur) = some x
      split
      · exact ih _ hnext.1 hnext.2
      · exact ⟨_, rfl⟩

theorem request_succeeds {r : Schedule.Req} {s : State} (h : (r.exec? s.sched).isSome) : ∃ t, request r s = (.ok (), t) := by
  unfold request
  rw [M.bind_ok (M.get_apply s)]
  cases hr : r.exec? s.sched with
  | none => rw [hr] at h; cases h
  | some x =>
    rw [M.bind_ok (M.orPanic_some x s)]
    exact ⟨_, rfl⟩

theorem schedule_succeeds {time : Int} (h : Schedule.inRange time = true) (hook : Nat) (data : List Nat) (s : State) :
    ∃ t, request (.schedule time hook data) s = (.ok (), t) := by
  refine request_succeeds ?_
  show (Schedule.schedule? _ _ _ _).isSome
  unfold Schedule.schedule?
  rw [if_pos h]; rfl

theorem delete_succeeds {time : Int} (h : Schedule.inRange time = true) (hook : Nat) (data : List Nat) (s : State) :
    ∃ t, request (.delete time hook data) s = (.ok (), t) := by
  refine request_succeeds ?_
  show (Schedule.delete? _ _ _).isSome
  unfold Schedule.delete?
  rw [if_pos h]
  split <;> rfl

theorem checkStatus_succeeds {k : Key} {v : Info} {s : State} (ha : Affordable v) (hl : v.status ≤ 9)
    (hr : ∀ c ∈ v.activeReferrals, s.work.has c = true) (ht : Schedule.inRange (s.now + 2 * s.day) = true) :
    ∃ w t, checkStatus k v s = (.ok w, t) := by
  have first : ∃ v1 s1, (if v.status = 8 then (do let w ← setStatus v 9 k; addCall .statusUpdated k; pure w) else pure v : Act Info) s =
      (.ok v1, s1) ∧ Quiet s s1 ∧ core v1 = core v ∧ v1.status ≤ 9 ∧ v1.status ≠ 8 := by
    split
    · rename_i h8
      obtain ⟨w, t, hw⟩ := setStatus_succeeds v 9 k s
      have hws : w.status = 9 := by
        unfold setStatus at hw
        rw [M.get_bind_ok, if_neg (by omega)] at hw
        cases hw; rfl
      refine ⟨w, (addCall .statusUpdated k t).2, ?_, ((Still.setStatus _ _ _).of hw).trans (Still.addCall _ _ _), setStatus_core hw, by omega, by omega⟩
      rw [M.bind_ok hw]; rfl
    · rename_i h8
      exact ⟨v, s, rfl, .refl _, rfl, hl, h8⟩
  obtain ⟨v1, s1, h1, q, e, hl1, h81⟩ := first
  have ea : v1.activeReferrals = v.activeReferrals := by have := congrArg Info.activeReferrals e; exact this
  have et : v1.tot = v.tot := by have := congrArg Info.tot e; exact this
  have ha1 : Affordable v1 := ha.congr fun l => by rw [et]
  have hr1 : ∀ c ∈ v1.activeReferrals, s1.work.has c = true := by rw [ea, q.work]; exact hr
  unfold checkStatus
  rw [M.bind_ok h1, M.bind_ok (M.get_apply s1)]
  obtain ⟨b, hb⟩ := meets_some ha1 hr1 hl1 h81
  rw [hb, M.bind_ok (M.orPanic_some b s1)]
  split
  · have ha2 : Affordable { v1 with downgradeAt := none } := ha1.congr fun _ => rfl
    obtain ⟨x, hx⟩ := highest_some ha2 hr1 10 v1.status hl1 h81
    dsimp only
    rw [hx, M.bind_ok (M.orPanic_some x s1)]
    split
    · obtain ⟨w, t, hw⟩ := setStatus_succeeds { v1 with downgradeAt := none } x k s1
      rw [M.bind_ok hw]
      exact ⟨_, _, rfl⟩
    · exact ⟨_, _, rfl⟩
  · split
    · obtain ⟨t, hs⟩ := schedule_succeeds (time := s1.now + 2 * s1.day) (by rw [q.now, q.day]; exact ht) downgradeHook [k] s1
      rw [M.bind_ok hs]
      exact ⟨_, _, rfl⟩
    · exact ⟨_, _, rfl⟩

/-! ### Updates and walks succeed -/

/-- What the status check needs -/
structure Ready (s : State) : Prop where
  low : Low s
  stored : ∀ a c, c ∈ (view s.work a).activeReferrals → s.work.has c = true
  soon : Schedule.inRange (s.now + 2 * s.day) = true

theorem update_succeeds {α : Type} {k : Key} {f : Info → Act (Info × α)} {s s1 : State} {w : Info} {a : α}
    (hf : f (infoOf s.work k) s = (.ok (w, a), s1)) (ha : Affordable w) (hl : w.status ≤ 9)
    (hr : ∀ c ∈ w.activeReferrals, s1.work.has c = true) (h1 : Ready s1) : ∃ t, update k true f s = (.ok a, t) ∧ Ready t := by
  obtain ⟨v, t, hv⟩ := checkStatus_succeeds (k := k) ha hl hr h1.soon
  have q := (Still.checkStatus k w).of hv
  have e := checkStatus_core hv
  have lo := Keeps.checkStatus (k := k) hl s1 h1.low
  rw [hv] at lo
  refine ⟨{ t with work := t.work.set k v }, ?_, ?_⟩
  · unfold update
    rw [recover_ok_iff, M.bind_ok (M.get_apply s), M.bind_ok hf, if_pos rfl, M.bind_ok hv]
    rfl
  · refine ⟨⟨lo.1.store, lo.1.work.set (lo.2 v rfl)⟩, ?_, ?_⟩
    · intro x c hc
      have hc : c ∈ (view (t.work.set k v) x).activeReferrals := hc
      show (t.work.set k v).has c = true
      rw [has_set, Bool.or_eq_true]
      right
      rw [q.work]
      rw [view_set] at hc
      by_cases hx : x = k
      · subst hx
        rw [upd_self, e] at hc
        exact hr c hc
      · rw [upd_ne _ _ hx, q.work] at hc
        exact h1.stored x c hc
    · show Schedule.inRange (t.now + 2 * t.day) = true
      rw [q.now, q.day]; exact h1.soon

/-- Every record written by a walk can be checked. -/
def Affords (g : Nat → Info → Info) : Nat → Nat → Option Key → View → Prop
  | 0, _, _, _ => True
  | _ + 1, _, none, _ => True
  | n + 1, l, some k, I => Affordable (g l (I k)) ∧ Affords g n (l + 1) (I k).referrer (upd I k (g l (I k)))

theorem Ready.quiet {s t : State} (h : Ready s) (q : Quiet s t) : Ready t :=
  ⟨⟨by rw [q.store]; exact h.low.store, by rw [q.work]; exact h.low.work⟩, by rw [q.work]; exact h.stored, by rw [q.now, q.day]; exact h.soon⟩

theorem climb_succeeds {f : Nat → Key → Info → Act Info} {g : Nat → Info → Info}
    (hf : ∀ l k v s, ∃ w t, f l k v s = (.ok w, t) ∧ Quiet s t ∧ core w = g l (core v) ∧ w.status = v.status ∧ w.activeReferrals = v.activeReferrals) :
    ∀ (n l : Nat) (p : Option Key) (s : State), Ready s → Affords g n l p (view s.work) → ∃ t, climb true f n l p s = (.ok (), t) ∧ Ready t := by
  intro n
  induction n with
  | zero => intro l p s hs _; exact ⟨s, rfl, hs⟩
  | succ n ih =>
    intro l p s hs ha
    cases p with
    | none => exact ⟨s, rfl, hs⟩
    | some k =>
      obtain ⟨w, s1, h1, q, e, es, ea⟩ := hf l k (infoOf s.work k) s
      have hw : Affordable w := ha.1.congr fun x => by
        have := congrArg Info.tot e
        show (core w).tot _ _ = _
        rw [this]; rfl
      obtain ⟨t, h2, ht⟩ := update_succeeds (k := k) (f := fun v => do let w ← f l k v; pure (w, v.referrer)) (s := s) (s1 := s1) (w := w)
        (a := (infoOf s.work k).referrer) (by rw [M.bind_ok h1]; rfl) hw (by rw [es]; exact hs.low.work k)
        (fun c hc => by rw [ea] at hc; rw [q.work]; exact hs.stored k c hc) (hs.quiet q)
      obtain ⟨w', s1', h1', -, hv, -⟩ := update_ok h2
      rw [M.bind_ok h1] at h1'
      cases h1'
      obtain ⟨t', h3, ht'⟩ := ih (l + 1) (infoOf s.work k).referrer t ht (by
        rw [hv, q.work, e]; exact ha.2)
      refine ⟨t', ?_, ht'⟩
      unfold climb
      rw [M.bind_ok h2]
      exact h3

/-- A walk leaves an account above which it starts alone. -/
theorem climbV_untouched {g : Nat → Info → Info} (hg : ∀ l v, (g l v).referrer = v.referrer) {k : Key} (n m : Nat) (p : Option Key) (I : View)
    (h : ∀ q, p = some q → ¬ ReflTransGen (treeOf I).over k q) : climbV g n m p I k = I k := by
  have e : upd I k (I k) = I := by
    funext j
    by_cases hj : j = k
    · subst hj; rw [upd_self]
    · rw [upd_ne _ _ hj]
  have := climbV_comm hg (w := I k) n m p I h
  rw [e] at this
  rw [this, upd_self]

/-- If the result of a walk can be checked everywhere, so can all the records written on the way. -/
theorem affords_of_result {g : Nat → Info → Info} (hg : ∀ l v, (g l v).referrer = v.referrer) :
    ∀ (n l : Nat) (p : Option Key) (I : View), (∀ x, ¬ TransGen (treeOf I).over x x) → (∀ a, Affordable (climbV g n l p I a)) →
      Affords g n l p I := by
  intro n
  induction n with
  | zero => intros; trivial
  | succ n ih =>
    intro l p I hI h
    cases p with
    | none => trivial
    | some k =>
      have ho : (treeOf (upd I k (g l (I k)))).over = (treeOf I).over := by
        funext a b
        show ((upd I k (g l (I k)) b).referrer = some a) = ((I b).referrer = some a)
        by_cases hb : b = k
        · subst hb; rw [upd_self, hg]
        · rw [upd_ne _ _ hb]
      have hfin : ∀ a, Affordable (climbV g n (l + 1) (I k).referrer (upd I k (g l (I k))) a) := h
      refine ⟨?_, ih _ _ _ (by rw [ho]; exact hI) hfin⟩
      have := hfin k
      rw [climbV_untouched hg] at this
      · rw [upd_self] at this; exact this
      · intro q hq
        rw [ho]
        intro hr
        exact hI k (TransGen.tail' hr hq)

theorem add_succeeds (d : What → Int) (l : Nat) (v : Info) : core (v.add d l) = (core v).add d l ∧ (v.add d l).status = v.status ∧
    (v.add d l).activeReferrals = v.activeReferrals := ⟨rfl, rfl, rfl⟩

theorem affords_congr {g g' : Nat → Info → Info} : ∀ (n m : Nat) (k : Option Key) (I : View), (∀ l, m ≤ l → g l = g' l) →
    Affords g n m k I → Affords g' n m k I := by
  intro n
  induction n with
  | zero => intros; trivial
  | succ n ih =>
    intro m k I h ha
    cases k with
    | none => trivial
    | some k =>
      unfold Affords at ha ⊢
      rw [← h m le_rfl]
      exact ⟨ha.1, ih _ _ _ (fun l hl => h l (by omega)) ha.2⟩

theorem attach_succeeds {k : Key} {c d : Int} {p : Option Key} {s : State} (hs : Ready s)
    (ha : Affords (bump (money c d) (addKid k)) 10 1 p (view s.work)) : ∃ t, attach k c d p s = (.ok (), t) ∧ Ready t := by
  cases p with
  | none => exact ⟨s, rfl, hs⟩
  | some p =>
    obtain ⟨t, h2, ht⟩ := update_succeeds (k := p) (s := s) (s1 := s)
      (f := fun v => pure ({ v.add (money c d) 1 with referrals := v.referrals ++ [k] }, v.referrer))
      (w := { (infoOf s.work p).add (money c d) 1 with referrals := (infoOf s.work p).referrals ++ [k] }) (a := (infoOf s.work p).referrer) rfl
      (ha.1.congr fun _ => rfl) (hs.low.work p) (fun x hx => hs.stored p x hx) hs
    obtain ⟨w', s1', h1', -, hv, -⟩ := update_ok h2
    cases h1'
    have e : attach k c d (some p) s = (if c = 0 ∧ d = 0 then pure () else climb true (fun l _ v => pure (v.add (money c d) l)) 9 2
        (infoOf s.work p).referrer : Act Unit) t := M.bind_ok h2
    rw [e]
    split
    · exact ⟨t, rfl, ht⟩
    · refine climb_succeeds (g := fun l v => v.add (money c d) l) (fun l a v s => ⟨v.add (money c d) l, s, rfl, .refl _, rfl, rfl, rfl⟩) _ _ _ t ht ?_
      refine affords_congr 9 2 _ _ (g := bump (money c d) (addKid k)) (fun l hl => bump_ge hl) ?_
      rw [hv]
      exact ha.2

theorem scheduleBanishment_succeeds {k : Key} {v : Info} {s : State} (h : Schedule.inRange (s.now + s.month) = true) :
    ∃ w t, scheduleBanishment k v s = (.ok w, t) := by
  obtain ⟨t, ht⟩ := schedule_succeeds h banishHook [k] s
  unfold scheduleBanishment
  rw [M.bind_ok (M.get_apply s), M.bind_ok ht]
  exact ⟨_, _, rfl⟩

theorem delegationChanged_succeeds {k : Key} {v : Info} {d : Int} {s : State} (hs : Ready s) (hd : (toInt64? d).isSome)
    (hm : Schedule.inRange (s.now + s.month) = true) (hb : ∀ t, v.banishmentAt = some t → Schedule.inRange t = true)
    (ho : v.banished = true → openAncestor s.work s.now s.month s.fuel v.referrer ≠ none)
    (ha : v.banished = true → ∀ parent, openAncestor s.work s.now s.month s.fuel v.referrer = some parent →
      Affords (bump (money (v.tot .coins 0) (v.tot .delegated 0)) (addKid k)) 10 1 parent (view s.work)) :
    ∃ w t, delegationChanged k v d s = (.ok w, t) ∧ Ready t := by
  unfold delegationChanged
  rw [M.bind_ok (M.get_apply s)]
  split
  · exact ⟨v, s, rfl, hs⟩
  · cases hx : toInt64? d with
    | none => rw [hx] at hd; cases hd
    | some x =>
      rw [M.bind_ok (M.orPanic_some x s)]
      split
      · split
        · obtain ⟨w, t, ht⟩ := scheduleBanishment_succeeds (k := k) (v := v) hm
          exact ⟨w, t, ht, hs.quiet ((Still.scheduleBanishment _ _).of ht)⟩
        · exact ⟨v, s, rfl, hs⟩
      · have rest : ∀ s1, Quiet s s1 → ∃ w t, (if v.banished = true then do
              let s ← M.get
              let parent ← M.orPanic (openAncestor s.work s.now s.month s.fuel v.referrer)
              attach k (v.tot .coins 0) (v.tot .delegated 0) parent
              pure { v with referrer := parent, banished := false, status := 1, banishmentAt := none }
            else pure { v with banishmentAt := none } : Act Info) s1 = (.ok w, t) ∧ Ready t := by
          intro s1 q
          split
          · rename_i hban
            have ef : s1.fuel = s.fuel := by unfold State.fuel; rw [q.work]
            rw [M.bind_ok (M.get_apply s1), q.work, q.now, q.month, ef]
            cases hp : openAncestor s.work s.now s.month s.fuel v.referrer with
            | none => exact absurd hp (ho hban)
            | some parent =>
              rw [M.bind_ok (M.orPanic_some parent s1)]
              obtain ⟨t, ht, hr⟩ := attach_succeeds (k := k) (c := v.tot .coins 0) (d := v.tot .delegated 0) (p := parent) (hs.quiet q)
                (by rw [q.work]; exact ha hban parent hp)
              rw [M.bind_ok ht]
              exact ⟨_, t, rfl, hr⟩
          · exact ⟨_, s1, rfl, hs.quiet q⟩
        unfold reviveDelegator
        cases hv : v.banishmentAt with
        | none =>
          obtain ⟨w, t, hw, ht⟩ := rest s (.refl _)
          refine ⟨w, t, ?_, ht⟩
          rw [← hw]
          conv_rhs => rw [← hv]
          rfl
        | some x =>
          obtain ⟨s1, h1⟩ := delete_succeeds (hb x hv) banishHook [k] s
          obtain ⟨w, t, hw, ht⟩ := rest s1 ((Still.request _).of h1)
          refine ⟨w, t, ?_, ht⟩
          rw [← hw]
          dsimp only
          have e : (request (.delete x banishHook [k]) >>= fun _ => (pure { v with banishmentAt := none } : Act Info)) s =
            (.ok { v with banishmentAt := none }, s1) := by rw [M.bind_ok h1]; rfl
          rw [M.bind_ok e]

/-! ### The structure after a change of balance -/

theorem stay_neat {top : Nat} (htop : top ≤ 10) {P : Key → Prop} {I : View} (h : Neat top P I) {k : Key} (hb : (I k).banished = false)
    (b : Option Int) (c d : Int) :
    Neat top P (climbV (bump (money (c - (I k).tot .coins 0) (d - (I k).tot .delegated 0)) id) 10 1 (I k).referrer
      (upd I k (setOwn { I k with banishmentAt := b } c d))) := by
  refine Neat.own htop h hb .id (fun _ => rfl) rfl rfl hb (h.tidy.idle k) (h.tidy.own k) (fun x l => setOwn_tot _ _ _ x l) ?_
  refine Forest.same h.forest ?_ ?_ ?_ (fun _ hp => hp) <;> intro j
  · rw [climbV_all (π := Info.referrer) (g := bump _ id) (bump_all (fun _ _ => rfl) (fun _ => rfl))]
    by_cases hj : j = k
    · subst hj; rw [upd_self]; rfl
    · rw [upd_ne _ _ hj]
  · rw [climbV_all (π := Info.referrals) (g := bump _ id) (bump_all (fun _ _ => rfl) (fun _ => rfl))]
    by_cases hj : j = k
    · subst hj; rw [upd_self]; rfl
    · rw [upd_ne _ _ hj]
  · rw [climbV_all (π := Info.banished) (g := bump _ id) (bump_all (fun _ _ => rfl) (fun _ => rfl))]
    by_cases hj : j = k
    · subst hj; rw [upd_self]; rfl
    · rw [upd_ne _ _ hj]

theorem out_neat {top : Nat} {P : Key → Prop} {I : View} (h : Neat top P I) {k : Key} (hb : (I k).banished = true)
    (b : Option Int) (c d : Int) : Neat top P (upd I k (setOwn { I k with banishmentAt := b } c d)) := by
  refine ⟨?_, ?_, ?_⟩
  · refine Forest.same h.forest ?_ ?_ ?_ (fun _ hp => hp) <;>
    · intro j
      by_cases hj : j = k
      · subst hj; rw [upd_self]; rfl
      · rw [upd_ne _ _ hj]
  · exact h.tidy.upd (fun _ => ⟨h.tidy.leaf k hb, h.tidy.asleep k hb, h.tidy.done k hb, h.tidy.below k hb⟩) (h.tidy.idle k) (h.tidy.own k)
  · intro a w l hl
    rw [defect_upd (v := setOwn { I k with banishmentAt := b } c d) h.forest.nodup rfl, h.sums a w l hl,
      if_neg (h.forest.unlisted (.inl hb) a), setOwn_tot]
    simp

/-- A walk does not change own amounts. -/
theorem climbV_own (d : What → Int) {L : Info → Info} (hL : ∀ v, (L v).tot = v.tot) (p : Option Key) (I : View) (k : Key) (x : What) :
    (climbV (bump d L) 10 1 p I k).tot x 0 = (I k).tot x 0 := by
  refine climbV_from (π := fun v => v.tot x 0) (m0 := 1) ?_ 10 1 p I (by omega) k
  intro l v hl
  show (if 0 = l then _ else _) = _
  rw [if_neg (by omega)]
  show (if l = 1 then L v else v).tot x 0 = _
  split
  · rw [hL]
  · rfl

/-- Own delegations as in `I`, only that of `k` is `d` -/
theorem Neat.affordable_upd {P : Key → Prop} {I J : View} (hJ : Neat 10 P J) {K : List Key} (hK : K.Nodup) {k : Key} (hk : k ∈ K) {d : Int} (hd : 0 ≤ d)
    (h0 : ∀ c, 0 ≤ (I c).tot .delegated 0) (hz : ∀ c, c ∉ K → (I c).tot .delegated 0 = 0)
    (hb : (K.map fun c => (I c).tot .delegated 0).sum + d < 9223372036854775808)
    (e : ∀ c, (J c).tot .delegated 0 = if c = k then d else (I c).tot .delegated 0) (a : Key) : Affordable (J a) := by
  refine hJ.affordable (K := K) (fun c => ?_) (fun c hc => ?_) ?_ a
  · rw [e]
    split
    · exact hd
    · exact h0 c
  · rw [e, if_neg (by rintro rfl; exact hc hk)]
    exact hz c hc
  · have := sum_map_upd hK (fun c => (I c).tot .delegated 0) (fun c => (J c).tot .delegated 0) k (fun c hc => by rw [e, if_neg hc])
    rw [this, if_pos hk, e, if_pos rfl]
    have := h0 k
    have : (0 : Int) ≤ (I k).tot .delegated 0 := this
    linarith

/-! ### A change of balance succeeds -/

/-- What a change of balance of `k` needs -/
structure Welcome (k : Key) (s : State) : Prop where
  ready : Ready s
  neat : Neat 10 (fun k => s.work.has k = true) (view s.work)
  own : ∀ c, 0 ≤ (infoOf s.work c).tot .delegated 0
  new : 0 ≤ s.delegated k
  bound : (s.work.keys.map fun c => (infoOf s.work c).tot .delegated 0).sum + s.delegated k < 9223372036854775808
  month : Schedule.inRange (s.now + s.month) = true
  old : ∀ t, (infoOf s.work k).banishmentAt = some t → Schedule.inRange t = true

theorem mem_keys_of_has {st : KV Nat Info} {k : Key} : k ∈ st.keys ↔ st.has k = true := by
  rw [KV.mem_keys]
  unfold KV.has
  cases st.get k <;> simp

theorem balanceBody_succeeds {k : Key} {s : State} (h : Welcome k s) : ∃ b t, balanceBody k s = (.ok b, t) := by
  unfold balanceBody
  rw [M.bind_ok (M.get_apply s)]
  split
  · exact ⟨_, _, rfl⟩
  rename_i hne
  have hk : k ∈ s.work.keys := by
    rw [mem_keys_of_has]
    cases hh : s.work.has k with
    | true => rfl
    | false => rw [infoOf_of_not_has hh] at hne; exact absurd rfl hne
  have hz : ∀ c, c ∉ s.work.keys → (view s.work c).tot .delegated 0 = 0 := by
    intro c hc
    rw [mem_keys_of_has] at hc
    show (infoOf s.work c).tot .delegated 0 = 0
    rw [infoOf_of_not_has (by simpa using hc)]
  have irr : ∀ x, ¬ TransGen (treeOf (view s.work)).over x x := fun x hx => no_loop h.neat.forest hx .refl
  have h0 : ∀ c, 0 ≤ (view s.work c).tot .delegated 0 := h.own
  have hbound : (s.work.keys.map fun c => (view s.work c).tot .delegated 0).sum + s.delegated k < 9223372036854775808 := h.bound
  -- views with the new delegation can be checked
  have fit : ∀ {P : Key → Prop} {J : View}, Neat 10 P J →
      (∀ c, (J c).tot .delegated 0 = if c = k then s.delegated k else (view s.work c).tot .delegated 0) → ∀ a, Affordable (J a) :=
    fun hJ e a => hJ.affordable_upd s.work.keys_nodup hk h.new h0 hz hbound e a
  -- and so can views with the old one
  have fit0 : ∀ {P : Key → Prop} {J : View}, Neat 10 P J → (∀ c, (J c).tot .delegated 0 = (view s.work c).tot .delegated 0) → ∀ a, Affordable (J a) := by
    intro P J hJ e a
    refine hJ.affordable (K := s.work.keys) (fun c => by rw [e]; exact h0 c) (fun c hc => by rw [e]; exact hz c hc) ?_ a
    have : (s.work.keys.map fun c => (J c).tot .delegated 0) = s.work.keys.map fun c => (view s.work c).tot .delegated 0 :=
      List.map_congr_left fun c _ => e c
    rw [this]
    have := h.new
    linarith
  have hd64 : (toInt64? (s.delegated k)).isSome := by
    have h1 := h.new
    have h2 : 0 ≤ (s.work.keys.map fun c => (view s.work c).tot .delegated 0).sum :=
      List.sum_nonneg (by simpa using fun c _ => h0 c)
    unfold toInt64?
    rw [if_pos ⟨by omega, by omega⟩]; rfl
  have hbump : ∀ (d : What → Int) (L : Info → Info), (∀ v, (L v).referrer = v.referrer) → ∀ l v, (bump d L l v).referrer = v.referrer := by
    intro d L hL
    exact bump_all (π := Info.referrer) (fun _ _ => rfl) hL
  -- a returning account
  have htr : ∀ n parent p, openAncestor s.work s.now s.month n (infoOf s.work k).referrer = some parent → parent = some p →
      TransGen (treeOf (view s.work)).over p k := by
    intro n parent p ho hp
    rw [hp] at ho
    exact (openAncestor_trans ho).1
  have back : ∀ n parent, (view s.work k).banished = true → openAncestor s.work s.now s.month n (infoOf s.work k).referrer = some parent →
      Neat 10 (fun k => s.work.has k = true) (upd (climbV (bump (money ((view s.work k).tot .coins 0) ((view s.work k).tot .delegated 0)) (addKid k)) 10 1 parent
        (view s.work)) k { view s.work k with referrer := parent, banished := false }) := by
    intro n parent hb ho
    have base := Neat.back (top := 10) le_rfl h.neat (w := { view s.work k with referrer := parent, banished := false }) hb
      (fun p hp => htr n parent p ho hp) (fun p hp => by rw [hp] at ho; exact h.neat.tidy.open (openAncestor_trans ho).2) rfl rfl rfl rfl rfl (fun _ hp => hp)
    rw [climbV_comm (g := bump _ (addKid k)) (hbump _ (addKid k) fun _ => rfl) 10 1 parent (view s.work)
      fun q hq => no_loop h.neat.forest (htr n parent q ho hq)] at base
    exact base
  have affBack : (infoOf s.work k).banished = true → ∀ parent, openAncestor s.work s.now s.month s.fuel (infoOf s.work k).referrer = some parent →
      Affords (bump (money ((infoOf s.work k).tot .coins 0) ((infoOf s.work k).tot .delegated 0)) (addKid k)) 10 1 parent (view s.work) := by
    intro hb parent ho
    refine affords_of_result (hbump _ (addKid k) fun _ => rfl) 10 1 parent (view s.work) irr fun a => ?_
    have hB := back s.fuel parent hb ho
    by_cases ha : a = k
    · rw [ha, climbV_untouched (hbump _ (addKid k) fun _ => rfl) 10 1 parent (view s.work) fun q hq => no_loop h.neat.forest (htr _ parent q ho hq)]
      exact fit0 h.neat (fun _ => rfl) k
    · have := fit0 hB (fun c => by
        by_cases hc : c = k
        · subst hc; rw [upd_self]
        · rw [upd_ne _ _ hc]
          exact climbV_own _ (L := addKid k) (fun _ => rfl) _ _ _ _) a
      rw [upd_ne _ _ ha] at this
      exact this
  -- the account itself
  have own : ∃ r s1, ownBalance k (infoOf s.work k) s = (.ok r, s1) ∧ Ready s1 := by
    unfold ownBalance
    rw [M.bind_ok (M.get_apply s)]
    split
    · exact ⟨_, s, rfl, h.ready⟩
    · have q := Still.addCall .stakeChanged k s
      have ec : (addCall .stakeChanged k >>= fun _ => delegationChanged k (infoOf s.work k) (s.delegated k)) s =
        delegationChanged k (infoOf s.work k) (s.delegated k) (addCall .stakeChanged k s).2 := rfl
      obtain ⟨w, t, hw, ht⟩ := delegationChanged_succeeds (k := k) (v := infoOf s.work k) (d := s.delegated k) (s := (addCall .stakeChanged k s).2)
        (h.ready.quiet q) hd64 h.month h.old (fun hb => openAncestor_ends h.neat.forest _ _ (by unfold State.fuel; show _ < s.work.entries.length + 2; omega) _) affBack
      rw [← ec] at hw
      rw [M.bind_ok hw]
      exact ⟨_, t, rfl, ht⟩
  obtain ⟨⟨w, v', dc, dd⟩, s1, ho, hr1⟩ := own
  obtain ⟨rfl, rfl, hch, rfl⟩ := ownBalance_ok ho
  have hlow : (setOwn v' (s.balance k) (s.delegated k)).status ≤ 9 := by
    have := Keeps.ownBalance (k := k) (h.ready.low.work k) s h.ready.low
    rw [ho] at this
    exact this.2 _ rfl
  -- what follows once the records are known to be right
  have finish : Affordable (setOwn v' (s.balance k) (s.delegated k)) →
      (∀ c ∈ v'.activeReferrals, s1.work.has c = true) →
      (v'.banished = false → Affords (bump (money (s.balance k - (infoOf s.work k).tot .coins 0) (s.delegated k - (infoOf s.work k).tot .delegated 0)) id)
        10 1 v'.referrer (upd (view s1.work) k (core (setOwn v' (s.balance k) (s.delegated k))))) →
      ∃ b t, (update k true (ownBalance k) >>= fun r => (do
        (if r.1.banished then pure () else
          climb true (fun l a v => do
            (if r.2.2 = 0 then pure () else addCall .stakeChanged a)
            pure (v.add (money r.2.1 r.2.2) l)) 10 1 r.1.referrer)
        pure true)) s = (.ok b, t) := by
    intro haff hact hwalk
    obtain ⟨t, ht, hrt⟩ := update_succeeds (k := k) ho haff hlow hact hr1
    obtain ⟨w', s1', h1', -, hv, -⟩ := update_ok ht
    rw [ho] at h1'
    cases h1'
    rw [M.bind_ok ht]
    dsimp only
    split
    · exact ⟨_, t, rfl⟩
    · rename_i hb
      obtain ⟨t', ht', -⟩ := climb_succeeds (f := fun l a v => do
            (if (s.delegated k - (infoOf s.work k).tot .delegated 0) = 0 then pure () else addCall .stakeChanged a)
            pure (v.add (money (s.balance k - (infoOf s.work k).tot .coins 0) (s.delegated k - (infoOf s.work k).tot .delegated 0)) l))
          (g := bump (money (s.balance k - (infoOf s.work k).tot .coins 0) (s.delegated k - (infoOf s.work k).tot .delegated 0)) id) (by
          intro l a v s'
          split
          · exact ⟨_, s', rfl, .refl _, by rw [bump_id]; rfl, rfl, rfl⟩
          · exact ⟨_, (addCall .stakeChanged a s').2, rfl, Still.addCall _ _ _, by rw [bump_id]; rfl, rfl, rfl⟩) 10 1 v'.referrer t hrt
          (by rw [hv]; exact hwalk (by simpa using hb))
      rw [M.bind_ok ht']
      exact ⟨_, t', rfl⟩
  cases hch with
  | stay b q e =>
    have eb : v'.banished = (infoOf s.work k).banished := by have := congrArg Info.banished e; exact this
    have er : v'.referrer = (infoOf s.work k).referrer := by have := congrArg Info.referrer e; exact this
    have eact : v'.activeReferrals = (infoOf s.work k).activeReferrals := by have := congrArg Info.activeReferrals e; exact this
    have ew : core (setOwn v' (s.balance k) (s.delegated k)) = setOwn { view s.work k with banishmentAt := b } (s.balance k) (s.delegated k) := by
      have : core (setOwn v' (s.balance k) (s.delegated k)) = setOwn (core v') (s.balance k) (s.delegated k) := rfl
      rw [this, e]; rfl
    have hact : ∀ c ∈ v'.activeReferrals, s1.work.has c = true := by
      rw [eact, q.work]; exact h.ready.stored k
    have ownNew : ∀ c, (upd (view s.work) k (setOwn { view s.work k with banishmentAt := b } (s.balance k) (s.delegated k)) c).tot .delegated 0 =
        if c = k then s.delegated k else (view s.work c).tot .delegated 0 := by
      intro c
      by_cases hc : c = k
      · subst hc; rw [upd_self, if_pos rfl]; rfl
      · rw [upd_ne _ _ hc, if_neg hc]
    cases hbb : (infoOf s.work k).banished with
    | true =>
      have hJ := out_neat h.neat (k := k) hbb b (s.balance k) (s.delegated k)
      refine finish ?_ hact (by rw [eb, hbb]; intro h; cases h)
      have := fit hJ ownNew k
      rw [upd_self, ← ew] at this
      exact this.congr fun _ => rfl
    | false =>
      have hJ := stay_neat (top := 10) le_rfl h.neat (k := k) hbb b (s.balance k) (s.delegated k)
      have over : (treeOf (upd (view s.work) k (setOwn { view s.work k with banishmentAt := b } (s.balance k) (s.delegated k)))).over =
          (treeOf (view s.work)).over := by
        funext x y
        show ((upd _ k _ y).referrer = some x) = ((view s.work y).referrer = some x)
        by_cases hy : y = k
        · subst hy; rw [upd_self]; rfl
        · rw [upd_ne _ _ hy]
      have hfit := fit hJ fun c => by rw [climbV_own _ (L := id) (fun _ => rfl)]; exact ownNew c
      refine finish ?_ hact fun _ => ?_
      · have := hfit k
        rw [climbV_untouched (hbump _ id fun _ => rfl) 10 1 _ _ (fun q hq => by
          rw [over]; exact no_loop h.neat.forest (.single hq)), upd_self, ← ew] at this
        exact this.congr fun _ => rfl
      · rw [er, q.work, ew]
        exact affords_of_result (hbump _ id fun _ => rfl) 10 1 _ _ (by rw [over]; exact irr) hfit
  | back parent b n g1 g2 g3 g4 g5 e =>
    have er : v'.referrer = parent := by have := congrArg Info.referrer e; exact this
    have eact : v'.activeReferrals = (infoOf s.work k).activeReferrals := by have := congrArg Info.activeReferrals e; exact this
    have hB := back n parent g1 g3
    generalize hI1 : climbV (bump (money ((view s.work k).tot .coins 0) ((view s.work k).tot .delegated 0)) (addKid k)) 10 1 parent (view s.work) = I1 at hB
    have g5 : view s1.work = I1 := by rw [← hI1]; exact g5
    have ownI1 : ∀ c, (I1 c).tot .delegated 0 = (view s.work c).tot .delegated 0 := by
      intro c; rw [← hI1]; exact climbV_own _ (L := addKid k) (fun _ => rfl) _ _ _ _
    have eB : upd I1 k { view s.work k with referrer := parent, banished := false } k = { view s.work k with referrer := parent, banished := false } :=
      upd_self _ _ _
    have hJ := stay_neat (top := 10) le_rfl hB (k := k) (by rw [eB]) b (s.balance k) (s.delegated k)
    rw [eB, upd_upd] at hJ
    have ew : core (setOwn v' (s.balance k) (s.delegated k)) =
        setOwn { view s.work k with referrer := parent, banished := false, banishmentAt := b } (s.balance k) (s.delegated k) := by
      have : core (setOwn v' (s.balance k) (s.delegated k)) = setOwn (core v') (s.balance k) (s.delegated k) := rfl
      rw [this, e]; rfl
    rw [← ew] at hJ
    have hJ : Neat 10 (fun k => s.work.has k = true) (climbV (bump (money (s.balance k - (infoOf s.work k).tot .coins 0)
      (s.delegated k - (infoOf s.work k).tot .delegated 0)) id) 10 1 parent (upd I1 k (core (setOwn v' (s.balance k) (s.delegated k))))) := hJ
    have over : (treeOf (upd I1 k (core (setOwn v' (s.balance k) (s.delegated k))))).over =
        (treeOf (upd I1 k { view s.work k with referrer := parent, banished := false })).over := by
      funext x y
      show ((upd _ k _ y).referrer = some x) = ((upd _ k _ y).referrer = some x)
      by_cases hy : y = k
      · subst hy
        rw [upd_self, upd_self]
        show (v'.referrer = some x) = (parent = some x)
        rw [er]
      · rw [upd_ne _ _ hy, upd_ne _ _ hy]
    have hfit := fit hJ fun c => by
      rw [climbV_own _ (L := id) (fun _ => rfl)]
      by_cases hc : c = k
      · subst hc; rw [upd_self, if_pos rfl]; rfl
      · rw [upd_ne _ _ hc, if_neg hc]; exact ownI1 c
    have irrB : ∀ x, ¬ TransGen (treeOf (upd I1 k (core (setOwn v' (s.balance k) (s.delegated k))))).over x x := by
      rw [over]; exact fun x hx => no_loop hB.forest hx .refl
    refine finish ?_ (by
      rw [eact]; exact fun c hc => g4.grows c (h.ready.stored k c hc)) fun _ => ?_
    · have := hfit k
      rw [climbV_untouched (hbump _ id fun _ => rfl) 10 1 _ _ (fun q hq hr => irrB k (TransGen.tail' hr (by
        show (upd _ k _ k).referrer = some q
        rw [upd_self]; show v'.referrer = _; rw [er]; exact hq))), upd_self] at this
      exact this.congr fun _ => rfl
    · rw [er, g5]
      exact affords_of_result (hbump _ id fun _ => rfl) 10 1 _ _ irrB hfit

end Verif.Referral
