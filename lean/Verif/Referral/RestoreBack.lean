import Verif.Referral.RestoreProps
import Verif.Referral.Affirm

/-! Property C95: accounts that were banished though active do come back. -/
namespace Verif.Referral
open Relation

/-! ### Specification -/

/-- Everybody who is banished though active -/
def Site.unfair (x : Site) : List Key := x.s.store.keys.filter fun k => (infoOf x.s.store k).banished && (infoOf x.s.store k).active

/-- What they own in delegation -/
def Site.owed (x : Site) : Int := (x.unfair.map fun k => (infoOf x.s.store k).tot .delegated 0).sum

/-! ### Sums on the way -/

/-- All sums of delegations down to any level stay below 2^64 if `B` is added. -/
def Fits (B : Int) (I : View) : Prop := ∀ a n, n ≤ 10 → 0 ≤ (I a).delegatedUpTo n ∧ (I a).delegatedUpTo n + B < 18446744073709551616

theorem Fits.affordable {B : Int} {I : View} (h : Fits B I) (hB : 0 ≤ B) (a : Key) : Affordable (I a) :=
  fun n hn => ⟨(h a n hn).1, by have := (h a n hn).2; omega⟩

theorem upTo_bump (v : Info) (c d : Int) {L : Info → Info} (hL : ∀ v, (L v).tot = v.tot) {l : Nat} (hl : 1 ≤ l) :
    ∀ n, (bump (money c d) L l v).delegatedUpTo n = v.delegatedUpTo n + if l ≤ n then d else 0 := by
  have e : ∀ j, (bump (money c d) L l v).tot .delegated j = if j = l then v.tot .delegated j + d else v.tot .delegated j := by
    intro j
    unfold bump Info.add
    have : (if l = 1 then L v else v).tot = v.tot := by
      split
      · exact hL v
      · rfl
    dsimp only
    rw [this]
    rfl
  intro n
  induction n with
  | zero =>
    show (bump (money c d) L l v).tot .delegated 0 = v.tot .delegated 0 + _
    rw [e, if_neg (by omega), if_neg (by omega)]
    omega
  | succ n ih =>
    show (bump (money c d) L l v).delegatedUpTo n + (bump (money c d) L l v).tot .delegated (n + 1) = v.delegatedUpTo n + v.tot .delegated (n + 1) + _
    rw [ih, e]
    split <;> split <;> split <;> omega

/-- A walk adds the amount to nobody twice. -/
theorem upTo_climb (c d : Int) {L : Info → Info} (hL : ∀ v, (L v).tot = v.tot) (hr : ∀ v, (L v).referrer = v.referrer) (hd : 0 ≤ d) :
    ∀ (n l : Nat) (p : Option Key) (I : View), 1 ≤ l → (∀ x, ¬ TransGen (treeOf I).over x x) → ∀ a m,
      (I a).delegatedUpTo m ≤ (climbV (bump (money c d) L) n l p I a).delegatedUpTo m ∧
        (climbV (bump (money c d) L) n l p I a).delegatedUpTo m ≤ (I a).delegatedUpTo m + d := by
  have hg : ∀ l v, (bump (money c d) L l v).referrer = v.referrer := bump_all (π := Info.referrer) (fun _ _ => rfl) hr
  intro n
  induction n with
  | zero =>
    intro l p I _ _ a m
    unfold climbV
    omega
  | succ n ih =>
    intro l p I hl hI a m
    cases p with
    | none =>
      unfold climbV
      omega
    | some k =>
      have ho : (treeOf (upd I k (bump (money c d) L l (I k)))).over = (treeOf I).over := by
        funext a b
        show ((upd I k (bump (money c d) L l (I k)) b).referrer = some a) = ((I b).referrer = some a)
        by_cases hb : b = k
        · subst hb; rw [upd_self, hg]
        · rw [upd_ne _ _ hb]
      show _ ≤ (climbV (bump (money c d) L) n (l + 1) (I k).referrer (upd I k (bump (money c d) L l (I k))) a).delegatedUpTo m ∧
        (climbV (bump (money c d) L) n (l + 1) (I k).referrer (upd I k (bump (money c d) L l (I k))) a).delegatedUpTo m ≤ _
      by_cases ha : a = k
      · subst ha
        rw [climbV_untouched hg, upd_self, upTo_bump _ _ _ hL hl]
        · split <;> omega
        · intro q hq
          rw [ho]
          intro hr
          exact hI a (TransGen.tail' hr hq)
      · have := ih (l + 1) (I k).referrer (upd I k (bump (money c d) L l (I k))) (by omega) (by rw [ho]; exact hI) a m
        rw [upd_ne _ _ ha] at this
        exact this

/-! ### One return -/

/-- What a return needs, and what it leaves for the next one -/
structure Roomy (B : Int) (s : State) : Prop where
  good : Good s
  low : LowSt s.store
  stored : ∀ a c, c ∈ (infoOf s.store a).activeReferrals → s.store.has c = true
  soon : Schedule.inRange (s.now + 2 * s.day) = true
  fits : Fits B (view s.store)

theorem comeBackBody_succeeds {k : Key} {B : Int} {s : State} (h : Roomy (B + (infoOf s.store k).tot .delegated 0) s) (hB : 0 ≤ B)
    (hd : 0 ≤ (infoOf s.store k).tot .delegated 0) (hw : s.work = s.store) : ∃ t, comeBackBody k s = (.ok true, t) := by
  have irr : ∀ x, ¬ TransGen (treeOf (view s.store)).over x x := fun x hx => no_loop h.good hx .refl
  cases ho : openAncestor s.work s.now s.month s.fuel (infoOf s.work k).referrer with
  | none =>
    refine absurd ho (openAncestor_ends (P := fun k => s.store.has k = true) (by rw [hw]; exact h.good) _ _ ?_ _)
    unfold State.fuel; omega
  | some parent =>
    have hr0 : Ready s := ⟨⟨h.low, by rw [hw]; exact h.low⟩, by rw [hw]; exact h.stored, h.soon⟩
    have hf : (fun v => (do
        let s ← M.get
        let parent ← M.orPanic (openAncestor s.work s.now s.month s.fuel v.referrer)
        pure ({ v with referrer := parent, banished := false, banishmentAt := none, compressionAt := none, status := 1 }, (parent, v)) : Act (Info × (Option Key × Info))))
        (infoOf s.work k) s =
      (.ok ({ infoOf s.work k with referrer := parent, banished := false, banishmentAt := none, compressionAt := none, status := 1 },
        (parent, infoOf s.work k)), s) := by
      dsimp only
      rw [M.bind_ok (M.get_apply s), ho, M.bind_ok (M.orPanic_some parent s)]
      rfl
    obtain ⟨t, ht, hr⟩ : ∃ t, update k false (fun v => (do
        let s ← M.get
        let parent ← M.orPanic (openAncestor s.work s.now s.month s.fuel v.referrer)
        pure ({ v with referrer := parent, banished := false, banishmentAt := none, compressionAt := none, status := 1 }, (parent, v)) :
          Act (Info × (Option Key × Info)))) s = (.ok (parent, infoOf s.work k), t) ∧
        t = { s with work := s.work.set k { infoOf s.work k with referrer := parent, banished := false, banishmentAt := none, compressionAt := none, status := 1 } } := by
      refine ⟨_, ?_, rfl⟩
      unfold update
      rw [recover_ok_iff, M.bind_ok (M.get_apply s), M.bind_ok hf]
      rfl
    have hv : view t.work = upd (view s.store) k { view s.store k with referrer := parent, banished := false, banishmentAt := none, compressionAt := none } := by
      rw [hr]
      show view (s.work.set k _) = _
      rw [view_set, hw]
      rfl
    have hrt : Ready t := by
      rw [hr]
      refine ⟨⟨h.low, hr0.low.work.set (by decide : (1 : Nat) ≤ 9)⟩, ?_, h.soon⟩
      intro x c hc
      show (s.work.set k _).has c = true
      rw [has_set, Bool.or_eq_true]
      right
      have hc : c ∈ (view (s.work.set k { infoOf s.work k with referrer := parent, banished := false, banishmentAt := none, compressionAt := none, status := 1 }) x).activeReferrals := hc
      rw [view_set] at hc
      by_cases hx : x = k
      · subst hx
        rw [upd_self] at hc
        exact hr0.stored x c hc
      · rw [upd_ne _ _ hx] at hc
        exact hr0.stored x c hc
    have htr : ∀ q, parent = some q → TransGen (treeOf (view s.store)).over q k := by
      intro q hq
      rw [hw, hq] at ho
      exact (openAncestor_trans ho).1
    obtain ⟨t', ht', -⟩ := attach_succeeds (k := k) (c := (infoOf s.work k).tot .coins 0) (d := (infoOf s.work k).tot .delegated 0) (p := parent) hrt (by
      have hbump : ∀ l v, (bump (money ((infoOf s.work k).tot .coins 0) ((infoOf s.work k).tot .delegated 0)) (addKid k) l v).referrer = v.referrer :=
        bump_all (π := Info.referrer) (fun _ _ => rfl) (fun _ => rfl)
      have irr' : ∀ x, ¬ TransGen (treeOf (view t.work)).over x x := by
        intro x hx
        refine irr x (TransGen.lift' (p := (treeOf (view s.store)).over) id (fun a b hab => ?_) x x hx)
        have hab : (view t.work b).referrer = some a := hab
        rw [hv] at hab
        by_cases hb : b = k
        · subst hb
          rw [upd_self] at hab
          exact htr a hab
        · rw [upd_ne _ _ hb] at hab
          exact .single hab
      refine affords_of_result hbump 10 1 parent (view t.work) irr' fun a n hn => ?_
      have h1 := upTo_climb ((infoOf s.work k).tot .coins 0) ((infoOf s.work k).tot .delegated 0) (L := addKid k) (fun _ => rfl) (fun _ => rfl)
        (by rw [hw]; exact hd) 10 1 parent (view t.work) le_rfl irr' a n
      have h2 : (view t.work a).delegatedUpTo n = (view s.store a).delegatedUpTo n := by
        rw [hv]
        by_cases ha : a = k
        · subst ha; rw [upd_self]; exact upTo_congr (v := view s.store a) (w := { view s.store a with referrer := parent, banished := false, banishmentAt := none, compressionAt := none }) rfl n
        · rw [upd_ne _ _ ha]
      have h3 := h.fits a n hn
      rw [h2] at h1
      rw [hw] at h1 ⊢
      omega)
    refine ⟨t', ?_⟩
    unfold comeBackBody
    rw [M.bind_ok ht, M.bind_ok ht']
    rfl

theorem bunch_always {e : Env} {m : Act Bool} {s t : State} (h : m s.fresh = (.ok true, t)) :
    (bunch e m s).2.store = t.work ∧ (bunch e m s).1 ≠ .panic := by
  have e0 : bunch e m s = (m >>= fun b => if b then commit e else pure ()) s.fresh := rfl
  rw [e0, M.bind_ok h]
  unfold commit
  simp only [if_true]
  have e1 : ((M.modify fun s => { s with store := s.work }) >>= fun _ => (M.get >>= fun s => M.errIf (!s.calls.all fun c => e.call c.1 c.2)) : Act Unit) t =
    (M.errIf (!t.calls.all fun c => e.call c.1 c.2) : Act Unit) { t with store := t.work } := rfl
  rw [e1]
  unfold M.errIf
  split
  · exact ⟨rfl, fun h => by cases h⟩
  · exact ⟨rfl, fun h => by cases h⟩

theorem comeBack_roomy {e : Env} {k : Key} {B : Int} {s : State} (hb : (infoOf s.store k).banished = true)
    (h : Roomy (B + (infoOf s.store k).tot .delegated 0) s) (hB : 0 ≤ B) (hd : 0 ≤ (infoOf s.store k).tot .delegated 0) :
    (comeBack e k s).1 ≠ .panic ∧ Roomy B (comeBack e k s).2 ∧ (infoOf (comeBack e k s).2.store k).banished = false ∧
      ∀ j w, (infoOf (comeBack e k s).2.store j).tot w 0 = (infoOf s.store j).tot w 0 := by
  obtain ⟨t, ht⟩ := comeBackBody_succeeds (k := k) (B := B) (s := s.fresh) ⟨h.good, h.low, h.stored, h.soon, h.fits⟩ hB hd rfl
  obtain ⟨hst, hnp⟩ := bunch_always (e := e) ht
  obtain ⟨-, parent, n, ho, hv⟩ := comeBackBody_ok ht
  have hv0 : view s.fresh.work = view s.store := rfl
  rw [hv0] at hv
  have hfr : Frame s.fresh t := by
    have := Framed.comeBackBody k s.fresh
    rw [ht] at this; exact this
  have htr : ∀ q, parent = some q → TransGen (treeOf (view s.store)).over q k := by
    intro q hq
    rw [hq] at ho
    exact (openAncestor_trans ho).1
  have hbump : ∀ c d l v, (bump (money c d) (addKid k) l v).referrer = v.referrer := fun c d => bump_all (π := Info.referrer) (fun _ _ => rfl) (fun _ => rfl)
  have hcomm := climbV_comm (g := bump (money ((view s.store k).tot .coins 0) ((view s.store k).tot .delegated 0)) (addKid k)) (hbump _ _)
    (w := { view s.store k with referrer := parent, banished := false, banishmentAt := none, compressionAt := none }) 10 1 parent (view s.store)
    fun q hq => no_loop h.good (htr q hq)
  rw [hcomm] at hv
  have irr : ∀ x, ¬ TransGen (treeOf (view s.store)).over x x := fun x hx => no_loop h.good hx .refl
  have hout : (comeBack e k s).2.now = s.now ∧ (comeBack e k s).2.day = s.day := by
    have := (bunch_cases (e := e) (Framed.comeBackBody k) s).1
    exact ⟨this.now, this.day⟩
  have hvs : view (comeBack e k s).2.store = view t.work := by
    show view (bunch e (comeBackBody k) s).2.store = _
    rw [hst]
  have own : ∀ j w, (view t.work j).tot w 0 = (view s.store j).tot w 0 := by
    intro j w
    rw [hv]
    by_cases hj : j = k
    · subst hj; rw [upd_self]
    · rw [upd_ne _ _ hj]
      exact climbV_own _ (L := addKid k) (fun _ => rfl) _ _ _ _
  refine ⟨hnp, ⟨comeBack_good h.good hb, ?_, ?_, ?_, ?_⟩, ?_, ?_⟩
  · have := (Keeps.comeBack e k { s with work := s.store } ⟨h.low, h.low⟩).1.store
    exact this
  · intro a c hc
    have hc : c ∈ (view (comeBack e k s).2.store a).activeReferrals := hc
    show (bunch e (comeBackBody k) s).2.store.has c = true
    rw [hst]
    refine hfr.grows c ?_
    refine h.stored a c ?_
    rw [hvs, hv] at hc
    by_cases ha : a = k
    · subst ha; rw [upd_self] at hc; exact hc
    · rw [upd_ne _ _ ha, climbV_all (π := Info.activeReferrals) (g := bump _ (addKid _)) (bump_all (fun _ _ => rfl) (fun _ => rfl))] at hc
      exact hc
  · rw [hout.1, hout.2]; exact h.soon
  · rw [hvs, hv]
    intro a n hn
    have h3 := h.fits a n hn
    by_cases ha : a = k
    · subst ha
      rw [upd_self]
      have : ({ view s.store a with referrer := parent, banished := false, banishmentAt := none, compressionAt := none } : Info).delegatedUpTo n =
        (view s.store a).delegatedUpTo n := upTo_congr (v := view s.store a) (w := { view s.store a with referrer := parent, banished := false, banishmentAt := none, compressionAt := none }) rfl n
      rw [this]
      omega
    · rw [upd_ne _ _ ha]
      have h1 := upTo_climb ((view s.store k).tot .coins 0) ((view s.store k).tot .delegated 0) (L := addKid k) (fun _ => rfl) (fun _ => rfl)
        hd 10 1 parent (view s.store) le_rfl irr a n
      have e1 : (view s.store k).tot .delegated 0 = (infoOf s.store k).tot .delegated 0 := rfl
      rw [e1] at h1 ⊢
      omega
  · show (view (comeBack e k s).2.store k).banished = false
    rw [hvs, hv, upd_self]
  · intro j w
    show (view (comeBack e k s).2.store j).tot w 0 = _
    rw [hvs, own]
    rfl

/-! ### All of them -/

theorem fixRecords_roomy (e : Env) (l : List (Key × Info)) : ∀ s : State, (l.map Prod.fst).Nodup → (∀ p ∈ l, p.1 = text (addrOf p.1)) →
    (∀ p ∈ l, (infoOf s.store p.1).banished = p.2.banished ∧ (infoOf s.store p.1).tot .delegated 0 = p.2.tot .delegated 0) →
    (∀ p ∈ l, 0 ≤ p.2.tot .delegated 0) →
    Roomy ((l.filter fun p => p.2.banished && p.2.active).map fun p => p.2.tot .delegated 0).sum s →
    ∃ t, fixRecords e l s = some t ∧ (∀ j, (∀ p ∈ l, p.1 ≠ j) → (infoOf t.store j).banished = (infoOf s.store j).banished) ∧
      ∀ p ∈ l, (p.2.banished && p.2.active) = true → (infoOf t.store p.1).banished = false := by
  induction l with
  | nil => intro s _ _ _ _ _; exact ⟨s, rfl, fun _ _ => rfl, fun p hp => by cases hp⟩
  | cons p l ih =>
    obtain ⟨k, r⟩ := p
    intro s hn hlow hb hpos hs
    rw [List.map_cons, List.nodup_cons] at hn
    have hne : ∀ q ∈ l, q.1 ≠ k := fun q hq hk => hn.1 (List.mem_map.2 ⟨q, hq, hk⟩)
    have hk := hlow (k, r) List.mem_cons_self
    unfold fixRecords
    rw [if_neg (by simpa using hk)]
    cases hr : (r.banished && r.active) with
    | false =>
      rw [List.filter_cons_of_neg (by simpa using hr)] at hs
      obtain ⟨t, h1, h2, h3⟩ := ih s hn.2 (fun q hq => hlow q (List.mem_cons_of_mem _ hq)) (fun q hq => hb q (List.mem_cons_of_mem _ hq))
        (fun q hq => hpos q (List.mem_cons_of_mem _ hq)) hs
      refine ⟨t, ?_, fun j hj => h2 j fun q hq => hj q (List.mem_cons_of_mem _ hq), fun q hq hq2 => ?_⟩
      · simpa using h1
      · rcases List.mem_cons.1 hq with rfl | hq
        · rw [hr] at hq2; cases hq2
        · exact h3 q hq hq2
    | true =>
      rw [List.filter_cons_of_pos (by simpa using hr), List.map_cons, List.sum_cons] at hs
      have hbk := hb (k, r) List.mem_cons_self
      have hs' : Roomy (((l.filter fun p => p.2.banished && p.2.active).map fun p => p.2.tot .delegated 0).sum + (infoOf s.store k).tot .delegated 0) s := by
        rw [hbk.2, Int.add_comm]; exact hs
      have hB : 0 ≤ ((l.filter fun p => p.2.banished && p.2.active).map fun p => p.2.tot .delegated 0).sum := by
        refine List.sum_nonneg fun x hx => ?_
        obtain ⟨q, hq, rfl⟩ := List.mem_map.1 hx
        exact hpos q (List.mem_cons_of_mem _ (List.mem_filter.1 hq).1)
      obtain ⟨c1, c2, c3, c4⟩ := comeBack_roomy (e := e) (k := k) (hbk.1.trans (Bool.and_eq_true_iff.1 hr).1) hs' hB
        (by rw [hbk.2]; exact hpos (k, r) List.mem_cons_self)
      obtain ⟨t, h1, h2, h3⟩ := ih (comeBack e k s).2 hn.2 (fun q hq => hlow q (List.mem_cons_of_mem _ hq))
        (fun q hq => ⟨by rw [comeBack_flags (hne q hq)]; exact (hb q (List.mem_cons_of_mem _ hq)).1,
          by rw [c4]; exact (hb q (List.mem_cons_of_mem _ hq)).2⟩) (fun q hq => hpos q (List.mem_cons_of_mem _ hq)) c2
      refine ⟨t, ?_, fun j hj => ?_, fun q hq hq2 => ?_⟩
      · simp only [if_true]
        rcases hc : comeBack e k s with ⟨res, u⟩
        rw [hc] at h1 c1
        cases res with
        | panic => exact absurd rfl c1
        | err => exact h1
        | ok a => exact h1
      · rw [h2 j fun q hq => hj q (List.mem_cons_of_mem _ hq), comeBack_flags fun e => hj (k, r) List.mem_cons_self e.symm]
      · rcases List.mem_cons.1 hq with rfl | hq
        · rw [h2 k fun q hq => hne q hq]
          exact c3
        · exact h3 q hq hq2

theorem save_day (x : Site) (d : List Nat) (v : Info) : (x.save d v).s.day = x.s.day := by
  unfold Site.save
  split <;> rfl

theorem fixTask_day (x : Site) (t : Schedule.Task) : (fixTask x t).2.s.day = x.s.day := by
  unfold fixTask
  dsimp only
  split <;> split <;> split <;> simp only [save_day]

theorem fixTasks_day (l : List Schedule.Task) : ∀ x : Site, (fixTasks l x).2.s.day = x.s.day := by
  induction l with
  | nil => exact fun _ => rfl
  | cons t l ih =>
    intro x
    unfold fixTasks
    split
    · exact (ih _).trans (fixTask_day x t)
    · exact ih x

theorem fixMoments_day (L : List (Int × List Schedule.Task)) : ∀ x : Site, (fixMoments L x).s.day = x.s.day := by
  induction L with
  | nil => exact fun _ => rfl
  | cons p L ih =>
    intro x
    unfold fixMoments
    rw [ih]
    split
    · exact fixTasks_day p.2 x
    · exact fixTasks_day p.2 x

/-- C95: everybody who was banished though active is not banished any more, whatever the callbacks answer, and the upgrade goes through; if
texts are in lowercase, the structure is in order, statuses and active referrals are known, the sums of delegations have room for those of the
accounts that return, and the dates of a downgrade can be scheduled. -/
theorem C95_back_partial (e : Env) (x : Site) (rank : Key → Nat) (hc : Consistent x.s.store)
    (hr : ∀ c p, (infoOf x.s.store c).referrer = some p → rank p < rank c ∧ x.s.store.has p = true)
    (hlow : ∀ k, x.scheduled.s.store.has k = true → k = text (addrOf k)) (hstatus : ∀ k, (infoOf x.s.store k).status ≤ 9)
    (hact : ∀ a c, c ∈ (infoOf x.s.store a).activeReferrals → x.s.store.has c = true)
    (hown : ∀ k, 0 ≤ (infoOf x.s.store k).tot .delegated 0)
    (hfit : ∀ k n, n ≤ 10 → 0 ≤ (infoOf x.s.store k).delegatedUpTo n ∧ (infoOf x.s.store k).delegatedUpTo n + x.owed < 18446744073709551616)
    (hsoon : Schedule.inRange (x.s.now + 2 * x.s.day) = true) :
    ∃ z, x.upgrade e = some z ∧ Consistent z.s.store ∧
      ∀ k, (infoOf x.s.store k).active = true → (infoOf z.s.store k).banished = false := by
  have al := (scheduled_spec x).1
  have hg := good_of_consistent hc rank hr
  have hbare : ∀ k, (infoOf x.scheduled.s.store k).bare = (infoOf x.s.store k).bare := fun k => al.bare [k]
  have ea : ∀ k, (infoOf x.scheduled.s.store k).active = (infoOf x.s.store k).active := fun k => (congrArg Info.active (hbare k) :)
  have eb : ∀ k, (infoOf x.scheduled.s.store k).banished = (infoOf x.s.store k).banished := fun k => (congrArg Info.banished (hbare k) :)
  have et : ∀ k, (infoOf x.scheduled.s.store k).tot = (infoOf x.s.store k).tot := fun k => (congrArg Info.tot (hbare k) :)
  have es : ∀ k, (infoOf x.scheduled.s.store k).status = (infoOf x.s.store k).status := fun k => (congrArg Info.status (hbare k) :)
  have el : ∀ k, (infoOf x.scheduled.s.store k).activeReferrals = (infoOf x.s.store k).activeReferrals := fun k => (congrArg Info.activeReferrals (hbare k) :)
  have hi : ∀ p ∈ x.scheduled.s.store.entries, infoOf x.scheduled.s.store p.1 = p.2 := fun p hp => by
    unfold infoOf; rw [KV.mem_entries.1 hp]; rfl
  -- the delegations of those who return
  have hsum : ((x.scheduled.s.store.entries.filter fun p => p.2.banished && p.2.active).map fun p => p.2.tot .delegated 0).sum ≤ x.owed := by
    have e1 : ((x.scheduled.s.store.entries.filter fun p => p.2.banished && p.2.active).map fun p => p.2.tot .delegated 0) =
        ((x.scheduled.s.store.entries.filter fun p => p.2.banished && p.2.active).map Prod.fst).map fun k => (infoOf x.s.store k).tot .delegated 0 := by
      rw [List.map_map]
      refine List.map_congr_left fun p hp => ?_
      show _ = (infoOf x.s.store p.1).tot .delegated 0
      rw [← et, hi p (List.mem_filter.1 hp).1]
    rw [e1]
    refine sum_subset ?_ hown fun k hk => ?_
    · exact (x.scheduled.s.store.keys_nodup).sublist (List.filter_sublist.map _)
    · obtain ⟨p, hp, rfl⟩ := List.mem_map.1 hk
      obtain ⟨hp, hq⟩ := List.mem_filter.1 hp
      rw [← hi p hp, ea, eb] at hq
      refine List.mem_filter.2 ⟨?_, hq⟩
      rw [mem_keys_of_has]
      cases hh : x.s.store.has p.1 with
      | true => rfl
      | false => rw [infoOf_of_not_has hh] at hq; cases hq
  have hroomy : Roomy ((x.scheduled.s.store.entries.filter fun p => p.2.banished && p.2.active).map fun p => p.2.tot .delegated 0).sum x.scheduled.s := by
    refine ⟨?_, fun k => by rw [es]; exact hstatus k, fun a c h => ?_, ?_, fun k n hn => ?_⟩
    · unfold Good
      rw [treeOf_alike al]
      exact ⟨hg.nodup, hg.mem, hg.acc, fun c p q => fixMoments_has _ (hg.here c p q)⟩
    · rw [el] at h
      exact fixMoments_has _ (hact a c h)
    · have : x.scheduled.s.day = x.s.day := fixMoments_day _ x
      rw [al.now, this]; exact hsoon
    · have e1 : (view x.scheduled.s.store k).delegatedUpTo n = (infoOf x.s.store k).delegatedUpTo n :=
        upTo_congr (w := view x.scheduled.s.store k) (v := infoOf x.s.store k) (et k) n
      have := hfit k n hn
      rw [e1]
      omega
  obtain ⟨t, h1, -, h3⟩ := fixRecords_roomy e x.scheduled.s.store.entries x.scheduled.s x.scheduled.s.store.keys_nodup
    (fun p hp => hlow p.1 (by unfold KV.has; rw [KV.mem_entries.1 hp]; rfl)) (fun p hp => by rw [hi p hp]; exact ⟨rfl, rfl⟩)
    (fun p hp => by rw [← hi p hp, et]; exact hown p.1) hroomy
  have hz : x.upgrade e = some ⟨t, fun _ => none⟩ := by
    unfold Site.upgrade
    rw [h1]; rfl
  obtain ⟨r1, -, r3⟩ := C95_returned e x _ rank hz hc hr hlow
  refine ⟨_, hz, r1, fun k hk => ?_⟩
  cases hb : (infoOf x.s.store k).banished with
  | false => rw [r3 k (by rw [hb]; simp), hb]
  | true =>
    have hm : ∃ r, x.scheduled.s.store.get k = some r := by
      cases hq : x.scheduled.s.store.get k with
      | none => rw [← eb, infoOf, hq] at hb; cases hb
      | some r => exact ⟨r, rfl⟩
    obtain ⟨r, hm⟩ := hm
    have hm := KV.mem_entries.2 hm
    refine h3 (k, r) hm ?_
    rw [← hi _ hm, ea, eb, hb, hk]; rfl

/-- The hypotheses hold in the example of `C95_returned`, where the account 5 comes back; it owns nothing there. -/
example : ∃ z, muddle.upgrade fine = some z ∧ Consistent z.s.store ∧ ∀ k, (infoOf muddle.s.store k).active = true → (infoOf z.s.store k).banished = false := by
  obtain ⟨h1, h2, h3⟩ := muddle_consistent
  have ho : muddle.owed = 0 := by decide +kernel
  refine C95_back_partial fine muddle id h1 h2 h3 (fun k => ?_) (fun a c => ?_) (fun k => ?_) (fun k => ?_) (by decide +kernel)
  · exact info_cases (P := fun _ v => v.status ≤ 9) (by decide +kernel) (fun _ => Nat.zero_le _) k
  · exact info_cases (P := fun _ v => c ∈ v.activeReferrals → muddle.s.store.has c = true)
      (fun q hq h => by
        have e : ∀ q ∈ muddle.s.store.entries, q.2.activeReferrals = [] := by decide +kernel
        rw [e q hq] at h; cases h) (fun _ h => by cases h) a
  · exact info_cases (P := fun _ v => 0 ≤ v.tot .delegated 0) (by decide +kernel) (fun _ => le_rfl) k
  · rw [ho]
    refine info_cases (P := fun _ v => ∀ n, n ≤ 10 → 0 ≤ v.delegatedUpTo n ∧ v.delegatedUpTo n + 0 < 18446744073709551616) (fun q hq n hn => ?_)
      (fun _ n hn => ?_) k
    · have e : ∀ q ∈ muddle.s.store.entries, ∀ n ∈ List.range 11, 0 ≤ q.2.delegatedUpTo n ∧ q.2.delegatedUpTo n + 0 < 18446744073709551616 := by decide +kernel
      exact e q hq n (List.mem_range.2 (by omega))
    · have e : ∀ n ∈ List.range 11, 0 ≤ ({} : Info).delegatedUpTo n ∧ ({} : Info).delegatedUpTo n + 0 < 18446744073709551616 := by decide +kernel
      exact e n (List.mem_range.2 (by omega))

/-- An account with 70 coins in delegation that was banished though active, below an active one with 500 -/
def wronged : Site :=
  let coins (n : Int) : What → Nat → Int := fun w l => if w = .active then (if l = 0 then 1 else 0) else if l = 0 then n else 0
  let records := (KV.empty.set (text 0) { status := 1, active := true, tot := coins 500 }).set (text 1)
    { referrer := some (text 0), active := true, banished := true, tot := coins 70 }
  ⟨{ store := records, now := 30, day := 10 }, fun _ => none⟩

example : wronged.unfair = [text 1] ∧ wronged.owed = 70 ∧ (wronged.upgrade fine).any (fun z => decide ((infoOf z.s.store (text 0)).tot .delegated 1 = 70)) = true := by
  decide +kernel

/-! ### What remains wrong -/

/-- C95: an account that comes back is active and below its referrer, but it is not in the list of active referrals of the latter, nor in the number of
active accounts below, which were right before (C57, C24): the return enters it in the list of referrals and in the sums of money only. -/
theorem C95_uncounted_violation : ∃ (x : Site) (a c : Key),
    (∀ k, (infoOf x.s.store k).activeReferrals = [] ∧ (infoOf x.s.store k).referrals = [] ∧ (infoOf x.s.store k).tot .active 1 = 0) ∧
    (x.upgrade fine).any (fun z => decide ((infoOf z.s.store c).referrer = some a ∧ (infoOf z.s.store c).banished = false ∧
      (infoOf z.s.store c).active = true ∧ (infoOf z.s.store a).referrals = [c] ∧ (infoOf z.s.store a).activeReferrals = [] ∧
      (infoOf z.s.store a).tot .active 1 = 0)) = true :=
  ⟨wronged, text 0, text 1, fun k => info_cases (P := fun _ v => v.activeReferrals = [] ∧ v.referrals = [] ∧ v.tot .active 1 = 0) (by decide +kernel)
    (fun _ => ⟨rfl, rfl, rfl⟩) k, by decide +kernel⟩

end Verif.Referral
