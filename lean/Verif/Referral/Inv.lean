import Verif.Referral.Effects3

/-! Every operation keeps the referral structure a consistent forest. -/
namespace Verif.Referral
open Relation

/-- The referral structure is a consistent forest whose referrers are all stored. -/
def Good (s : State) : Prop := Forest (treeOf (view s.store)) (fun k => s.store.has k = true)

/-! ### Projections -/

theorem climbV_high {β : Type} {π : Info → β} {g : Nat → Info → Info} (h : ∀ l v, 2 ≤ l → π (g l v) = π v) :
    ∀ (n m : Nat) (k : Option Key) (I : View), 2 ≤ m → ∀ j, π (climbV g n m k I j) = π (I j) := by
  intro n
  induction n with
  | zero => intros; rfl
  | succ n ih =>
    intro m k I hm j
    cases k with
    | none => rfl
    | some a =>
      show π (climbV g n (m + 1) (I a).referrer (upd I a (g m (I a))) j) = _
      rw [ih (m + 1) _ _ (by omega)]
      by_cases hj : j = a
      · subst hj; rw [upd_self, h _ _ hm]
      · rw [upd_ne _ _ hj]

theorem climbV_first {β : Type} {π : Info → β} {g : Nat → Info → Info} (h : ∀ l v, 2 ≤ l → π (g l v) = π v) (n : Nat) (p : Key) (I : View)
    (j : Key) : π (climbV g (n + 1) 1 (some p) I j) = if j = p then π (g 1 (I p)) else π (I j) := by
  show π (climbV g n 2 (I p).referrer (upd I p (g 1 (I p))) j) = _
  rw [climbV_high h n 2 _ _ (by omega)]
  by_cases hj : j = p
  · subst hj; rw [upd_self, if_pos rfl]
  · rw [upd_ne _ _ hj, if_neg hj]

theorem climbV_all {β : Type} {π : Info → β} {g : Nat → Info → Info} (h : ∀ l v, π (g l v) = π v) :
    ∀ (n m : Nat) (k : Option Key) (I : View) (j : Key), π (climbV g n m k I j) = π (I j) := by
  intro n
  induction n with
  | zero => intros; rfl
  | succ n ih =>
    intro m k I j
    cases k with
    | none => rfl
    | some a =>
      show π (climbV g n (m + 1) (I a).referrer (upd I a (g m (I a))) j) = _
      rw [ih (m + 1) _ _]
      by_cases hj : j = a
      · subst hj; rw [upd_self, h]
      · rw [upd_ne _ _ hj]

theorem climbV_none (g : Nat → Info → Info) (n m : Nat) (I : View) : climbV g n m none I = I := by cases n <;> rfl

theorem bump_proj {β : Type} {π : Info → β} {d : What → Int} {L : Info → Info} (ha : ∀ l v, π (v.add d l) = π v) (l : Nat) (v : Info)
    (hl : 2 ≤ l) : π (bump d L l v) = π v := by
  rw [bump_ge hl]; exact ha l v

theorem bump_all {β : Type} {π : Info → β} {d : What → Int} {L : Info → Info} (ha : ∀ l v, π (v.add d l) = π v)
    (hL : ∀ v, π (L v) = π v) (l : Nat) (v : Info) : π (bump d L l v) = π v := by
  unfold bump; rw [ha]; split
  · exact hL v
  · rfl

/-! ### From the body to the operation -/

theorem bunch_good {e : Env} {m : Act Bool} (hm : Framed m) {s : State} (hs : Good s)
    (h : ∀ t, m s.fresh = (.ok true, t) → (∀ k, s.store.has k = true → t.work.has k = true) →
      Forest (treeOf (view t.work)) (fun k => t.work.has k = true)) :
    Good (bunch e m s).2 := by
  obtain ⟨ho, hc⟩ := bunch_cases (e := e) hm s
  rcases hc with hc | ⟨t, ht, hc⟩
  · unfold Good; rw [hc]; exact hs
  · unfold Good; rw [hc]
    exact h t ht ((hm.of ht).grows)

theorem appendChild_good {e : Env} {p c : Key} {skip setc : Bool} {s : State} (hs : Good s) (hne : c ≠ p) :
    Good (appendChild e p c skip setc s).2 := by
  unfold appendChild
  rw [M.bind_ok (M.get_apply s)]
  cases hh : s.store.has c with
  | true => exact hs
  | false =>
    rw [M.bind_ok (show M.errIf false s = (.ok (), s) from rfl)]
    refine bunch_good (.appendBody _ _ _ _) hs fun t ht hg => ?_
    obtain ⟨-, hp, hc, -, hv⟩ := appendBody_ok ht
    rw [hv]
    have hv0 : view s.fresh.work = view s.store := rfl
    rw [hv0]
    have hci : view s.store c = core {} := by unfold view; rw [infoOf_of_not_has hh]
    have hf : (freshInfo s.fresh p c setc).referrer = some p ∧ (freshInfo s.fresh p c setc).referrals = [] ∧
        (freshInfo s.fresh p c setc).banished = false := by
      unfold freshInfo; cases setc <;> exact ⟨rfl, rfl, rfl⟩
    refine Forest.insert (c := c) (p := p) hs (by simp [hh]) hne ?_ ?_ ?_ ?_ ?_ hg hp
    · intro k
      show (climbV _ 10 1 (some p) _ k).referrer = _
      rw [climbV_all (π := Info.referrer) (g := bump _ (addKid _)) (bump_all (fun _ _ => rfl) (fun _ => rfl))]
      by_cases hk : k = c
      · subst hk; rw [upd_self, if_pos rfl, hf.1]
      · rw [upd_ne _ _ hk, if_neg hk]; rfl
    · intro k
      show (climbV _ 10 1 (some p) _ k).referrals = _
      rw [climbV_first (π := Info.referrals) (bump_proj (fun _ _ => rfl))]
      by_cases hk : k = p
      · subst hk
        rw [if_pos rfl, if_pos rfl, upd_ne _ _ (Ne.symm hne)]
        rfl
      · rw [if_neg hk, if_neg hk]
        by_cases hkc : k = c
        · subst hkc
          rw [upd_self, hf.2.1]
          show [] = (view s.store k).referrals
          rw [hci]; rfl
        · rw [upd_ne _ _ hkc]; rfl
    · intro k
      show (climbV _ 10 1 (some p) _ k).banished = _
      rw [climbV_all (π := Info.banished) (g := bump _ (addKid _)) (bump_all (fun _ _ => rfl) (fun _ => rfl))]
      by_cases hk : k = c
      · subst hk; rw [upd_self, hf.2.2]
        show false = (view s.store k).banished
        rw [hci]; rfl
      · rw [upd_ne _ _ hk]; rfl
    · show (view s.store c).banished = false
      rw [hci]; rfl
    · show (view s.store c).referrer = none
      rw [hci]; rfl

theorem compress_good {e : Env} {k : Key} {s : State} (hs : Good s) : Good (compress e k s).2 := by
  unfold compress
  refine bunch_good (.compressBody _) hs fun t ht hg => ?_
  obtain ⟨-, p, x, hp, hv⟩ := compressBody_ok ht
  have hv0 : view s.fresh.work = view s.store := rfl
  rw [hv0] at hv hp
  rw [hv]
  refine Forest.compress (k := k) (p := p) hs hp ?_ ?_ ?_ hg
  · intro j
    show (climbV _ 10 1 (some p) _ j).referrer = _
    rw [climbV_all (π := Info.referrer) (g := squeeze _) (by intro l v; unfold squeeze; split <;> rfl)]
    unfold redirect
    show _ = if j ∈ (view s.store k).referrals then some p else (view s.store j).referrer
    split
    · rfl
    · by_cases hj : j = k
      · subst hj; rw [upd_self]; rfl
      · rw [upd_ne _ _ hj]
  · intro j
    show (climbV _ 10 1 (some p) _ j).referrals = _
    rw [climbV_first (π := Info.referrals) (g := squeeze _) (by
      intro l v hl; unfold squeeze; rw [if_neg (by omega)]; rfl)]
    have hr : ∀ i, (redirect (view s.store k).referrals (some p) (upd (view s.store) k (compressed (view s.store k) x)) i).referrals =
        if i = k then [] else (view s.store i).referrals := by
      intro i
      have : ∀ I : View, (redirect (view s.store k).referrals (some p) I i).referrals = (I i).referrals := by
        intro I; unfold redirect; split <;> rfl
      rw [this]
      by_cases hi : i = k
      · subst hi; rw [upd_self, if_pos rfl]; rfl
      · rw [upd_ne _ _ hi, if_neg hi]
    have hne : p ≠ k := fun e => hs.irrefl (c := k) (by show (view s.store k).referrer = _; rw [hp, e])
    show _ = if j = p then (view s.store p).referrals ++ (view s.store k).referrals else if j = k then [] else (view s.store j).referrals
    by_cases hj : j = p
    · rw [if_pos hj, if_pos hj]
      unfold squeeze
      rw [if_pos rfl]
      show _ ++ _ = _
      rw [hr, if_neg hne]
    · rw [if_neg hj, if_neg hj, hr]
  · intro j
    show (climbV _ 10 1 (some p) _ j).banished = _
    rw [climbV_all (π := Info.banished) (g := squeeze _) (by intro l v; unfold squeeze; split <;> rfl)]
    have : ∀ I : View, (redirect (view s.store k).referrals (some p) I j).banished = (I j).banished := by
      intro I; unfold redirect; split <;> rfl
    rw [this]
    by_cases hj : j = k
    · subst hj; rw [upd_self]; rfl
    · rw [upd_ne _ _ hj]; rfl

/-- Nothing structural changes. -/
theorem Forest.same {I J : View} {P P' : Key → Prop} (h : Forest (treeOf I) P) (h1 : ∀ k, (J k).referrer = (I k).referrer)
    (h2 : ∀ k, (J k).referrals = (I k).referrals) (h3 : ∀ k, (J k).banished = (I k).banished) (hp : ∀ k, P k → P' k) :
    Forest (treeOf J) P' := h.congr h1 h2 h3 hp

theorem Good.of_same {s t : State} (h : Good s) (hv : view t.store = view s.store) (hp : ∀ k, s.store.has k = true → t.store.has k = true) :
    Good t := by
  unfold Good
  rw [hv]
  exact h.grow hp

/-- An account comes back below an ancestor. -/
theorem back_forest {I : View} {P P' : Key → Prop} {k : Key} {parent : Option Key} {d : What → Int} {w : Info} {J : View}
    (h : Forest (treeOf I) P) (hout : (I k).banished = true) (hb : ∀ p, parent = some p → TransGen (treeOf I).over p k)
    (hw1 : w.referrer = parent) (hw2 : w.referrals = (I k).referrals) (hw3 : w.banished = false)
    (hJ : J = climbV (bump d (addKid k)) 10 1 parent (upd I k w)) (hp : ∀ k, P k → P' k) : Forest (treeOf J) P' := by
  subst hJ
  have hne : parent ≠ some k := by
    intro e
    have h1 := hb k e
    have : ∀ x, Acc (TransGen (treeOf I).over) x → x = k → False := by
      intro x hx
      induction hx with
      | intro x _ ih => intro hxc; subst hxc; exact ih x h1 rfl
    exact this k (h.acc k).transGen rfl
  refine Forest.comeBack (k := k) (b := parent) h hout hb ?_ ?_ ?_ hp
  · intro x
    show (climbV _ 10 1 parent _ x).referrer = _
    rw [climbV_all (π := Info.referrer) (g := bump _ (addKid _)) (bump_all (fun _ _ => rfl) (fun _ => rfl))]
    by_cases hx : x = k
    · subst hx; rw [upd_self, if_pos rfl, hw1]
    · rw [upd_ne _ _ hx, if_neg hx]; rfl
  · intro x
    show (climbV _ 10 1 parent _ x).referrals = _
    have hu : ∀ y, (upd I k w y).referrals = (I y).referrals := by
      intro y
      by_cases hy : y = k
      · subst hy; rw [upd_self, hw2]
      · rw [upd_ne _ _ hy]
    cases parent with
    | none => rw [climbV_none, hu, if_neg (by simp)]; rfl
    | some p =>
      rw [climbV_first (π := Info.referrals) (bump_proj (fun _ _ => rfl))]
      by_cases hx : x = p
      · subst hx
        rw [if_pos rfl, if_pos rfl]
        show (upd I k w x).referrals ++ [k] = (I x).referrals ++ [k]
        rw [hu]
      · rw [if_neg hx, if_neg (by simpa using hx), hu]; rfl
  · intro x
    show (climbV _ 10 1 parent _ x).banished = _
    rw [climbV_all (π := Info.banished) (g := bump _ (addKid _)) (bump_all (fun _ _ => rfl) (fun _ => rfl))]
    by_cases hx : x = k
    · subst hx; rw [upd_self, if_pos rfl, hw3]
    · rw [upd_ne _ _ hx, if_neg hx]; rfl

theorem onBalanceChanged_good {e : Env} {k : Key} {s : State} (hs : Good s) : Good (onBalanceChanged e k s).2 := by
  unfold onBalanceChanged
  refine bunch_good (.balanceBody _) hs fun t ht hg => ?_
  obtain ⟨h, -⟩ := balanceBody_ok ht
  have hv0 : view s.fresh.work = view s.store := rfl
  cases h with
  | nothing h _ => subst h; exact hs
  | out b hb hv =>
    rw [hv, hv0]
    refine Forest.same hs ?_ ?_ ?_ hg <;>
    · intro j
      by_cases hj : j = k
      · subst hj; rw [upd_self]; rfl
      · rw [upd_ne _ _ hj]
  | stay b hb hv =>
    rw [hv, hv0]
    refine Forest.same hs ?_ ?_ ?_ hg <;> intro j
    · rw [climbV_all (π := Info.referrer) (g := bump _ id) (bump_all (fun _ _ => rfl) (fun _ => rfl))]
      by_cases hj : j = k
      · subst hj; rw [upd_self]; rfl
      · rw [upd_ne _ _ hj]
    · rw [climbV_all (π := Info.referrals) (g := bump _ id) (bump_all (fun _ _ => rfl) (fun _ => rfl))]
      by_cases hj : j = k
      · subst hj; rw [upd_self]; rfl
      · rw [upd_ne _ _ hj]
    · rw [climbV_all (π := Info.banished) (g := bump _ id) (bump_all (fun _ _ => rfl) (fun _ => rfl))]
      by_cases hj : j = k
      · subst hj; rw [upd_self]; rfl
      · rw [upd_ne _ _ hj]
  | back parent b n hb ha ho hv =>
    rw [hv, hv0]
    have htr : ∀ p, parent = some p → TransGen (treeOf (view s.store)).over p k := by
      intro p hp
      rw [hp] at ho
      exact (openAncestor_trans ho).1
    have hne : parent ≠ some k := by
      intro e
      have h1 := htr k e
      have : ∀ x, Acc (TransGen (treeOf (view s.store)).over) x → x = k → False := by
        intro x hx
        induction hx with
        | intro x _ ih => intro hxc; subst hxc; exact ih x h1 rfl
      exact this k (hs.acc k).transGen rfl
    rw [hv0] at hb
    have base : Forest (treeOf (climbV (bump (money ((view s.store k).tot .coins 0) ((view s.store k).tot .delegated 0)) (addKid k)) 10 1 parent
        (upd (view s.store) k { view s.store k with referrer := parent, banished := false }))) (fun k => t.work.has k = true) :=
      back_forest (w := { view s.store k with referrer := parent, banished := false }) hs hb htr rfl rfl rfl rfl hg
    have first : ∀ j, (climbV (bump (money ((view s.store k).tot .coins 0) ((view s.store k).tot .delegated 0)) (addKid k)) 10 1 parent
        (upd (view s.store) k { view s.store k with referrer := parent, banished := false }) j).referrals =
        (if some j = parent then (view s.store j).referrals ++ [k] else (view s.store j).referrals) := by
      intro j
      have hu : ∀ y, (upd (view s.store) k { view s.store k with referrer := parent, banished := false } y).referrals =
          (view s.store y).referrals := by
        intro y
        by_cases hy : y = k
        · subst hy; rw [upd_self]
        · rw [upd_ne _ _ hy]
      cases parent with
      | none => rw [climbV_none, hu, if_neg (by simp)]
      | some p =>
        rw [climbV_first (π := Info.referrals) (bump_proj (fun _ _ => rfl))]
        by_cases hx : j = p
        · subst hx; rw [if_pos rfl, if_pos rfl]; show (upd _ _ _ _).referrals ++ [k] = _; rw [hu]
        · rw [if_neg hx, if_neg (by simpa using hx), hu]
    have second : ∀ j, (climbV (bump (money ((view s.store k).tot .coins 0) ((view s.store k).tot .delegated 0)) (addKid k)) 10 1 parent
        (view s.store) j).referrals =
        (if some j = parent then (view s.store j).referrals ++ [k] else (view s.store j).referrals) := by
      intro j
      cases parent with
      | none => rw [climbV_none, if_neg (by simp)]
      | some p =>
        rw [climbV_first (π := Info.referrals) (bump_proj (fun _ _ => rfl))]
        by_cases hx : j = p
        · subst hx; rw [if_pos rfl, if_pos rfl]; rfl
        · rw [if_neg hx, if_neg (by simpa using hx)]
    refine Forest.same base ?_ ?_ ?_ (fun _ h => h) <;> intro j
    · rw [climbV_all (π := Info.referrer) (g := bump _ id) (bump_all (fun _ _ => rfl) (fun _ => rfl)),
        climbV_all (π := Info.referrer) (g := bump _ (addKid _)) (bump_all (fun _ _ => rfl) (fun _ => rfl))]
      by_cases hj : j = k
      · subst hj; rw [upd_self, upd_self]; rfl
      · rw [upd_ne _ _ hj, upd_ne _ _ hj, climbV_all (π := Info.referrer) (g := bump _ (addKid _)) (bump_all (fun _ _ => rfl) (fun _ => rfl))]
    · rw [climbV_all (π := Info.referrals) (g := bump _ id) (bump_all (fun _ _ => rfl) (fun _ => rfl)), first]
      by_cases hj : j = k
      · subst hj
        rw [upd_self, if_neg (Ne.symm hne)]; rfl
      · rw [upd_ne _ _ hj, second]
    · rw [climbV_all (π := Info.banished) (g := bump _ id) (bump_all (fun _ _ => rfl) (fun _ => rfl)),
        climbV_all (π := Info.banished) (g := bump _ (addKid _)) (bump_all (fun _ _ => rfl) (fun _ => rfl))]
      by_cases hj : j = k
      · subst hj; rw [upd_self, upd_self]; rfl
      · rw [upd_ne _ _ hj, upd_ne _ _ hj, climbV_all (π := Info.banished) (g := bump _ (addKid _)) (bump_all (fun _ _ => rfl) (fun _ => rfl))]

theorem comeBack_good {e : Env} {k : Key} {s : State} (hs : Good s) (hb : (infoOf s.store k).banished = true) : Good (comeBack e k s).2 := by
  unfold comeBack
  refine bunch_good (.comeBackBody _) hs fun t ht hg => ?_
  obtain ⟨-, parent, n, ho, hv⟩ := comeBackBody_ok ht
  have hv0 : view s.fresh.work = view s.store := rfl
  rw [hv, hv0]
  refine back_forest (parent := parent) (w := { view s.store k with referrer := parent, banished := false, banishmentAt := none, compressionAt := none })
    hs hb ?_ rfl rfl rfl rfl hg
  intro p hp
  rw [hp] at ho
  exact (openAncestor_trans ho).1

theorem relist_referrer (b : Bool) (k : Key) (v : Info) : (relist b k v).referrer = v.referrer := by cases b <;> rfl
theorem relist_referrals (b : Bool) (k : Key) (v : Info) : (relist b k v).referrals = v.referrals := by cases b <;> rfl
theorem relist_banished (b : Bool) (k : Key) (v : Info) : (relist b k v).banished = v.banished := by cases b <;> rfl

theorem setActive_good {e : Env} {k : Key} {value check : Bool} {s : State} (hs : Good s) : Good (setActive e k value check s).2 := by
  unfold setActive
  refine bunch_good (.activeBody _ _ _) hs fun t ht hg => ?_
  rcases activeBody_ok ht with ⟨h, -, -⟩ | ⟨-, -, -, x, hv⟩
  · cases h
  have hv0 : view s.fresh.work = view s.store := rfl
  rw [hv, hv0]
  refine Forest.same hs ?_ ?_ ?_ hg <;> intro j
  · rw [climbV_all (π := Info.referrer) (bump_all (fun _ _ => rfl) (relist_referrer _ _))]
    by_cases hj : j = k
    · subst hj; rw [upd_self]; rfl
    · rw [upd_ne _ _ hj]
  · rw [climbV_all (π := Info.referrals) (bump_all (fun _ _ => rfl) (relist_referrals _ _))]
    by_cases hj : j = k
    · subst hj; rw [upd_self]; rfl
    · rw [upd_ne _ _ hj]
  · rw [climbV_all (π := Info.banished) (bump_all (fun _ _ => rfl) (relist_banished _ _))]
    by_cases hj : j = k
    · subst hj; rw [upd_self]; rfl
    · rw [upd_ne _ _ hj]

theorem bunch_banish_good {e : Env} {k : Key} {s : State} (hs : Good s) : Good (bunch e (banishBody k) s).2 := by
  refine bunch_good (.banishBody _) hs fun t ht hg => ?_
  obtain ⟨-, p, hp, -, hb, -, hv⟩ := banishBody_ok ht
  have hv0 : view s.fresh.work = view s.store := rfl
  rw [hv0] at hv hp hb
  rw [hv]
  have hne : p ≠ k := fun e => hs.irrefl (c := k) (by show (view s.store k).referrer = _; rw [hp, e])
  have kids : ∀ j, (climbV (bump (money (-(view s.store k).tot .coins 0) (-(view s.store k).tot .delegated 0)) (dropKid k)) 10 1 (some p)
      (upd (view s.store) k { view s.store k with banished := true, compressionAt := none, banishmentAt := none }) j).referrals =
      if j = p then removeFast (view s.store p).referrals k else (view s.store j).referrals := by
    intro j
    rw [climbV_first (π := Info.referrals) (bump_proj (fun _ _ => rfl))]
    by_cases hj : j = p
    · rw [if_pos hj, if_pos hj, upd_ne _ _ hne]; rfl
    · rw [if_neg hj, if_neg hj]
      by_cases hjk : j = k
      · subst hjk; rw [upd_self]
      · rw [upd_ne _ _ hjk]
  refine Forest.banish (k := k) (p := p) hs hp ?_ ?_ ?_ ?_ hg
  · intro j
    show (climbV _ 10 1 (some p) _ j).referrer = _
    rw [climbV_all (π := Info.referrer) (g := bump _ (dropKid _)) (bump_all (fun _ _ => rfl) (fun _ => rfl))]
    by_cases hj : j = k
    · subst hj; rw [upd_self]; rfl
    · rw [upd_ne _ _ hj]; rfl
  · have := kids p
    rw [if_pos rfl] at this
    have hn : (view s.store p).referrals.Nodup := hs.nodup p
    show (climbV _ 10 1 (some p) _ p).referrals.Nodup ∧ ∀ x, x ∈ (climbV _ 10 1 (some p) _ p).referrals ↔ _
    rw [this]
    exact ⟨removeFast_nodup hn, fun x => mem_removeFast hn⟩
  · intro x hx
    show (climbV _ 10 1 (some p) _ x).referrals = _
    rw [kids, if_neg hx]; rfl
  · intro j
    show (climbV _ 10 1 (some p) _ j).banished = _
    rw [climbV_all (π := Info.banished) (g := bump _ (dropKid _)) (bump_all (fun _ _ => rfl) (fun _ => rfl))]
    by_cases hj : j = k
    · subst hj; rw [upd_self, if_pos rfl]
    · rw [upd_ne _ _ hj, if_neg hj]; rfl

theorem banish_good {e : Env} {k : Key} {s : State} (hs : Good s) : Good (banish e k s).2 := by
  unfold banish
  have h := bunch_banish_good (e := e) (k := k) hs
  rcases hr : bunch e (banishBody k) s with ⟨r, t⟩
  rw [hr] at h
  cases r with
  | ok a =>
    rw [M.bind_ok hr]
    cases e.call .banished k <;> exact h
  | err => rw [M.bind_err hr]; exact h
  | panic => rw [M.bind_panic hr]; exact h

theorem performDowngrade_good {e : Env} {k : Key} {s : State} (hs : Good s) : Good (performDowngrade e k s).2 := by
  obtain ⟨ho, hv⟩ := performDowngrade_store (e := e) (k := k) s
  exact hs.of_same hv ho.grows

theorem performCompression_good {e : Env} {k : Key} {s : State} (hs : Good s) : Good (performCompression e k s).2 := by
  unfold performCompression
  rw [M.bind_ok (M.get_apply s)]
  split
  · exact hs
  · exact compress_good hs

/-- Only the pending transition of an account changes. -/
theorem setTransition_good {k : Key} {x : Option Key} {s : State} (hs : Good s) :
    Good (setInfo k { infoOf s.store k with transition := x } s).2 := by
  have hg : ∀ j, s.store.has j = true → (s.store.set k { infoOf s.store k with transition := x }).has j = true := by
    intro j hj; rw [has_set, hj]; simp
  unfold setInfo Good
  show Forest (treeOf (view (s.store.set k { infoOf s.store k with transition := x })))
    (fun j => (s.store.set k { infoOf s.store k with transition := x }).has j = true)
  rw [view_set]
  refine Forest.same hs ?_ ?_ ?_ hg <;>
  · intro j
    by_cases hj : j = k
    · subst hj; rw [upd_self]; rfl
    · rw [upd_ne _ _ hj]

theorem cancelTransition_good {k : Key} {s : State} (hs : Good s) : Good (cancelTransition k s).2 := by
  unfold cancelTransition
  rw [M.bind_ok (M.get_apply s)]
  exact setTransition_good hs

theorem setPurse_good {e : Env} {a : Addr} {p : Purse} {s : State} (hs : Good s) : Good (setPurse e a p s).2 := by
  unfold setPurse
  rw [M.bind_ok (M.modify_apply _ s)]
  exact onBalanceChanged_good hs

theorem pay_good {e : Env} {a : Addr} {x : Int} {s : State} (hs : Good s) : Good (pay e a x s).2 := by
  unfold pay
  rw [M.bind_ok (M.get_apply s)]
  generalize decide ((s.purse a).main < x) = c
  cases c with
  | true => exact hs
  | false =>
    rw [M.bind_ok (show M.errIf false s = (.ok (), s) from rfl)]
    have h := setPurse_good (e := e) (a := a) (p := { s.purse a with main := (s.purse a).main - x }) hs
    rcases hr : setPurse e a { s.purse a with main := (s.purse a).main - x } s with ⟨r, t⟩
    rw [hr] at h
    cases r with
    | ok a =>
      rw [M.bind_ok hr, M.bind_ok (M.get_apply t)]
      exact setPurse_good h
    | err => rw [M.bind_err hr]; exact h
    | panic => rw [M.bind_panic hr]; exact h

theorem validateTransition_ok {s t : State} {k : Key} {x : Option Key} {fresh : Bool} (h : validateTransition k x fresh s = (.ok (), t)) :
    t = s ∧ ∃ p, x = some p ∧ k ≠ p ∧ (infoOf s.store k).referrer ≠ some p ∧
      (if fresh then (infoOf s.store k).transition = none else (infoOf s.store k).transition = some p) ∧
      (infoOf s.store p).closed s.now s.month = false ∧
      reaches s.store k (s.store.entries.length + 2) (infoOf s.store p).referrer = some false := by
  unfold validateTransition at h
  rw [M.get_bind_ok] at h
  cases x with
  | none => simp at h
  | some p =>
    dsimp only at h
    rw [M.errIf_bind_ok, M.errIf_bind_ok, M.errIf_bind_ok, M.errIf_bind_ok, M.orPanic_bind_ok] at h
    obtain ⟨h1, h2, h3, h4, b, h5, h⟩ := h
    rw [M.errIf_ok_iff] at h
    obtain ⟨rfl, rfl⟩ := h
    refine ⟨rfl, p, rfl, by simpa using h1, by simpa using h3, ?_, h4, h5⟩
    cases fresh
    · simpa using h2
    · simpa using h2

/-- A walk that ends without meeting `k` -/
theorem reaches_false {st : KV Nat Info} {k : Key} : ∀ (n : Nat) (x : Key), reaches st k n (some x) = some false →
    ¬ ReflTransGen (treeOf (view st)).over k x := by
  intro n
  induction n with
  | zero => intro x h; simp [reaches] at h
  | succ n ih =>
    intro x h
    unfold reaches at h
    split at h
    · simp at h
    · rename_i hne
      intro hr
      rcases ReflTransGen.cases_tail hr with e | ⟨y, hy, hxy⟩
      · exact hne e
      · have : (infoOf st x).referrer = some y := hxy
        rw [this] at h
        exact ih y h hy

/-- A walk that meets `k` -/
theorem reaches_true {st : KV Nat Info} {k : Key} : ∀ (n : Nat) (x : Key), reaches st k n (some x) = some true →
    ReflTransGen (treeOf (view st)).over k x := by
  intro n
  induction n with
  | zero => intro x h; simp [reaches] at h
  | succ n ih =>
    intro x h
    unfold reaches at h
    split at h
    · rename_i e; subst e; exact .refl
    · cases hr : (infoOf st x).referrer with
      | none => rw [hr] at h; cases n <;> simp [reaches] at h
      | some y =>
        rw [hr] at h
        exact (ih y h).tail hr

/-- The destination of a valid transition is not below its subject. -/
theorem validated_notBelow {s t : State} {k p : Key} {fresh : Bool} (h : validateTransition k (some p) fresh s = (.ok (), t)) :
    ¬ ReflTransGen (treeOf (view s.store)).over k p := by
  obtain ⟨-, q, hq, hne, -, -, -, hr⟩ := validateTransition_ok h
  injection hq with hq; subst hq
  intro hp
  rcases ReflTransGen.cases_tail hp with e | ⟨y, hy, hpy⟩
  · exact hne e.symm
  · have e : (infoOf s.store p).referrer = some y := hpy
    rw [e] at hr
    exact reaches_false _ _ hr hy

theorem request_quiet {r : Schedule.Req} {s t : State} (h : request r s = (.ok (), t)) : t.store = s.store :=
  ((Still.request r).of h).store

theorem requestTransition_ok {e : Env} {k : Key} {x : Option Key} {s t : State} (h : requestTransition e k x s = (.ok (), t)) :
    ∃ s1, (s1 = s ∨ pay e (addrOf k) s.price s = (.ok (), s1)) ∧ validateTransition k x true s = (.ok (), s) ∧
      t.store = s1.store.set k { infoOf s1.store k with transition := x } := by
  unfold requestTransition at h
  rw [M.bind_ok_iff] at h
  obtain ⟨_, s0, h0, h⟩ := h
  obtain rfl := (validateTransition_ok h0).1
  rw [M.get_bind_ok, M.bind_ok_iff] at h
  obtain ⟨_, s1, h1, h⟩ := h
  rw [M.get_bind_ok, M.bind_ok_iff] at h
  obtain ⟨_, s2, h2, h⟩ := h
  refine ⟨s1, ?_, h0, ?_⟩
  · split at h1
    · exact .inr h1
    · simp at h1; exact .inl h1.symm
  · rw [request_quiet h]
    unfold setInfo at h2
    simp at h2
    rw [← h2]

theorem requestTransition_good {e : Env} {k : Key} {x : Option Key} {s t : State} (hs : Good s)
    (h : requestTransition e k x s = (.ok (), t)) : Good t := by
  obtain ⟨s1, h1, -, h3⟩ := requestTransition_ok h
  have g1 : Good s1 := by
    rcases h1 with rfl | h1
    · exact hs
    · have := pay_good (e := e) (a := addrOf k) (x := s.price) hs
      rw [h1] at this; exact this
  have := setTransition_good (k := k) (x := x) g1
  unfold Good at this ⊢
  rw [h3]
  exact this

/-! ### Transitions -/

theorem addTo_proj {β : Type} {π : Info → β} (h : ∀ v sign x l, π (Info.addTree v sign x l) = π v) (sign : Int) (x : What → Nat → Int) (l : Nat)
    (a : Option Key) (I : View) (j : Key) : π (addTo sign x l a I j) = π (I j) := by
  cases a with
  | none => rfl
  | some a =>
    show π (upd I a ((I a).addTree sign x l) j) = _
    by_cases hj : j = a
    · subst hj; rw [upd_self, h]
    · rw [upd_ne _ _ hj]

theorem moveV_proj {β : Type} {π : Info → β} (h : ∀ v sign x l, π (Info.addTree v sign x l) = π v) (x : What → Nat → Int) :
    ∀ (n l : Nat) (a b : Option Key) (I : View) (j : Key), π (moveV x n l a b I j) = π (I j) := by
  intro n
  induction n with
  | zero => intros; rfl
  | succ n ih =>
    intro l a b I j
    unfold moveV
    split
    · rfl
    · rw [ih, addTo_proj h, addTo_proj h]

/-- What an affirmed transition does -/
theorem affirmTransition_ok {e : Env} {k : Key} {s t : State} (h : affirmTransition e k s = (.ok (), t)) :
    ∃ a b, (view s.store k).referrer = some a ∧ (view s.store k).transition = some b ∧ a ≠ b ∧ k ≠ b ∧
      (infoOf s.store b).closed s.now s.month = false ∧
      ¬ ReflTransGen (treeOf (view s.store)).over k b ∧ k ∈ (view s.store a).referrals ∧ t.store.has b = true ∧
      (∀ j, s.store.has j = true → t.store.has j = true) ∧
      let r := infoOf s.store k
      let I0 := upd (view s.store) k { view s.store k with referrer := some b, transition := none }
      let I1 := upd I0 a (left k r (I0 a))
      let I2 := upd I1 b (joined k r (I1 b))
      view t.store = moveV r.tot 9 2 (I0 a).referrer (I1 b).referrer I2 := by
  unfold affirmTransition at h
  rw [M.get_bind_ok, M.bind_ok_iff] at h
  obtain ⟨_, s0, h0, h⟩ := h
  obtain ⟨rfl, b, hb, hkb, hrb, htr, hcl, hre⟩ := validateTransition_ok h0
  rw [hb] at h0
  have hnb := validated_notBelow h0
  rw [M.bind_ok_iff] at h
  obtain ⟨_, s1, h1, h⟩ := h
  have e1 : s1 = { s0 with store := s0.store.set k { infoOf s0.store k with referrer := (infoOf s0.store k).transition, transition := none } } := by
    unfold setInfo at h1; simp at h1; exact h1.symm
  have v1 : view s1.store = upd (view s0.store) k { view s0.store k with referrer := some b, transition := none } := by
    rw [e1]
    show view (s0.store.set _ _) = _
    rw [view_set, hb]
    rfl
  have g1 : ∀ j, s0.store.has j = true → s1.store.has j = true := by
    intro j hj
    rw [e1]
    show (s0.store.set _ _).has j = true
    rw [has_set, hj]; simp
  cases hr : (infoOf s0.store k).referrer with
  | none => rw [hr] at h; simp at h
  | some a =>
    rw [hr, hb] at h
    dsimp only at h
    rw [must_ok_iff] at h
    have hf := (bunch_cases (e := e) (Framed.moveBody k (infoOf s0.store k) a b) s1).1
    rw [h] at hf
    obtain ⟨x, t', h2, h3, -⟩ := bunch_ok h
    obtain ⟨rfl, hm, hhb, hv⟩ := moveBody_ok h2
    have e3 := h3 rfl
    have hv0 : view s1.fresh.work = view s1.store := rfl
    rw [hv0, v1] at hm hv
    refine ⟨a, b, hr, hb, ?_, hkb, hcl, hnb, ?_, by rw [e3]; exact hhb, fun j hj => hf.grows j (g1 j hj), ?_⟩
    · intro e; subst e; exact hrb hr
    · by_cases hak : a = k
      · subst hak; rw [upd_self] at hm; exact hm
      · rw [upd_ne _ _ hak] at hm; exact hm
    · dsimp only at hv ⊢
      rw [e3, hv]

/-- What an affirmed transition does to the structure -/
theorem affirmTransition_tree {e : Env} {k : Key} {s t : State} (hs : Good s) (h : affirmTransition e k s = (.ok (), t)) :
    ∃ a b, (view s.store k).referrer = some a ∧ (view s.store k).transition = some b ∧ a ≠ b ∧ k ≠ b ∧ a ≠ k ∧
      ¬ ReflTransGen (treeOf (view s.store)).over k b ∧ k ∈ (view s.store a).referrals ∧ t.store.has b = true ∧
      (∀ j, s.store.has j = true → t.store.has j = true) ∧
      (∀ j, (view t.store j).referrer = if j = k then some b else (view s.store j).referrer) ∧
      (∀ j, (view t.store j).banished = (view s.store j).banished) ∧
      (∀ j, (view t.store j).referrals =
        if j = b then (view s.store b).referrals ++ [k] else
        if j = a then removeFast (removeFast (view s.store a).referrals k) k else (view s.store j).referrals) ∧
      (∀ j, (view t.store j).transition = if j = k then none else (view s.store j).transition) := by
  obtain ⟨a, b, hra, htb, hab, hkb, -, hnb, hka, hhb, hg, hv⟩ := affirmTransition_ok h
  have hak : a ≠ k := fun e => hs.irrefl (c := k) (by show (view s.store k).referrer = _; rw [hra, e])
  dsimp only at hv
  have refe : ∀ j, (view t.store j).referrer = if j = k then some b else (view s.store j).referrer := by
    intro j
    rw [hv, moveV_proj (π := Info.referrer) (fun _ _ _ _ => rfl)]
    by_cases hj : j = k
    · subst hj
      rw [if_pos rfl, upd_ne _ _ hkb, upd_ne _ _ (Ne.symm hak), upd_self]
    · rw [if_neg hj]
      by_cases hjb : j = b
      · subst hjb
        rw [upd_self]
        show (upd _ a _ j).referrer = _
        rw [upd_ne _ _ (Ne.symm hab), upd_ne _ _ hj]
      · rw [upd_ne _ _ hjb]
        by_cases hja : j = a
        · subst hja; rw [upd_self]
          show (upd _ k _ j).referrer = _
          rw [upd_ne _ _ hj]
        · rw [upd_ne _ _ hja, upd_ne _ _ hj]
  have bane : ∀ j, (view t.store j).banished = (view s.store j).banished := by
    intro j
    rw [hv, moveV_proj (π := Info.banished) (fun _ _ _ _ => rfl)]
    by_cases hj : j = k
    · subst hj
      rw [upd_ne _ _ hkb, upd_ne _ _ (Ne.symm hak), upd_self]
    · by_cases hjb : j = b
      · subst hjb
        rw [upd_self]
        show (upd _ a _ j).banished = _
        rw [upd_ne _ _ (Ne.symm hab), upd_ne _ _ hj]
      · rw [upd_ne _ _ hjb]
        by_cases hja : j = a
        · subst hja; rw [upd_self]
          show (upd _ k _ j).banished = _
          rw [upd_ne _ _ hj]
        · rw [upd_ne _ _ hja, upd_ne _ _ hj]
  have kide : ∀ j, (view t.store j).referrals =
      if j = b then (view s.store b).referrals ++ [k] else
      if j = a then removeFast (removeFast (view s.store a).referrals k) k else (view s.store j).referrals := by
    intro j
    rw [hv, moveV_proj (π := Info.referrals) (fun _ _ _ _ => rfl)]
    by_cases hjb : j = b
    · subst hjb
      rw [upd_self, if_pos rfl]
      show (upd _ a _ j).referrals ++ [k] = _
      rw [upd_ne _ _ (Ne.symm hab), upd_ne _ _ (Ne.symm hkb)]
    · rw [upd_ne _ _ hjb, if_neg hjb]
      by_cases hja : j = a
      · subst hja; rw [upd_self, if_pos rfl]
        show removeFast (removeFast (upd _ k _ j).referrals k) k = _
        rw [upd_ne _ _ hak]
      · rw [upd_ne _ _ hja, if_neg hja]
        by_cases hj : j = k
        · subst hj; rw [upd_self]
        · rw [upd_ne _ _ hj]
  have trae : ∀ j, (view t.store j).transition = if j = k then none else (view s.store j).transition := by
    intro j
    rw [hv, moveV_proj (π := Info.transition) (fun _ _ _ _ => rfl)]
    by_cases hj : j = k
    · subst hj
      rw [if_pos rfl, upd_ne _ _ hkb, upd_ne _ _ (Ne.symm hak), upd_self]
    · rw [if_neg hj]
      by_cases hjb : j = b
      · subst hjb
        rw [upd_self]
        show (upd _ a _ j).transition = _
        rw [upd_ne _ _ (Ne.symm hab), upd_ne _ _ hj]
      · rw [upd_ne _ _ hjb]
        by_cases hja : j = a
        · subst hja; rw [upd_self]
          show (upd _ k _ j).transition = _
          rw [upd_ne _ _ hj]
        · rw [upd_ne _ _ hja, upd_ne _ _ hj]
  exact ⟨a, b, hra, htb, hab, hkb, hak, hnb, hka, hhb, hg, refe, bane, kide, trae⟩

theorem affirmTransition_good {e : Env} {k : Key} {s t : State} (hs : Good s) (h : affirmTransition e k s = (.ok (), t)) : Good t := by
  obtain ⟨a, b, hra, htb, hab, hkb, hak, hnb, hka, hhb, hg, refe, bane, kide, -⟩ := affirmTransition_tree hs h
  have hn : (view s.store a).referrals.Nodup := hs.nodup a
  refine Forest.move (s := k) (a := a) (b := b) hs hnb hab hka refe ?_ ?_ ?_ bane hg hhb
  · show (view t.store a).referrals.Nodup ∧ ∀ x, x ∈ (view t.store a).referrals ↔ x ∈ (view s.store a).referrals ∧ x ≠ k
    rw [kide, if_neg hab, if_pos rfl]
    refine ⟨removeFast_nodup (removeFast_nodup hn), fun x => ?_⟩
    rw [mem_removeFast (removeFast_nodup hn), mem_removeFast hn]
    tauto
  · show (view t.store b).referrals = _
    rw [kide, if_pos rfl]; rfl
  · intro j hja hjb
    show (view t.store j).referrals = _
    rw [kide, if_neg hjb, if_neg hja]; rfl

theorem resolveTransition_good {e : Env} {signer k : Key} {ok : Bool} {s t : State} (hs : Good s)
    (h : resolveTransition e signer k ok s = (.ok (), t)) : Good t := by
  unfold resolveTransition at h
  rw [M.get_bind_ok, M.errIf_bind_ok] at h
  obtain ⟨-, h⟩ := h
  split at h
  · exact affirmTransition_good hs h
  · have := cancelTransition_good (k := k) hs
    rw [h] at this; exact this

end Verif.Referral
