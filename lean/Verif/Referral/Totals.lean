import Verif.Referral.Sums2

/-! C24: every step keeps the totals consistent. -/
namespace Verif.Referral
open Relation

/-- The structure is consistent and the totals up to level `top` fit together. -/
def Tally (top : Nat) (s : State) : Prop := Neat top (fun k => s.store.has k = true) (view s.store)

theorem Tally.good {top : Nat} {s : State} (h : Tally top s) : Good s := h.forest

theorem bunch_tally {top : Nat} {e : Env} {m : Act Bool} (hm : Framed m) {s : State} (hs : Tally top s) (hg : Good (bunch e m s).2)
    (h : ∀ t, m s.fresh = (.ok true, t) → (∀ k, s.store.has k = true → t.work.has k = true) →
      Forest (treeOf (view t.work)) (fun k => t.work.has k = true) → Neat top (fun k => t.work.has k = true) (view t.work)) :
    Tally top (bunch e m s).2 := by
  obtain ⟨ho, hc⟩ := bunch_cases (e := e) hm s
  rcases hc with hc | ⟨t, ht, hc⟩
  · unfold Tally; rw [hc]; exact hs
  · unfold Tally; rw [hc]
    unfold Good at hg
    rw [hc] at hg
    exact h t ht (hm.of ht).grows hg

/-- Only the structure and the totals matter. -/
theorem Neat.same {top : Nat} {P P' : Key → Prop} {I J : View} (h : Neat top P I) (hf : Forest (treeOf J) P')
    (h1 : ∀ k, vital (J k) = vital (I k)) (h2 : ∀ k, (J k).referrals = (I k).referrals) (h3 : ∀ k, (J k).tot = (I k).tot) : Neat top P' J := by
  refine ⟨hf, h.tidy.of_vital h1 ?_, ?_⟩
  · intro a ha; rw [h2]; exact h.tidy.leaf a ha
  · intro a w l hl
    rw [defect_congr h2 h3]; exact h.sums a w l hl

theorem closed_of_banished {v : Info} {now month : Int} (h1 : v.banished = true) (h2 : v.referrer ≠ none) : v.closed now month = true := by
  unfold Info.closed
  rw [h1]
  cases h : v.referrer with
  | none => exact absurd h h2
  | some p => rfl

theorem Tidy.open {I : View} (h : Tidy I) {k : Key} {now month : Int} (hc : (I k).closed now month = false) : (I k).banished = false := by
  cases hb : (I k).banished with
  | false => rfl
  | true => rw [closed_of_banished hb (h.below k hb)] at hc; cases hc

theorem closed_view (st : KV Nat Info) (k : Key) (now month : Int) : (view st k).closed now month = (infoOf st k).closed now month := rfl

theorem Forest.unlisted {I : View} {P : Key → Prop} (h : Forest (treeOf I) P) {k : Key} (hk : (I k).banished = true ∨ (I k).referrer = none) (a : Key) :
    k ∉ (I a).referrals := by
  intro hm
  have := (h.mem a k).1 hm
  have h1 : (I k).referrer = some a := this.1
  have h2 : (I k).banished = false := this.2
  rcases hk with hk | hk
  · rw [hk] at h2; cases h2
  · rw [hk] at h1; cases h1

theorem appendChild_tally {top : Nat} (htop : top ≤ 10) {e : Env} {p c : Key} {skip setc : Bool} {s : State} (hs : Tally top s) (hne : c ≠ p)
    (hp : skip = true → (infoOf s.store p).banished = false) : Tally top (appendChild e p c skip setc s).2 := by
  have hg := appendChild_good (e := e) (skip := skip) (setc := setc) hs.good hne
  unfold appendChild at hg ⊢
  rw [M.bind_ok (M.get_apply s)] at hg ⊢
  cases hh : s.store.has c with
  | true => exact hs
  | false =>
    rw [hh] at hg
    rw [M.bind_ok (show M.errIf false s = (.ok (), s) from rfl)] at hg ⊢
    refine bunch_tally (.appendBody _ _ _ _) hs hg fun t ht _ hf => ?_
    obtain ⟨-, -, -, hcl, hv⟩ := appendBody_ok ht
    have hv0 : view s.fresh.work = view s.store := rfl
    rw [hv0] at hv hcl
    have hci : view s.store c = core {} := by unfold view; rw [infoOf_of_not_has hh]
    have hfi : (freshInfo s.fresh p c setc).referrer = some p ∧ (freshInfo s.fresh p c setc).referrals = [] ∧
        (freshInfo s.fresh p c setc).banished = false ∧ (freshInfo s.fresh p c setc).active = false ∧
        ∀ x l, (freshInfo s.fresh p c setc).tot x l = if l = 0 then money (s.fresh.balance c) (s.fresh.delegated c) x else 0 := by
      unfold freshInfo
      cases setc <;> refine ⟨rfl, rfl, rfl, rfl, fun x l => ?_⟩ <;> cases x <;> rfl
    have hpb : (upd (view s.store) c (freshInfo s.fresh p c setc) p).banished = false := by
      rw [upd_ne _ _ (Ne.symm hne)]
      cases skip with
      | true => exact hp rfl
      | false =>
        have := hcl rfl
        rw [upd_ne _ _ (Ne.symm hne)] at this
        exact hs.tidy.open this
    rw [hv] at hf ⊢
    refine Neat.attach htop hs ?_ (hs.forest.unlisted (.inr (by rw [hci]; rfl))) (by rw [hci]; rfl) hfi.2.1 hfi.2.2.1 hfi.2.2.2.1
      (fun x l _ => hfi.2.2.2.2 x l) (fun x l _ _ => by rw [hci]; rfl) hf
    intro q hq
    injection hq with hq; subst hq; exact hpb

theorem compress_tally {top : Nat} {e : Env} {k : Key} {s : State} (hs : Tally top s)
    (htop : top ≤ 9 ∨ (top ≤ 10 ∧ ∀ i q, i ≤ 8 → lineV (view s.store) i (infoOf s.store k).referrer = some q →
      ∀ w, (infoOf s.store k).tot w (10 - i) = (infoOf s.store k).tot w (9 - i)))
    (hc : (infoOf s.store k).compressionAt ≠ none) : Tally top (compress e k s).2 := by
  refine bunch_tally (.compressBody _) hs (compress_good hs.good) fun t ht _ hf => ?_
  obtain ⟨-, p, x, hp, hv⟩ := compressBody_ok ht
  have hv0 : view s.fresh.work = view s.store := rfl
  rw [hv0] at hv hp
  rw [hv] at hf ⊢
  have hr : (infoOf s.store k).referrer = some p := hp
  rw [hr] at htop
  refine Neat.compress hs htop hp ?_ ?_ hf
  · cases hb : (view s.store k).banished with
    | false => rfl
    | true => exact absurd (hs.tidy.done k hb) hc
  · cases hb : (view s.store k).active with
    | false => rfl
    | true => exact absurd (hs.tidy.idle k hb) hc

theorem performCompression_tally {top : Nat} {e : Env} {k : Key} {s : State} (hs : Tally top s)
    (htop : top ≤ 9 ∨ (top ≤ 10 ∧ ∀ i q, i ≤ 8 → lineV (view s.store) i (infoOf s.store k).referrer = some q →
      ∀ w, (infoOf s.store k).tot w (10 - i) = (infoOf s.store k).tot w (9 - i))) :
    Tally top (performCompression e k s).2 := by
  unfold performCompression
  rw [M.bind_ok (M.get_apply s)]
  split
  · exact hs
  · rename_i h
    refine compress_tally hs htop ?_
    intro hn; rw [hn] at h; exact h rfl

/-- The walk does not pass through `k`. -/
theorem climbV_comm {g : Nat → Info → Info} (hg : ∀ l v, (g l v).referrer = v.referrer) {k : Key} {w : Info} :
    ∀ (n m : Nat) (p : Option Key) (I : View), (∀ q, p = some q → ¬ ReflTransGen (treeOf I).over k q) →
      climbV g n m p (upd I k w) = upd (climbV g n m p I) k w := by
  intro n
  induction n with
  | zero => intros; rfl
  | succ n ih =>
    intro m p I h
    cases p with
    | none => rw [climbV_none, climbV_none]
    | some q =>
      have hq := h q rfl
      have hne : q ≠ k := by rintro rfl; exact hq .refl
      show climbV g n (m + 1) (upd I k w q).referrer (upd (upd I k w) q (g m (upd I k w q))) =
        upd (climbV g n (m + 1) (I q).referrer (upd I q (g m (I q)))) k w
      rw [upd_ne _ _ hne]
      have e : upd (upd I k w) q (g m (I q)) = upd (upd I q (g m (I q))) k w := by
        funext j
        by_cases hj : j = q
        · subst hj; rw [upd_self, upd_ne _ _ hne, upd_self]
        · rw [upd_ne _ _ hj]
          by_cases hjk : j = k
          · subst hjk; rw [upd_self, upd_self]
          · rw [upd_ne _ _ hjk, upd_ne _ _ hjk, upd_ne _ _ hj]
      rw [e]
      refine ih _ _ _ fun x hx hr => hq ?_
      have ho : (treeOf (upd I q (g m (I q)))).over = (treeOf I).over := by
        funext a b
        show ((upd I q (g m (I q)) b).referrer = some a) = ((I b).referrer = some a)
        by_cases hb : b = q
        · subst hb; rw [upd_self, hg]
        · rw [upd_ne _ _ hb]
      rw [ho] at hr
      exact hr.tail hx

theorem setOwn_tot (v : Info) (c d : Int) (x : What) (l : Nat) :
    (setOwn v c d).tot x l = v.tot x l + (if l = 0 then money (c - v.tot .coins 0) (d - v.tot .delegated 0) x else 0) := by
  unfold setOwn
  by_cases hl : l = 0
  · subst hl; cases x <;> simp [money]
  · simp [hl]

theorem banished_tot {top : Nat} {P : Key → Prop} {I : View} (h : Neat top P I) {k : Key} (hb : (I k).banished = true) (x : What) (l : Nat)
    (hl : l ≤ top) : (I k).tot x l = if l = 0 then money ((I k).tot .coins 0) ((I k).tot .delegated 0) x else 0 := by
  by_cases hl0 : l = 0
  · subst hl0
    rw [if_pos rfl]
    cases x with
    | coins => rfl
    | delegated => rfl
    | active => rw [h.tidy.own k, h.tidy.asleep k hb]; rfl
  · rw [if_neg hl0]
    exact h.sums.leaf (h.tidy.leaf k hb) (by omega) hl

theorem no_loop {I : View} {P : Key → Prop} (h : Forest (treeOf I) P) {p k : Key} (hp : TransGen (treeOf I).over p k) :
    ¬ ReflTransGen (treeOf I).over k p := by
  intro hr
  have h1 : TransGen (treeOf I).over k k := TransGen.trans_right hr hp
  have : ∀ x, Acc (TransGen (treeOf I).over) x → x = k → False := by
    intro x hx
    induction hx with
    | intro x _ ih => intro hxc; subst hxc; exact ih x h1 rfl
  exact this k (h.acc k).transGen rfl

/-- A banished account comes back. -/
theorem Neat.back {top : Nat} (htop : top ≤ 10) {P P' : Key → Prop} {I : View} (h : Neat top P I) {k : Key} {parent : Option Key} {w : Info}
    (hb : (I k).banished = true) (htr : ∀ p, parent = some p → TransGen (treeOf I).over p k)
    (hop : ∀ p, parent = some p → (I p).banished = false)
    (w1 : w.referrer = parent) (w2 : w.referrals = (I k).referrals) (w3 : w.banished = false) (w4 : w.active = (I k).active)
    (w5 : w.tot = (I k).tot) (hP : ∀ k, P k → P' k) :
    Neat top P' (climbV (bump (money ((I k).tot .coins 0) ((I k).tot .delegated 0)) (addKid k)) 10 1 parent (upd I k w)) := by
  have hf := back_forest (d := money ((I k).tot .coins 0) ((I k).tot .delegated 0)) (w := w) (parent := parent) h.forest hb htr w1 w2 w3 rfl hP
  refine Neat.attach htop h ?_ (h.forest.unlisted (.inl hb)) (h.tidy.leaf k hb) (by rw [w2, h.tidy.leaf k hb]) w3
    (by rw [w4, h.tidy.asleep k hb]) (fun x l hl => by rw [w5]; exact banished_tot h hb x l hl)
    (fun x l h1 hl => h.sums.leaf (h.tidy.leaf k hb) h1 hl) hf
  intro q hq
  by_cases hqk : q = k
  · subst hqk; rw [upd_self, w3]
  · rw [upd_ne _ _ hqk]; exact hop q hq

theorem onBalanceChanged_tally {top : Nat} (htop : top ≤ 10) {e : Env} {k : Key} {s : State} (hs : Tally top s) :
    Tally top (onBalanceChanged e k s).2 := by
  refine bunch_tally (.balanceBody _) hs (onBalanceChanged_good hs.good) fun t ht hgr hf => ?_
  obtain ⟨h, -⟩ := balanceBody_ok ht
  have hv0 : view s.fresh.work = view s.store := rfl
  cases h with
  | nothing h _ => subst h; exact hs
  | out b hb hv =>
    rw [hv0] at hv hb
    rw [hv] at hf ⊢
    refine ⟨hf, ?_, ?_⟩
    · refine hs.tidy.upd (fun _ => ⟨hs.tidy.leaf k hb, hs.tidy.asleep k hb, hs.tidy.done k hb, hs.tidy.below k hb⟩)
        (hs.tidy.idle k) (hs.tidy.own k)
    · intro a w l hl
      rw [defect_upd (v := setOwn { view s.store k with banishmentAt := b } (s.fresh.balance k) (s.fresh.delegated k)) hs.forest.nodup rfl,
        hs.sums a w l hl, if_neg (hs.forest.unlisted (.inl hb) a), setOwn_tot]
      simp
  | stay b hb hv =>
    rw [hv0] at hv hb
    rw [hv] at hf ⊢
    exact Neat.own htop hs hb .id (fun _ => rfl) rfl rfl hb (hs.tidy.idle k) (hs.tidy.own k) (fun x l => setOwn_tot _ _ _ x l) hf
  | back parent b n hb ha ho hv =>
    rw [hv0] at hv hb ha
    have htr : ∀ p, parent = some p → TransGen (treeOf (view s.store)).over p k := by
      intro p hp
      rw [hp] at ho
      exact (openAncestor_trans ho).1
    have hop : ∀ p, parent = some p → (view s.store p).banished = false := by
      intro p hp
      rw [hp] at ho
      exact hs.tidy.open (openAncestor_trans ho).2
    have base := Neat.back htop hs (w := { view s.store k with referrer := parent, banished := false }) hb htr hop rfl rfl rfl rfl rfl hgr
    have comm : climbV (bump (money ((view s.store k).tot .coins 0) ((view s.store k).tot .delegated 0)) (addKid k)) 10 1 parent
        (upd (view s.store) k { view s.store k with referrer := parent, banished := false }) =
      upd (climbV (bump (money ((view s.store k).tot .coins 0) ((view s.store k).tot .delegated 0)) (addKid k)) 10 1 parent (view s.store)) k
        { view s.store k with referrer := parent, banished := false } :=
      climbV_comm (g := bump _ (addKid k)) (bump_all (fun _ _ => rfl) (fun _ => rfl)) 10 1 parent (view s.store)
        fun q hq => no_loop hs.forest (htr q hq)
    rw [comm] at base
    generalize hJ : climbV (bump (money ((view s.store k).tot .coins 0) ((view s.store k).tot .delegated 0)) (addKid k)) 10 1 parent
      (view s.store) = J at hv base
    have ek : upd J k { view s.store k with referrer := parent, banished := false } k =
        { view s.store k with referrer := parent, banished := false } := upd_self _ _ _
    rw [hv] at hf ⊢
    have eu : ∀ w', upd J k w' = upd (upd J k { view s.store k with referrer := parent, banished := false }) k w' :=
      fun w' => (upd_upd _ _ _ _).symm
    rw [eu] at hf ⊢
    have er : parent = (upd J k { view s.store k with referrer := parent, banished := false } k).referrer := by rw [ek]
    have key := Neat.own (k := k) htop base (P' := fun k => t.work.has k = true) (by rw [ek])
      (w := setOwn { view s.store k with banishmentAt := b, referrer := parent, banished := false } (s.fresh.balance k) (s.fresh.delegated k))
      (d := money (s.fresh.balance k - (view s.store k).tot .coins 0) (s.fresh.delegated k - (view s.store k).tot .delegated 0))
      .id (fun _ => rfl) (by rw [ek]; rfl) (by rw [ek]; rfl) rfl (hs.tidy.idle k) (hs.tidy.own k) (fun x l => by rw [ek]; exact setOwn_tot _ _ _ x l)
    rw [← er] at key
    exact key hf

theorem comeBack_tally {top : Nat} (htop : top ≤ 10) {e : Env} {k : Key} {s : State} (hs : Tally top s) (hb : (infoOf s.store k).banished = true) :
    Tally top (comeBack e k s).2 := by
  refine bunch_tally (.comeBackBody _) hs (comeBack_good hs.good hb) fun t ht hgr hf => ?_
  obtain ⟨-, parent, n, ho, hv⟩ := comeBackBody_ok ht
  have hv0 : view s.fresh.work = view s.store := rfl
  rw [hv0] at hv
  rw [hv] at hf ⊢
  refine Neat.back htop hs (parent := parent)
    (w := { view s.store k with referrer := parent, banished := false, banishmentAt := none, compressionAt := none })
    hb ?_ ?_ rfl rfl rfl rfl rfl hgr
  · intro p hp
    rw [hp] at ho
    exact (openAncestor_trans ho).1
  · intro p hp
    rw [hp] at ho
    exact hs.tidy.open (openAncestor_trans ho).2

theorem setActive_tally {top : Nat} (htop : top ≤ 10) {e : Env} {k : Key} {value check : Bool} {s : State} (hs : Tally top s)
    (hb : value = true → (infoOf s.store k).banished = false) : Tally top (setActive e k value check s).2 := by
  refine bunch_tally (.activeBody _ _ _) hs (setActive_good hs.good) fun t ht _ hf => ?_
  rcases activeBody_ok ht with ⟨h, -, -⟩ | ⟨-, ha, -, x, hv⟩
  · cases h
  have hv0 : view s.fresh.work = view s.store := rfl
  rw [hv0] at hv ha
  rw [hv] at hf ⊢
  have hkb : (view s.store k).banished = false := by
    cases value with
    | true => exact hb rfl
    | false =>
      cases hbb : (view s.store k).banished with
      | false => rfl
      | true => rw [hs.tidy.asleep k hbb] at ha; cases ha
  have htot : ∀ y l, (activated (view s.store k) value (if value then none else some (s.fresh.now + s.fresh.compressionPeriod)) x).tot y l =
      (view s.store k).tot y l + (if l = 0 then people value y else 0) := by
    intro y l
    show (if l = 0 then _ else _) = _
    by_cases hl : l = 0
    · rw [if_pos hl, if_pos hl]
    · rw [if_neg hl, if_neg hl]; simp
  refine Neat.own htop hs hkb (.relist value k) (relist_referrals value k) rfl rfl hkb ?_ ?_ htot hf
  · intro hv
    have : value = true := hv
    rw [this]; rfl
  · rw [htot, if_pos rfl, hs.tidy.own k, ha]
    cases value <;> rfl

theorem banish_tally {top : Nat} (htop : top ≤ 10) {e : Env} {k : Key} {s : State} (hs : Tally top s) (hk : (infoOf s.store k).referrals = []) :
    Tally top (banish e k s).2 := by
  have key : Tally top (bunch e (banishBody k) s).2 := by
    refine bunch_tally (.banishBody _) hs (bunch_banish_good hs.good) fun t ht _ hf => ?_
    obtain ⟨-, p, hp, ha, hb, -, hv⟩ := banishBody_ok ht
    have hv0 : view s.fresh.work = view s.store := rfl
    rw [hv0] at hv hp ha hb
    rw [hv] at hf ⊢
    exact Neat.detach htop hs (w := { view s.store k with banished := true, compressionAt := none, banishmentAt := none })
      hp hb ha hk rfl rfl rfl rfl rfl hf
  unfold banish
  rcases hr : bunch e (banishBody k) s with ⟨r, t⟩
  rw [hr] at key
  cases r with
  | ok a =>
    rw [M.bind_ok hr]
    cases e.call .banished k <;> exact key
  | err => rw [M.bind_err hr]; exact key
  | panic => rw [M.bind_panic hr]; exact key

theorem performDowngrade_tally {top : Nat} {e : Env} {k : Key} {s : State} (hs : Tally top s) : Tally top (performDowngrade e k s).2 := by
  have hg := performDowngrade_good (e := e) (k := k) hs.good
  obtain ⟨-, hv⟩ := performDowngrade_store (e := e) (k := k) s
  unfold Good at hg
  unfold Tally
  rw [hv] at hg ⊢
  exact ⟨hg, hs.tidy, hs.sums⟩

theorem setTransition_tally {top : Nat} {k : Key} {x : Option Key} {s : State} (hs : Tally top s) :
    Tally top (setInfo k { infoOf s.store k with transition := x } s).2 := by
  have hg := setTransition_good (k := k) (x := x) hs.good
  have e : (setInfo k { infoOf s.store k with transition := x } s).2.store = s.store.set k { infoOf s.store k with transition := x } := rfl
  refine Neat.same hs hg ?_ ?_ ?_ <;>
  · intro j
    rw [e, view_set]
    by_cases hj : j = k
    · subst hj; rw [upd_self]; rfl
    · rw [upd_ne _ _ hj]

theorem cancelTransition_tally {top : Nat} {k : Key} {s : State} (hs : Tally top s) : Tally top (cancelTransition k s).2 := by
  unfold cancelTransition
  rw [M.bind_ok (M.get_apply s)]
  exact setTransition_tally hs

theorem setPurse_tally {top : Nat} (htop : top ≤ 10) {e : Env} {a : Addr} {p : Purse} {s : State} (hs : Tally top s) :
    Tally top (setPurse e a p s).2 := by
  unfold setPurse
  rw [M.bind_ok (M.modify_apply _ s)]
  exact onBalanceChanged_tally htop hs

theorem pay_tally {top : Nat} (htop : top ≤ 10) {e : Env} {a : Addr} {x : Int} {s : State} (hs : Tally top s) : Tally top (pay e a x s).2 := by
  unfold pay
  rw [M.bind_ok (M.get_apply s)]
  generalize decide ((s.purse a).main < x) = c
  cases c with
  | true => exact hs
  | false =>
    rw [M.bind_ok (show M.errIf false s = (.ok (), s) from rfl)]
    have h := setPurse_tally htop (e := e) (a := a) (p := { s.purse a with main := (s.purse a).main - x }) hs
    rcases hr : setPurse e a { s.purse a with main := (s.purse a).main - x } s with ⟨r, t⟩
    rw [hr] at h
    cases r with
    | ok a =>
      rw [M.bind_ok hr, M.bind_ok (M.get_apply t)]
      exact setPurse_tally htop h
    | err => rw [M.bind_err hr]; exact h
    | panic => rw [M.bind_panic hr]; exact h

theorem requestTransition_tally {top : Nat} (htop : top ≤ 10) {e : Env} {k : Key} {x : Option Key} {s t : State} (hs : Tally top s)
    (h : requestTransition e k x s = (.ok (), t)) : Tally top t := by
  obtain ⟨s1, h1, -, h3⟩ := requestTransition_ok h
  have g1 : Tally top s1 := by
    rcases h1 with rfl | h1
    · exact hs
    · have := pay_tally htop (e := e) (a := addrOf k) (x := s.price) hs
      rw [h1] at this; exact this
  have := setTransition_tally (k := k) (x := x) g1
  unfold Tally at this ⊢
  rw [h3]
  exact this

theorem affirmTransition_tally {top : Nat} (htop : top ≤ 10) {e : Env} {k : Key} {s t : State} (hs : Tally top s)
    (h : affirmTransition e k s = (.ok (), t)) : Tally top t := by
  have hg := affirmTransition_good hs.good h
  obtain ⟨a, b, hra, htb, hab, hkb, hcl, hnb, hka, hhb, -, hv⟩ := affirmTransition_ok h
  unfold Good at hg
  unfold Tally
  dsimp only at hv
  rw [hv] at hg ⊢
  exact Neat.move htop hs (r := infoOf s.store k) (w := { view s.store k with referrer := some b, transition := none })
    hra hka hab hkb (hs.tidy.open hcl) rfl rfl rfl rfl rfl hg

theorem resolveTransition_tally {top : Nat} (htop : top ≤ 10) {e : Env} {signer k : Key} {ok : Bool} {s t : State} (hs : Tally top s)
    (h : resolveTransition e signer k ok s = (.ok (), t)) : Tally top t := by
  unfold resolveTransition at h
  rw [M.get_bind_ok, M.errIf_bind_ok] at h
  obtain ⟨-, h⟩ := h
  split at h
  · exact affirmTransition_tally htop hs h
  · have := cancelTransition_tally (k := k) hs
    rw [h] at this; exact this

end Verif.Referral
