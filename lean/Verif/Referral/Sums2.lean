import Verif.Referral.Sums

/-! Totals after compression and after transitions -/
namespace Verif.Referral
open Relation

theorem Forest.no_cycle {T : Tree} {P : Key → Prop} (h : Forest T P) {k : Key} (hk : TransGen T.over k k) : False := by
  have : ∀ x, Acc (TransGen T.over) x → x = k → False := by
    intro x hx
    induction hx with
    | intro x _ ih => intro hxc; subst hxc; exact ih x hk rfl
  exact this k (h.acc k).transGen rfl

/-! ### Compression -/

def takeOver (old v : Info) : Info :=
  { v with referrals := v.referrals ++ old.referrals, activeReferrals := mergeSorted v.activeReferrals old.activeReferrals }

theorem squeeze_split (old : Info) (n : Nat) (p : Key) (I : View) :
    climbV (squeeze old) (n + 1) 1 (some p) I = climbV (squeezed old.tot) (n + 1) 1 (some p) (upd I p (takeOver old (I p))) :=
  climbV_split (g := squeeze old) (g' := squeezed old.tot) (L := takeOver old) (by intro v; unfold squeeze; rw [if_pos rfl]; rfl)
    (by intro l hl; funext v; unfold squeeze; rw [if_neg (by omega)]) (fun _ => rfl) n p I

theorem vital_squeezed (x : What → Nat → Int) (l : Nat) (v : Info) (hl : 1 ≤ l) : vital (squeezed x l v) = vital v := by
  have e : (squeezed x l v).tot .active 0 = v.tot .active 0 := by
    show (if 0 = l then _ else if l < 0 ∧ _ then _ else _) = _
    rw [if_neg (by omega), if_neg (by omega)]
  unfold vital
  rw [e]; rfl

theorem Neat.compress {top : Nat} {P P' : Key → Prop} {I : View} (h : Neat top P I) {k p : Key} {x : Option Int}
    (htop : top ≤ 9 ∨ (top ≤ 10 ∧ ∀ i q, i ≤ 8 → lineV I i (some p) = some q → ∀ w, (I k).tot w (10 - i) = (I k).tot w (9 - i)))
    (hp : (I k).referrer = some p) (hb : (I k).banished = false) (ha : (I k).active = false)
    (hf : Forest (treeOf (climbV (squeeze (I k)) 10 1 (some p) (redirect (I k).referrals (some p) (upd I k (compressed (I k) x))))) P') :
    Neat top P' (climbV (squeeze (I k)) 10 1 (some p) (redirect (I k).referrals (some p) (upd I k (compressed (I k) x)))) := by
  have hne : p ≠ k := fun e => h.forest.irrefl (c := k) (by show (I k).referrer = _; rw [hp, e])
  have hpb : (I p).banished = false := h.forest.parent_in h.tidy.leaf hb hp
  have hkk : k ∉ (I k).referrals := fun hm => h.forest.irrefl ((h.forest.mem k k).1 hm).1
  rw [squeeze_split] at hf ⊢
  -- the view before the walk
  have hI1 : Tidy (redirect (I k).referrals (some p) (upd I k (compressed (I k) x))) := by
    have h0 : Tidy (upd I k (compressed (I k) x)) := h.tidy.upd (fun e => by
        have : (I k).banished = true := e
        rw [hb] at this; cases this) (fun _ => rfl) (by
        show (if What.active ≠ What.active ∧ 0 = 0 then (I k).tot .active 0 else (0 : Int)) = if (I k).active then 1 else 0
        rw [ha]; simp)
    refine ⟨?_, ?_, ?_, ?_, ?_, ?_⟩ <;> intro a <;> unfold redirect <;> split
    · exact h0.leaf a
    · exact h0.leaf a
    · exact h0.asleep a
    · exact h0.asleep a
    · exact h0.done a
    · exact h0.done a
    · intro _; simp
    · exact h0.below a
    · exact h0.idle a
    · exact h0.idle a
    · exact h0.own a
    · exact h0.own a
  generalize hJ : redirect (I k).referrals (some p) (upd I k (compressed (I k) x)) = I1 at hf hI1 ⊢
  have r1 : ∀ a, (I1 a).referrals = if a = k then [] else (I a).referrals := by
    intro a
    rw [← hJ]
    have : ∀ K : View, (redirect (I k).referrals (some p) K a).referrals = (K a).referrals := by
      intro K; unfold redirect; split <;> rfl
    rw [this]
    by_cases hak : a = k
    · subst hak; rw [upd_self, if_pos rfl]; rfl
    · rw [upd_ne _ _ hak, if_neg hak]
  have b1 : ∀ a, (I1 a).banished = (I a).banished := by
    intro a
    rw [← hJ]
    have : ∀ K : View, (redirect (I k).referrals (some p) K a).banished = (K a).banished := by
      intro K; unfold redirect; split <;> rfl
    rw [this]
    by_cases hak : a = k
    · subst hak; rw [upd_self]; rfl
    · rw [upd_ne _ _ hak]
  have t1 : ∀ a, (I1 a).tot = if a = k then (compressed (I k) x).tot else (I a).tot := by
    intro a
    rw [← hJ]
    have : ∀ K : View, (redirect (I k).referrals (some p) K a).tot = (K a).tot := by
      intro K; unfold redirect; split <;> rfl
    rw [this]
    by_cases hak : a = k
    · subst hak; rw [upd_self, if_pos rfl]
    · rw [upd_ne _ _ hak, if_neg hak]
  have hI2 : Tidy (upd I1 p (takeOver (I k) (I1 p))) := by
    refine hI1.of_vital ?_ ?_
    · intro a
      by_cases hap : a = p
      · subst hap; rw [upd_self]; rfl
      · rw [upd_ne _ _ hap]
    · intro a hba
      have : a ≠ p := by rintro rfl; rw [b1, hpb] at hba; cases hba
      rw [upd_ne _ _ this]; exact hI1.leaf a hba
  have htree : treeOf (climbV (squeezed (I k).tot) 10 1 (some p) (upd I1 p (takeOver (I k) (I1 p)))) =
      treeOf (upd I1 p (takeOver (I k) (I1 p))) := by
    unfold treeOf
    simp only [Tree.mk.injEq]
    refine ⟨?_, ?_, ?_⟩ <;> funext q
    · exact climbV_all (π := Info.referrer) (g := squeezed _) (fun _ _ => rfl) _ _ _ _ _
    · exact climbV_all (π := Info.referrals) (g := squeezed _) (fun _ _ => rfl) _ _ _ _ _
    · exact climbV_all (π := Info.banished) (g := squeezed _) (fun _ _ => rfl) _ _ _ _ _
  have hf2 : Forest (treeOf (upd I1 p (takeOver (I k) (I1 p)))) P' := by rw [← htree]; exact hf
  have h10 : top ≤ 10 := by omega
  have walk : ∃ g, Adds top (squeezeZ (I k).tot) g ∧ climbV (squeezed (I k).tot) 10 1 (some p) (upd I1 p (takeOver (I k) (I1 p))) =
      climbV g 10 1 (some p) (upd I1 p (takeOver (I k) (I1 p))) := by
    rcases htop with htop | ⟨-, hx⟩
    · exact ⟨_, Adds.squeezed htop _, rfl⟩
    · refine ⟨_, Adds.squeezedFull h10 _, climbV_reached (g := squeezed (I k).tot) (fun _ _ => rfl) _ _ _ _ fun i q hi hq => squeezed_full fun hm w => ?_⟩
      rw [show 11 - (1 + i) = 10 - i by omega, show 10 - (1 + i) = 9 - i by omega]
      refine hx i q (by omega) ?_ w
      rw [← hq]
      have hr : ∀ a, TransGen (treeOf I).over a k → (upd I1 p (takeOver (I k) (I1 p)) a).referrer = (I a).referrer := by
        intro a hak
        have e1 : (upd I1 p (takeOver (I k) (I1 p)) a).referrer = (I1 a).referrer := by
          by_cases hap : a = p
          · subst hap; rw [upd_self]; rfl
          · rw [upd_ne _ _ hap]
        have hac : a ∉ (I k).referrals := by
          intro hm
          have h1 : (treeOf I).over k a := ((h.forest.mem k a).1 hm).1
          exact h.forest.no_cycle (TransGen.head h1 hak)
        have hne : a ≠ k := by rintro rfl; exact h.forest.no_cycle hak
        rw [e1, ← hJ]
        unfold redirect
        rw [if_neg (by simpa using hac), upd_ne _ _ hne]
      have up : ∀ i q, TransGen (treeOf I).over q k → lineV I i (some q) = lineV (upd I1 p (takeOver (I k) (I1 p))) i (some q) := by
        intro i
        induction i with
        | zero => intro _ _; rfl
        | succ i ih =>
          intro q hq
          show lineV I i (I q).referrer = lineV _ i (_ : Info).referrer
          rw [hr q hq]
          cases hqr : (I q).referrer with
          | none => cases i <;> rfl
          | some a => exact ih a (TransGen.head hqr hq)
      exact up i p (.single hp)
  refine ⟨hf, ?_, ?_⟩
  · refine hI2.of_vital (fun a => climbV_from (m0 := 1) (vital_squeezed _) _ _ _ _ (by omega) a) ?_
    intro a hba
    rw [climbV_all (π := Info.referrals) (g := squeezed _) (fun _ _ => rfl)]
    exact hI2.leaf a hba
  · intro a w l hl
    obtain ⟨g, hg, heq⟩ := walk
    rw [heq, lift hg 10 1 (some p) _ hf2 hI2.leaf (by
      intro q hq
      injection hq with hq; subst hq
      rw [upd_self]
      show (I1 p).banished = false
      rw [b1]; exact hpb) (by omega) a w l hl]
    rw [defect_kids (I := I1) (p := p) (v := takeOver (I k) (I1 p)) rfl]
    have ct : ∀ j, j ≤ 9 → (compressed (I k) x).tot w j = if j = 0 then (I k).tot w 0 else 0 := by
      intro j _
      show (if w ≠ .active ∧ j = 0 then (I k).tot w j else 0) = _
      by_cases hj : j = 0
      · subst hj
        by_cases hw : w = .active
        · subst hw; rw [h.tidy.own k, ha]; simp
        · simp [hw]
      · simp [hj]
    by_cases hap : a = p
    · subst hap
      rw [if_pos rfl, if_pos ⟨rfl, by omega⟩]
      have e1 : (takeOver (I k) (I1 a)).referrals = (I a).referrals ++ (I k).referrals := by
        show (I1 a).referrals ++ _ = _
        rw [r1, if_neg hne]
      rw [e1, List.map_append, List.sum_append, t1, if_neg hne]
      have e2 : ((I a).referrals.map fun c => (I1 c).tot w l).sum = kidSum I a w l + ((compressed (I k) x).tot w l - (I k).tot w l) := by
        rw [sum_map_upd (l := (I a).referrals) (h.forest.nodup a) (fun c => (I c).tot w l) (fun c => (I1 c).tot w l) k (by
          intro c hc
          show (I1 c).tot w l = _
          rw [t1, if_neg hc])]
        have hm : k ∈ (I a).referrals := (h.forest.mem a k).2 ⟨hp, hb⟩
        rw [if_pos hm]
        show _ + ((I1 k).tot w l - _) = _
        rw [t1, if_pos rfl]
        rfl
      have e3 : ((I k).referrals.map fun c => (I1 c).tot w l).sum = kidSum I k w l := by
        refine sum_map_congr fun c hc => ?_
        have : c ≠ k := fun e => hkk (e ▸ hc)
        rw [t1, if_neg this]
      rw [e2, e3, ct l (by omega)]
      have s1 := h.sums a w l hl
      have s2 := h.sums k w l hl
      unfold defect at s1 s2
      unfold squeezeZ
      by_cases hl0 : l = 0
      · subst hl0
        simp only [if_true, zero_add] at s1 s2 ⊢
        linarith
      · rw [if_neg hl0, show l + 1 - 1 = l by omega, if_neg hl0]
        linarith
    · rw [if_neg hap, if_neg (by simp [Ne.symm hap]), Int.add_zero]
      unfold defect kidSum
      rw [r1, t1]
      by_cases hak : a = k
      · subst hak
        rw [if_pos rfl, if_pos rfl]
        simp [compressed]
      · rw [if_neg hak, if_neg hak]
        have : ((I a).referrals.map fun c => (I1 c).tot w l).sum = kidSum I a w l := by
          refine sum_map_congr fun c hc => ?_
          have : c ≠ k := by
            rintro rfl
            have : (I c).referrer = some a := ((h.forest.mem a c).1 hc).1
            rw [hp] at this
            injection this with this
            exact hap this.symm
          rw [t1, if_neg this]
        rw [this]
        exact h.sums a w l hl

/-! ### Transitions -/

def leaveList (k : Key) (r v : Info) : Info :=
  { v with
    referrals := removeFast (removeFast v.referrals k) k
    activeReferrals := if r.active then removeFast v.activeReferrals k else v.activeReferrals }

def joinList (k : Key) (r v : Info) : Info :=
  { v with
    referrals := v.referrals ++ [k]
    activeReferrals := if r.active then v.activeReferrals ++ [k] else v.activeReferrals }

theorem moveV_tree (x : What → Nat → Int) (n l : Nat) (a b : Option Key) (I : View) : treeOf (moveV x n l a b I) = treeOf I := by
  unfold treeOf
  simp only [Tree.mk.injEq]
  refine ⟨?_, ?_, ?_⟩ <;> funext q
  · exact moveV_proj (π := Info.referrer) (fun _ _ _ _ => rfl) _ _ _ _ _ _ _
  · exact moveV_proj (π := Info.referrals) (fun _ _ _ _ => rfl) _ _ _ _ _ _ _
  · exact moveV_proj (π := Info.banished) (fun _ _ _ _ => rfl) _ _ _ _ _ _ _

theorem addTo_vital {sign : Int} {x : What → Nat → Int} {l : Nat} (hl : 1 ≤ l) (a : Option Key) (I : View) (j : Key) :
    vital (addTo sign x l a I j) = vital (I j) := by
  cases a with
  | none => rfl
  | some a =>
    rw [addTo_some]
    by_cases hj : j = a
    · subst hj
      rw [upd_self]
      have e : ((I j).addTree sign x l).tot .active 0 = (I j).tot .active 0 := by
        show (if l ≤ 0 ∧ 0 ≤ 10 then _ else _) = _
        rw [if_neg (by omega)]
      unfold vital
      rw [e]; rfl
    · rw [upd_ne _ _ hj]

theorem moveV_vital (x : What → Nat → Int) : ∀ (n l : Nat) (a b : Option Key) (I : View) (j : Key), 1 ≤ l →
    vital (moveV x n l a b I j) = vital (I j) := by
  intro n
  induction n with
  | zero => intros; rfl
  | succ n ih =>
    intro l a b I j hl
    unfold moveV
    split
    · rfl
    · rw [ih _ _ _ _ _ (by omega), addTo_vital hl, addTo_vital hl]

theorem Neat.move {top : Nat} (htop : top ≤ 10) {P P' : Key → Prop} {I : View} (h : Neat top P I) {k a b : Key} {r w : Info}
    (ha : (I k).referrer = some a) (hka : k ∈ (I a).referrals) (hab : a ≠ b) (hkb : k ≠ b) (hb : (I b).banished = false)
    (w1 : w.referrer = some b) (w2 : w.referrals = (I k).referrals) (w3 : vital { w with referrer := (I k).referrer } = vital (I k))
    (w4 : w.tot = (I k).tot) (hr : r.tot = (I k).tot) :
    let I0 := upd I k w
    let I1 := upd I0 a (left k r (I0 a))
    let I2 := upd I1 b (joined k r (I1 b))
    ∀ _ : Forest (treeOf (moveV r.tot 9 2 (I0 a).referrer (I1 b).referrer I2)) P',
    Neat top P' (moveV r.tot 9 2 (I0 a).referrer (I1 b).referrer I2) := by
  intro I0 I1 I2 hf
  have hkab : (I k).banished = false := ((h.forest.mem a k).1 hka).2
  have hak : a ≠ k := fun e => h.forest.irrefl (c := k) (by show (I k).referrer = _; rw [ha, e])
  have hba : (I a).banished = false := h.forest.parent_in h.tidy.leaf hkab ha
  let K := upd (upd I0 a (leaveList k r (I0 a))) b (joinList k r (I0 b))
  have Ka : K a = leaveList k r (I a) := by
    show upd (upd I0 a _) b _ a = _
    rw [upd_ne _ _ hab, upd_self]
    show leaveList k r (upd I k w a) = _
    rw [upd_ne _ _ hak]
  have Kb : K b = joinList k r (I b) := by
    show upd (upd I0 a _) b _ b = _
    rw [upd_self]
    show joinList k r (upd I k w b) = _
    rw [upd_ne _ _ (Ne.symm hkb)]
  have Kk : K k = w := by
    show upd (upd I0 a _) b _ k = _
    rw [upd_ne _ _ hkb, upd_ne _ _ (Ne.symm hak)]
    exact upd_self _ _ _
  have Ko : ∀ j, j ≠ a → j ≠ b → j ≠ k → K j = I j := by
    intro j h1 h2 h3
    show upd (upd I0 a _) b _ j = _
    rw [upd_ne _ _ h2, upd_ne _ _ h1]
    exact upd_ne _ _ h3
  have eI2 : I2 = addTo 1 r.tot 1 (some b) (addTo (-1) r.tot 1 (some a) K) := by
    rw [addTo_some, addTo_some]
    funext j
    by_cases hjb : j = b
    · subst hjb
      show upd I1 j _ j = upd _ j _ j
      rw [upd_self, upd_self, upd_ne _ _ (Ne.symm hab), Kb]
      show joined k r (upd I0 a _ j) = _
      rw [upd_ne _ _ (Ne.symm hab)]
      show joined k r (upd I k w j) = _
      rw [upd_ne _ _ (Ne.symm hkb)]
      rfl
    · show upd I1 b _ j = _
      rw [upd_ne _ _ hjb, upd_ne _ _ hjb]
      by_cases hja : j = a
      · subst hja
        rw [upd_self, Ka]
        show upd I0 j _ j = _
        rw [upd_self]
        show left k r (upd I k w j) = _
        rw [upd_ne _ _ hak]
        rfl
      · rw [upd_ne _ _ hja]
        show upd I0 a _ j = upd (upd I0 a _) b _ j
        rw [upd_ne _ _ hja, upd_ne _ _ hjb, upd_ne _ _ hja]
  have eo : (I0 a).referrer = upOf K (some a) := by
    show (upd I k w a).referrer = (K a).referrer
    rw [upd_ne _ _ hak, Ka]; rfl
  have en : (I1 b).referrer = upOf (addTo (-1) r.tot 1 (some a) K) (some b) := by
    show (upd I0 a _ b).referrer = (addTo (-1) r.tot 1 (some a) K b).referrer
    rw [addTo_some, upd_ne _ _ (Ne.symm hab), upd_ne _ _ (Ne.symm hab), Kb]
    show (upd I k w b).referrer = _
    rw [upd_ne _ _ (Ne.symm hkb)]; rfl
  have eJ : moveV r.tot 9 2 (I0 a).referrer (I1 b).referrer I2 = moveV r.tot 10 1 (some a) (some b) K := by
    rw [eo, en, eI2]
    conv_rhs => unfold moveV
    rw [if_neg (by simpa using hab)]
  rw [eJ] at hf ⊢
  have hfK : Forest (treeOf K) P' := by rw [← moveV_tree]; exact hf
  have vK : ∀ j, j ≠ k → vital (K j) = vital (I j) := by
    intro j hj
    by_cases hjb : j = b
    · subst hjb; rw [Kb]; rfl
    · by_cases hja : j = a
      · subst hja; rw [Ka]; rfl
      · rw [Ko j hja hjb hj]
  have wb : w.banished = false := by rw [← hkab]; exact congrArg Vital.banished w3
  have wa : w.active = (I k).active := congrArg Vital.active w3
  have wc : w.compressionAt = (I k).compressionAt := congrArg Vital.compressionAt w3
  have htK : Tidy K := by
    have h0 : Tidy (upd I k w) := h.tidy.upd (by rw [wb]; simp) (by rw [wa, wc]; exact h.tidy.idle k) (by
      rw [w4, wa]; exact h.tidy.own k)
    refine h0.of_vital ?_ ?_
    · intro j
      by_cases hj : j = k
      · subst hj; rw [upd_self, Kk]
      · rw [vK j hj, upd_ne _ _ hj]
    · intro j hjb
      have h1 : j ≠ k := by rintro rfl; rw [upd_self, wb] at hjb; cases hjb
      have h2 : j ≠ b := by rintro rfl; rw [upd_ne _ _ h1, hb] at hjb; cases hjb
      have h3 : j ≠ a := by rintro rfl; rw [upd_ne _ _ h1, hba] at hjb; cases hjb
      rw [Ko j h3 h2 h1]
      rw [upd_ne _ _ h1] at hjb
      exact h.tidy.leaf j hjb
  have tK : ∀ j, (K j).tot = (I j).tot := by
    intro j
    by_cases hj : j = k
    · subst hj; rw [Kk, w4]
    · by_cases hjb : j = b
      · subst hjb; rw [Kb]; rfl
      · by_cases hja : j = a
        · subst hja; rw [Ka]; rfl
        · rw [Ko j hja hjb hj]
  refine ⟨hf, ?_, ?_⟩
  · refine htK.of_vital (fun j => moveV_vital _ _ _ _ _ _ _ (by omega)) ?_
    intro j hj
    rw [moveV_proj (π := Info.referrals) (fun _ _ _ _ => rfl)]
    exact htK.leaf j hj
  · intro c x l hl
    rw [lift_move 10 1 (some a) (some b) K hfK htK.leaf
      (by intro q hq; injection hq with hq; subst hq; rw [Ka]; exact hba)
      (by intro q hq; injection hq with hq; subst hq; rw [Kb]; exact hb) (by omega) c x l (by omega)]
    have s := h.sums c x l hl
    have e0 : l + 1 - 1 = l := by omega
    rw [e0, hr]
    simp only [Option.some.injEq, show (1 ≤ l + 1) = True by simp, and_true]
    unfold defect kidSum at s ⊢
    simp only [tK]
    by_cases hca : c = a
    · subst hca
      rw [if_pos rfl, if_neg (Ne.symm hab), Ka]
      have e1 : removeFast (removeFast (I c).referrals k) k = removeFast (I c).referrals k := by
        refine removeFast_of_notMem ?_
        have hn : (I c).referrals.Nodup := h.forest.nodup c
        rw [mem_removeFast hn]; simp
      show (I c).tot x (l + 1) - ((removeFast (removeFast (I c).referrals k) k).map fun q => (I q).tot x l).sum - _ + _ = _
      rw [e1]
      have hs := ((removeFast_perm hka).map fun q => (I q).tot x l).sum_eq
      rw [List.map_cons, List.sum_cons] at hs
      linarith
    · by_cases hcb : c = b
      · subst hcb
        rw [if_neg hab, if_pos rfl, Kb]
        show (I c).tot x (l + 1) - (((I c).referrals ++ [k]).map fun q => (I q).tot x l).sum - _ + _ = _
        rw [List.map_append, List.sum_append]
        simp only [List.map_cons, List.map_nil, List.sum_cons, List.sum_nil]
        linarith
      · rw [if_neg (Ne.symm hca), if_neg (Ne.symm hcb)]
        have : (K c).referrals = (I c).referrals := by
          by_cases hck : c = k
          · subst hck; rw [Kk, w2]
          · rw [Ko c hca hcb hck]
        rw [this]
        linarith

end Verif.Referral
