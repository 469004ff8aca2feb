import Verif.Referral.Inv
import Mathlib.Tactic.Ring
import Mathlib.Tactic.Linarith

/-! How far the totals of an account are from the totals of its referrals, and how walks change that. -/
namespace Verif.Referral
open Relation

def kidSum (I : View) (a : Key) (w : What) (l : Nat) : Int := ((I a).referrals.map fun c => (I c).tot w l).sum

/-- The total at level `l + 1` minus the totals of the referrals at level `l` -/
def defect (I : View) (a : Key) (w : What) (l : Nat) : Int := (I a).tot w (l + 1) - kidSum I a w l

/-- The totals up to level `top` fit together. -/
def Sums (top : Nat) (I : View) : Prop := ∀ a w l, l < top → defect I a w l = 0

/-- Facts about banishment and activity -/
structure Tidy (I : View) : Prop where
  leaf : ∀ a, (I a).banished = true → (I a).referrals = []
  asleep : ∀ a, (I a).banished = true → (I a).active = false
  done : ∀ a, (I a).banished = true → (I a).compressionAt = none
  below : ∀ a, (I a).banished = true → (I a).referrer ≠ none
  idle : ∀ a, (I a).active = true → (I a).compressionAt = none
  own : ∀ a, (I a).tot .active 0 = if (I a).active then 1 else 0

theorem sum_map_upd {l : List Key} (hl : l.Nodup) (f g : Key → Int) (p : Key) (h : ∀ c, c ≠ p → g c = f c) :
    (l.map g).sum = (l.map f).sum + (if p ∈ l then g p - f p else 0) := by
  induction l with
  | nil => simp
  | cons a l ih =>
    rw [List.nodup_cons] at hl
    simp only [List.map_cons, List.sum_cons, ih hl.2]
    by_cases ha : a = p
    · subst ha
      have : a ∉ l := hl.1
      simp [this]
      ring
    · rw [h a ha]
      have : (p ∈ a :: l) ↔ p ∈ l := by simp [Ne.symm ha]
      simp only [this]
      ring

theorem sum_map_congr {l : List Key} {f g : Key → Int} (h : ∀ c ∈ l, g c = f c) : (l.map g).sum = (l.map f).sum := by
  rw [List.map_congr_left h]

/-- One account's totals change. -/
theorem defect_upd {I : View} {p : Key} {v : Info} (hn : ∀ a, (I a).referrals.Nodup) (hv : v.referrals = (I p).referrals) (a : Key)
    (w : What) (l : Nat) :
    defect (upd I p v) a w l = defect I a w l + (if a = p then v.tot w (l + 1) - (I p).tot w (l + 1) else 0) -
      (if p ∈ (I a).referrals then v.tot w l - (I p).tot w l else 0) := by
  unfold defect kidSum
  have hk : (upd I p v a).referrals = (I a).referrals := by
    by_cases ha : a = p
    · subst ha; rw [upd_self, hv]
    · rw [upd_ne _ _ ha]
  rw [hk, sum_map_upd (hn a) (fun c => (I c).tot w l) (fun c => (upd I p v c).tot w l) p (fun c hc => by
    show (upd I p v c).tot w l = _; rw [upd_ne _ _ hc])]
  simp only [upd_self]
  by_cases ha : a = p
  · subst ha; rw [upd_self, if_pos rfl]; ring
  · rw [upd_ne _ _ ha, if_neg ha]; ring

/-- One account's list of referrals changes. -/
theorem defect_kids {I : View} {p : Key} {v : Info} (hv : v.tot = (I p).tot) (a : Key) (w : What) (l : Nat) :
    defect (upd I p v) a w l = if a = p then (I p).tot w (l + 1) - (v.referrals.map fun c => (I c).tot w l).sum else defect I a w l := by
  have ht : ∀ c, (upd I p v c).tot = (I c).tot := by
    intro c
    by_cases hc : c = p
    · subst hc; rw [upd_self, hv]
    · rw [upd_ne _ _ hc]
  unfold defect kidSum
  simp only [ht]
  by_cases ha : a = p
  · subst ha; rw [upd_self, if_pos rfl]
  · rw [upd_ne _ _ ha, if_neg ha]

/-- Only the totals of accounts matter. -/
theorem defect_congr {I J : View} (h1 : ∀ a, (J a).referrals = (I a).referrals) (h2 : ∀ a, (J a).tot = (I a).tot) (a : Key) (w : What)
    (l : Nat) : defect J a w l = defect I a w l := by
  unfold defect kidSum
  simp only [h1, h2]

/-- A change that is passed on from level to level -/
structure Adds (top : Nat) (z : What → Nat → Int) (g : Nat → Info → Info) : Prop where
  tot : ∀ l v w j, j ≤ top → (g l v).tot w j = v.tot w j + (if l ≤ j then z w (j - l) else 0)
  referrer : ∀ l v, (g l v).referrer = v.referrer
  referrals : ∀ l v, (g l v).referrals = v.referrals
  banished : ∀ l v, (g l v).banished = v.banished

theorem treeOf_upd {I : View} {p : Key} {v : Info} (h1 : v.referrer = (I p).referrer) (h2 : v.referrals = (I p).referrals)
    (h3 : v.banished = (I p).banished) : treeOf (upd I p v) = treeOf I := by
  unfold treeOf
  simp only [Tree.mk.injEq]
  refine ⟨?_, ?_, ?_⟩ <;> funext k <;> by_cases hk : k = p
  · subst hk; rw [upd_self, h1]
  · rw [upd_ne _ _ hk]
  · subst hk; rw [upd_self, h2]
  · rw [upd_ne _ _ hk]
  · subst hk; rw [upd_self, h3]
  · rw [upd_ne _ _ hk]

theorem Forest.parent_in {I : View} {P : Key → Prop} (hf : Forest (treeOf I) P) (hl : ∀ a, (I a).banished = true → (I a).referrals = [])
    {p q : Key} (hp : (I p).banished = false) (hq : (I p).referrer = some q) : (I q).banished = false := by
  have : p ∈ (I q).referrals := (hf.mem q p).2 ⟨hq, hp⟩
  cases h : (I q).banished with
  | false => rfl
  | true => rw [hl q h] at this; cases this

/-- The effect of a walk -/
theorem lift {top : Nat} {z : What → Nat → Int} {g : Nat → Info → Info} {P : Key → Prop} (hg : Adds top z g) :
    ∀ (n m : Nat) (p : Option Key) (I : View), Forest (treeOf I) P → (∀ a, (I a).banished = true → (I a).referrals = []) →
      (∀ q, p = some q → (I q).banished = false) → top < m + n → ∀ a w l, l < top →
      defect (climbV g n m p I) a w l = defect I a w l + (if p = some a ∧ m ≤ l + 1 then z w (l + 1 - m) else 0) := by
  intro n
  induction n with
  | zero =>
    intro m p I _ _ _ hm a w l hl
    have : ¬ (p = some a ∧ m ≤ l + 1) := by omega
    rw [if_neg this]
    show defect I a w l = _
    ring
  | succ n ih =>
    intro m p I hf hl0 hb hm a w l hl
    cases p with
    | none => rw [climbV_none]; simp
    | some p =>
      show defect (climbV g n (m + 1) (I p).referrer (upd I p (g m (I p)))) a w l = _
      have hpb := hb p rfl
      have ht : treeOf (upd I p (g m (I p))) = treeOf I := treeOf_upd (hg.referrer _ _) (hg.referrals _ _) (hg.banished _ _)
      have hf1 : Forest (treeOf (upd I p (g m (I p)))) P := by rw [ht]; exact hf
      have hban : ∀ q, (upd I p (g m (I p)) q).banished = (I q).banished := fun q => congrFun (congrArg Tree.out ht) q
      have hkid : ∀ q, (upd I p (g m (I p)) q).referrals = (I q).referrals := fun q => congrFun (congrArg Tree.kids ht) q
      rw [ih (m + 1) _ _ hf1 (by intro q hq; rw [hban] at hq; rw [hkid]; exact hl0 q hq)
        (by intro q hq; rw [hban]; exact hf.parent_in hl0 hpb hq) (by omega) a w l hl]
      rw [defect_upd hf.nodup (hg.referrals _ _), hg.tot _ _ _ _ (by omega), hg.tot _ _ _ _ (by omega)]
      have hmem : p ∈ (I a).referrals ↔ (I p).referrer = some a := by
        have := hf.mem a p
        constructor
        · intro h; exact (this.1 h).1
        · intro h; exact this.2 ⟨h, hpb⟩
      simp only [hmem, Option.some.injEq]
      by_cases hap : a = p
      · subst hap
        have hne : (I a).referrer ≠ some a := hf.irrefl
        simp only [hne, false_and, if_false, if_true, true_and]
        ring
      · simp only [hap, if_false, Ne.symm hap, false_and]
        by_cases hr : (I p).referrer = some a
        · simp only [hr, true_and, if_true]
          by_cases hm1 : m + 1 ≤ l + 1
          · rw [if_pos hm1, if_pos (show m ≤ l by omega), show l + 1 - (m + 1) = l - m by omega]; ring
          · rw [if_neg hm1, if_neg (show ¬ m ≤ l by omega)]; ring
        · simp only [hr, false_and, if_false]; ring

theorem addTo_some (sign : Int) (x : What → Nat → Int) (l : Nat) (a : Key) (I : View) :
    addTo sign x l (some a) I = upd I a ((I a).addTree sign x l) := rfl

theorem addTo_tree (sign : Int) (x : What → Nat → Int) (l : Nat) (a : Option Key) (I : View) : treeOf (addTo sign x l a I) = treeOf I := by
  cases a with
  | none => rfl
  | some a => exact treeOf_upd rfl rfl rfl

/-- One step of a walk along one line -/
theorem addTo_defect {P : Key → Prop} {I : View} (hf : Forest (treeOf I) P) (sign : Int) (x : What → Nat → Int) (m : Nat) {p : Option Key}
    (hb : ∀ q, p = some q → (I q).banished = false) (a : Key) (w : What) (l : Nat) (hl : l < 10) :
    defect (addTo sign x m p I) a w l = defect I a w l + (if p = some a ∧ m ≤ l + 1 then sign * x w (l + 1 - m) else 0) -
      (if upOf I p = some a ∧ m + 1 ≤ l + 1 then sign * x w (l + 1 - (m + 1)) else 0) := by
  cases p with
  | none => simp [addTo, upOf]
  | some p =>
    rw [addTo_some, defect_upd (v := (I p).addTree sign x m) hf.nodup rfl]
    have hmem : p ∈ (I a).referrals ↔ (I p).referrer = some a := by
      have := hf.mem a p
      constructor
      · intro h; exact (this.1 h).1
      · intro h; exact this.2 ⟨h, hb p rfl⟩
    have hup : upOf I (some p) = (I p).referrer := rfl
    rw [hup]
    have t1 : ((I p).addTree sign x m).tot w (l + 1) - (I p).tot w (l + 1) = if m ≤ l + 1 then sign * x w (l + 1 - m) else 0 := by
      show (if m ≤ l + 1 ∧ l + 1 ≤ 10 then _ else _) - _ = _
      by_cases h : m ≤ l + 1
      · rw [if_pos ⟨h, by omega⟩, if_pos h]; ring
      · rw [if_neg (by omega), if_neg h]; ring
    have t2 : ((I p).addTree sign x m).tot w l - (I p).tot w l = if m + 1 ≤ l + 1 then sign * x w (l + 1 - (m + 1)) else 0 := by
      show (if m ≤ l ∧ l ≤ 10 then _ else _) - _ = _
      by_cases h : m ≤ l
      · rw [if_pos ⟨h, by omega⟩, if_pos (show m + 1 ≤ l + 1 by omega), show l + 1 - (m + 1) = l - m by omega]; ring
      · rw [if_neg (by omega), if_neg (by omega)]; ring
    rw [t1, t2]
    simp only [hmem, Option.some.injEq, eq_comm (a := p) (b := a)]
    by_cases hap : a = p
    · subst hap
      by_cases hr : (I a).referrer = some a <;> simp [hr]
    · by_cases hr : (I p).referrer = some a <;> simp [hap, hr]

theorem upOf_tree {I J : View} (h : treeOf J = treeOf I) (a : Option Key) : upOf J a = upOf I a := by
  cases a with
  | none => rfl
  | some a => exact congrFun (congrArg Tree.up h) a

/-- The effect of the walk along both lines -/
theorem lift_move {x : What → Nat → Int} {P : Key → Prop} :
    ∀ (n m : Nat) (old new : Option Key) (I : View), Forest (treeOf I) P → (∀ a, (I a).banished = true → (I a).referrals = []) →
      (∀ q, old = some q → (I q).banished = false) → (∀ q, new = some q → (I q).banished = false) → 10 < m + n → ∀ a w l, l < 10 →
      defect (moveV x n m old new I) a w l = defect I a w l - (if old = some a ∧ m ≤ l + 1 then x w (l + 1 - m) else 0) +
        (if new = some a ∧ m ≤ l + 1 then x w (l + 1 - m) else 0) := by
  intro n
  induction n with
  | zero =>
    intro m old new I _ _ _ _ hm a w l hl
    rw [if_neg (by omega), if_neg (by omega)]
    show defect I a w l = _
    ring
  | succ n ih =>
    intro m old new I hf hl0 hbo hbn hm a w l hl
    unfold moveV
    split
    · rename_i e; subst e; ring
    · have t1 : treeOf (addTo (-1) x m old I) = treeOf I := addTo_tree _ _ _ _ _
      have t2 : treeOf (addTo 1 x m new (addTo (-1) x m old I)) = treeOf I := by rw [addTo_tree, t1]
      have hf1 : Forest (treeOf (addTo (-1) x m old I)) P := by rw [t1]; exact hf
      have hf2 : Forest (treeOf (addTo 1 x m new (addTo (-1) x m old I))) P := by rw [t2]; exact hf
      have hb1 : ∀ q, (addTo (-1) x m old I q).banished = (I q).banished := fun q => congrFun (congrArg Tree.out t1) q
      have hb2 : ∀ q, (addTo 1 x m new (addTo (-1) x m old I) q).banished = (I q).banished := fun q => congrFun (congrArg Tree.out t2) q
      have hk2 : ∀ q, (addTo 1 x m new (addTo (-1) x m old I) q).referrals = (I q).referrals := fun q => congrFun (congrArg Tree.kids t2) q
      have up : ∀ (p : Option Key), (∀ q, p = some q → (I q).banished = false) → ∀ q, upOf I p = some q → (I q).banished = false := by
        intro p hp q hq
        cases p with
        | none => simp [upOf] at hq
        | some p => exact hf.parent_in hl0 (hp p rfl) hq
      rw [upOf_tree t1]
      rw [ih (m + 1) _ _ _ hf2 (by intro q hq; rw [hb2] at hq; rw [hk2]; exact hl0 q hq)
        (by intro q hq; rw [hb2]; exact up old hbo q hq) (by intro q hq; rw [hb2]; exact up new hbn q hq) (by omega) a w l hl]
      rw [addTo_defect hf1 1 x m (by intro q hq; rw [hb1]; exact hbn q hq) a w l hl, addTo_defect hf (-1) x m hbo a w l hl]
      rw [upOf_tree t1]
      have e1 : ∀ (c : Prop) [Decidable c] (y : Int), (if c then (-1) * y else 0) = - (if c then y else 0) := by
        intro c _ y; split <;> ring
      simp only [e1, one_mul]
      ring

/-! ### Walks that also change the lists of the first account -/

theorem upd_upd (I : View) (k : Key) (v w : Info) : upd (upd I k v) k w = upd I k w := by
  funext j
  by_cases hj : j = k
  · subst hj; rw [upd_self, upd_self]
  · rw [upd_ne _ _ hj, upd_ne _ _ hj, upd_ne _ _ hj]

theorem climbV_split {g g' : Nat → Info → Info} {L : Info → Info} (h1 : ∀ v, g 1 v = g' 1 (L v)) (h2 : ∀ l, 2 ≤ l → g l = g' l)
    (hr : ∀ v, (L v).referrer = v.referrer) (n : Nat) (p : Key) (I : View) :
    climbV g (n + 1) 1 (some p) I = climbV g' (n + 1) 1 (some p) (upd I p (L (I p))) := by
  show climbV g n 2 (I p).referrer (upd I p (g 1 (I p))) =
    climbV g' n 2 (upd I p (L (I p)) p).referrer (upd (upd I p (L (I p))) p (g' 1 (upd I p (L (I p)) p)))
  rw [upd_self, upd_upd, hr, ← h1]
  exact climbV_congr n 2 _ _ h2

theorem bump_split (d : What → Int) {L : Info → Info} (hr : ∀ v, (L v).referrer = v.referrer) (n : Nat) (p : Key) (I : View) :
    climbV (bump d L) (n + 1) 1 (some p) I = climbV (bump d id) (n + 1) 1 (some p) (upd I p (L (I p))) :=
  climbV_split (by intro v; unfold bump; rw [if_pos rfl, if_pos rfl]; rfl) (by intro l hl; rw [bump_ge hl, bump_ge hl]) hr n p I

def atZero (d : What → Int) (w : What) (i : Nat) : Int := if i = 0 then d w else 0

theorem Adds.bump (top : Nat) (d : What → Int) : Adds top (atZero d) (bump d id) := by
  refine ⟨?_, ?_, ?_, ?_⟩
  · intro l v w j _
    rw [bump_id]
    show (if j = l then v.tot w j + d w else v.tot w j) = _
    unfold atZero
    by_cases h : j = l
    · subst h; simp
    · by_cases h' : l ≤ j
      · rw [if_neg h, if_pos h', if_neg (by omega)]; ring
      · rw [if_neg h, if_neg h']; ring
  all_goals intro l v; rw [bump_id]; rfl

def squeezeZ (x : What → Nat → Int) (w : What) (i : Nat) : Int := if i = 0 then x w 1 else x w (i + 1) - x w i

/-- Compression forgets level 10. -/
theorem Adds.squeezed {top : Nat} (ht : top ≤ 9) (x : What → Nat → Int) : Adds top (squeezeZ x) (squeezed x) := by
  refine ⟨?_, fun _ _ => rfl, fun _ _ => rfl, fun _ _ => rfl⟩
  intro l v w j hj
  show (if j = l then _ else if l < j ∧ j - l < 10 - l then _ else _) = _
  unfold squeezeZ
  by_cases h : j = l
  · subst h; simp
  · rw [if_neg h]
    by_cases h' : l < j
    · rw [if_pos ⟨h', by omega⟩, if_pos (by omega), if_neg (by omega)]
      ring
    · rw [if_neg (by omega), if_neg (by omega)]; ring

/-- What compression would do to the totals if it did not forget level 10 -/
def squeezedFull (x : What → Nat → Int) (k : Nat) (v : Info) : Info :=
  { v with tot := fun w j =>
      if j = k then v.tot w j + x w 1
      else if k < j ∧ j ≤ 10 then v.tot w j + x w (j - k + 1) - x w (j - k)
      else v.tot w j }

theorem Adds.squeezedFull {top : Nat} (ht : top ≤ 10) (x : What → Nat → Int) : Adds top (squeezeZ x) (squeezedFull x) := by
  refine ⟨?_, fun _ _ => rfl, fun _ _ => rfl, fun _ _ => rfl⟩
  intro l v w j hj
  show (if j = l then _ else if l < j ∧ j ≤ 10 then _ else _) = _
  unfold squeezeZ
  by_cases h : j = l
  · subst h; simp
  · rw [if_neg h]
    by_cases h' : l < j
    · rw [if_pos ⟨h', by omega⟩, if_pos (by omega), if_neg (by omega)]
      ring
    · rw [if_neg (by omega), if_neg (by omega)]; ring

/-- There is nothing to forget if the account has as much on both levels that meet. -/
theorem squeezed_full {x : What → Nat → Int} {m : Nat} (h : m ≤ 9 → ∀ w, x w (11 - m) = x w (10 - m)) : squeezed x m = squeezedFull x m := by
  funext v
  unfold squeezed squeezedFull
  congr 1
  funext w j
  by_cases hj : j = m
  · rw [if_pos hj, if_pos hj]
  · rw [if_neg hj, if_neg hj]
    by_cases h9 : m < j ∧ j - m < 10 - m
    · rw [if_pos h9, if_pos ⟨h9.1, by omega⟩]
    · rw [if_neg h9]
      by_cases h10 : m < j ∧ j ≤ 10
      · have e : j = 10 := by omega
        subst e
        rw [if_pos h10, show 10 - m + 1 = 11 - m by omega, h (by omega) w]
        ring
      · rw [if_neg h10]

/-- The account `i` levels above `p`, or `p` itself -/
def lineV (I : View) : Nat → Option Key → Option Key
  | 0, p => p
  | i + 1, p => p.bind fun q => lineV I i (I q).referrer

theorem lineV_congr {I J : View} (h : ∀ q, (J q).referrer = (I q).referrer) : ∀ (i : Nat) (p : Option Key), lineV J i p = lineV I i p := by
  intro i
  induction i with
  | zero => intro _; rfl
  | succ i ih =>
    intro p
    cases p with
    | none => rfl
    | some q =>
      show lineV J i (J q).referrer = lineV I i (I q).referrer
      rw [h, ih]

/-- Only what is done to existing accounts matters. -/
theorem climbV_reached {g g' : Nat → Info → Info} (hr : ∀ l v, (g l v).referrer = v.referrer) : ∀ (n m : Nat) (p : Option Key) (I : View),
    (∀ i q, i < n → lineV I i p = some q → g (m + i) = g' (m + i)) → climbV g n m p I = climbV g' n m p I := by
  intro n
  induction n with
  | zero => intros; rfl
  | succ n ih =>
    intro m p I h
    cases p with
    | none => rfl
    | some k =>
      show climbV g n (m + 1) (I k).referrer (upd I k (g m (I k))) = climbV g' n (m + 1) (I k).referrer (upd I k (g' m (I k)))
      have e0 : g m = g' m := h 0 k (by omega) rfl
      rw [← e0]
      refine ih _ _ _ fun i q hi hq => ?_
      rw [show m + 1 + i = m + (i + 1) by omega]
      refine h (i + 1) q (by omega) ?_
      show lineV I i (I k).referrer = some q
      rw [← hq]
      refine (lineV_congr (fun j => ?_) i _).symm
      by_cases hj : j = k
      · subst hj; rw [upd_self, hr]
      · rw [upd_ne _ _ hj]

end Verif.Referral
