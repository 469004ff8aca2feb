import Verif.Referral.Structure
import Verif.Referral.Defect

/-! Every operation keeps the totals consistent. -/
namespace Verif.Referral
open Relation

structure Neat (top : Nat) (P : Key → Prop) (I : View) : Prop where
  forest : Forest (treeOf I) P
  tidy : Tidy I
  sums : Sums top I

/-! ### Tidiness -/

theorem climbV_from {β : Type} {π : Info → β} {g : Nat → Info → Info} {m0 : Nat} (h : ∀ l v, m0 ≤ l → π (g l v) = π v) :
    ∀ (n m : Nat) (k : Option Key) (I : View), m0 ≤ m → ∀ j, π (climbV g n m k I j) = π (I j) := by
  intro n
  induction n with
  | zero => intros; rfl
  | succ n ih =>
    intro m k I hm j
    cases k with
    | none => rfl
    | some a =>
      show π (climbV g n (m + 1) (I a).referrer (upd I a (g m (I a))) j) = _
      rw [ih (m + 1) _ _ (by omega)]
      by_cases hj : j = a
      · subst hj; rw [upd_self, h _ _ hm]
      · rw [upd_ne _ _ hj]

/-- The parts of a record that `Tidy` is about, without the list of referrals -/
structure Vital where
  banished : Bool
  active : Bool
  compressionAt : Option Int
  referrer : Option Key
  self : Int

def vital (v : Info) : Vital := ⟨v.banished, v.active, v.compressionAt, v.referrer, v.tot .active 0⟩

theorem Tidy.of_vital {I J : View} (h : Tidy I) (hv : ∀ a, vital (J a) = vital (I a))
    (hk : ∀ a, (I a).banished = true → (J a).referrals = []) : Tidy J := by
  have hb : ∀ a, (J a).banished = (I a).banished := fun a => congrArg Vital.banished (hv a)
  have ha : ∀ a, (J a).active = (I a).active := fun a => congrArg Vital.active (hv a)
  have hc : ∀ a, (J a).compressionAt = (I a).compressionAt := fun a => congrArg Vital.compressionAt (hv a)
  have hr : ∀ a, (J a).referrer = (I a).referrer := fun a => congrArg Vital.referrer (hv a)
  have hs : ∀ a, (J a).tot .active 0 = (I a).tot .active 0 := fun a => congrArg Vital.self (hv a)
  refine ⟨?_, ?_, ?_, ?_, ?_, ?_⟩
  · intro a; rw [hb]; exact hk a
  · intro a; rw [hb, ha]; exact h.asleep a
  · intro a; rw [hb, hc]; exact h.done a
  · intro a; rw [hb, hr]; exact h.below a
  · intro a; rw [ha, hc]; exact h.idle a
  · intro a; rw [hs, ha]; exact h.own a

theorem Tidy.upd {I : View} (h : Tidy I) {k : Key} {w : Info}
    (hb : w.banished = true → w.referrals = [] ∧ w.active = false ∧ w.compressionAt = none ∧ w.referrer ≠ none)
    (hi : w.active = true → w.compressionAt = none) (ho : w.tot .active 0 = if w.active then 1 else 0) : Tidy (upd I k w) := by
  have key : ∀ (Q : Info → Prop), (∀ a, Q (I a)) → Q w → ∀ a, Q (Referral.upd I k w a) := by
    intro Q h1 h2 a
    by_cases ha : a = k
    · subst ha; rw [upd_self]; exact h2
    · rw [upd_ne _ _ ha]; exact h1 a
  exact ⟨key (fun v => v.banished = true → v.referrals = []) h.leaf fun hw => (hb hw).1,
    key (fun v => v.banished = true → v.active = false) h.asleep fun hw => (hb hw).2.1,
    key (fun v => v.banished = true → v.compressionAt = none) h.done fun hw => (hb hw).2.2.1,
    key (fun v => v.banished = true → v.referrer ≠ none) h.below fun hw => (hb hw).2.2.2,
    key (fun v => v.active = true → v.compressionAt = none) h.idle hi,
    key (fun v => v.tot .active 0 = if v.active then 1 else 0) h.own ho⟩

/-- A change of lists only -/
structure ListsOnly (L : Info → Info) : Prop where
  vital : ∀ v, vital (L v) = vital v
  tot : ∀ v, (L v).tot = v.tot

theorem ListsOnly.referrer {L : Info → Info} (h : ListsOnly L) (v : Info) : (L v).referrer = v.referrer := congrArg Vital.referrer (h.vital v)
theorem ListsOnly.banished {L : Info → Info} (h : ListsOnly L) (v : Info) : (L v).banished = v.banished := congrArg Vital.banished (h.vital v)

theorem vital_bump {d : What → Int} {L : Info → Info} (hL : ListsOnly L) (l : Nat) (v : Info) (hl : 1 ≤ l) : vital (bump d L l v) = vital v := by
  have : ∀ v : Info, vital (v.add d l) = vital v := by
    intro v
    have e : (v.add d l).tot .active 0 = v.tot .active 0 := by
      show (if 0 = l then _ else _) = _
      rw [if_neg (by omega)]
    unfold vital
    rw [e]; rfl
  unfold bump
  rw [this]
  split
  · exact hL.vital v
  · rfl

theorem referrals_bump {d : What → Int} {L : Info → Info} (l : Nat) (v : Info) (hl : 2 ≤ l) : (bump d L l v).referrals = v.referrals := by
  rw [bump_ge hl]; rfl

/-- A walk keeps things tidy if it starts at an account that is not banished. -/
theorem Tidy.walk {I : View} (h : Tidy I) {d : What → Int} {L : Info → Info} (hL : ListsOnly L) {p : Option Key}
    (hp : ∀ q, p = some q → (I q).banished = false) : Tidy (climbV (bump d L) 10 1 p I) := by
  refine h.of_vital (fun a => climbV_from (m0 := 1) (vital_bump hL) _ _ _ _ (by omega) a) ?_
  intro a ha
  cases p with
  | none => rw [climbV_none]; exact h.leaf a ha
  | some p =>
    rw [climbV_first (π := Info.referrals) referrals_bump]
    by_cases hap : a = p
    · subst hap; rw [hp a rfl] at ha; cases ha
    · rw [if_neg hap]; exact h.leaf a ha

theorem tree_walk (d : What → Int) (p : Option Key) (I : View) : treeOf (climbV (bump d id) 10 1 p I) = treeOf I := by
  unfold treeOf
  simp only [Tree.mk.injEq]
  refine ⟨?_, ?_, ?_⟩ <;> funext k
  · exact climbV_all (π := Info.referrer) (g := bump d id) (bump_all (fun _ _ => rfl) (fun _ => rfl)) _ _ _ _ _
  · exact climbV_all (π := Info.referrals) (g := bump d id) (bump_all (fun _ _ => rfl) (fun _ => rfl)) _ _ _ _ _
  · exact climbV_all (π := Info.banished) (g := bump d id) (bump_all (fun _ _ => rfl) (fun _ => rfl)) _ _ _ _ _

/-- The effect of a walk on the totals -/
theorem walk_defect {I : View} {P : Key → Prop} {d : What → Int} {L : Info → Info} (hL : ListsOnly L) {p : Key}
    (hf : Forest (treeOf (climbV (bump d L) 10 1 (some p) I)) P) (ht : Tidy (climbV (bump d L) 10 1 (some p) I))
    (hp : (I p).banished = false) (a : Key) (w : What) (l : Nat) (hl : l < 10) :
    defect (climbV (bump d L) 10 1 (some p) I) a w l = defect (upd I p (L (I p))) a w l + (if a = p ∧ l = 0 then d w else 0) := by
  rw [bump_split d hL.referrer] at hf ht ⊢
  rw [tree_walk] at hf
  have hb : ∀ q, (climbV (bump d id) 10 1 (some p) (upd I p (L (I p))) q).banished = (upd I p (L (I p)) q).banished := fun q =>
    climbV_all (π := Info.banished) (g := bump d id) (bump_all (fun _ _ => rfl) (fun _ => rfl)) _ _ _ _ _
  have hk : ∀ q, (climbV (bump d id) 10 1 (some p) (upd I p (L (I p))) q).referrals = (upd I p (L (I p)) q).referrals := fun q =>
    climbV_all (π := Info.referrals) (g := bump d id) (bump_all (fun _ _ => rfl) (fun _ => rfl)) _ _ _ _ _
  rw [lift (Adds.bump 10 d) 10 1 (some p) _ hf ?_ ?_ (by omega) a w l hl]
  · congr 1
    simp only [Option.some.injEq, eq_comm (a := p) (b := a)]
    unfold atZero
    by_cases ha : a = p
    · by_cases hl0 : l = 0
      · subst hl0; simp [ha]
      · simp [ha, hl0]
    · simp [ha]
  · intro q hq
    rw [← hb] at hq
    rw [← hk]; exact ht.leaf q hq
  · intro q hq
    injection hq with hq; subst hq
    rw [upd_self, hL.banished]; exact hp

/-! ### Changes of an account's own amounts -/

theorem ListsOnly.id : ListsOnly id := ⟨fun _ => rfl, fun _ => rfl⟩
theorem ListsOnly.addKid (k : Key) : ListsOnly (addKid k) := ⟨fun _ => rfl, fun _ => rfl⟩
theorem ListsOnly.dropKid (k : Key) : ListsOnly (dropKid k) := ⟨fun _ => rfl, fun _ => rfl⟩
theorem ListsOnly.relist (b : Bool) (k : Key) : ListsOnly (relist b k) := by cases b <;> exact ⟨fun _ => rfl, fun _ => rfl⟩

/-- The own amounts of an account change by `d`, and so do the totals of its ancestors. -/
theorem Neat.own {top : Nat} (htop : top ≤ 10) {P P' : Key → Prop} {I : View} (h : Neat top P I) {k : Key} (hk : (I k).banished = false) {w : Info}
    {d : What → Int} {L : Info → Info} (hL : ListsOnly L) (hLk : ∀ v, (L v).referrals = v.referrals)
    (w1 : w.referrer = (I k).referrer) (w2 : w.referrals = (I k).referrals) (w3 : w.banished = false)
    (w4 : w.active = true → w.compressionAt = none) (w5 : w.tot .active 0 = if w.active then 1 else 0)
    (w6 : ∀ x l, w.tot x l = (I k).tot x l + (if l = 0 then d x else 0))
    (hf : Forest (treeOf (climbV (bump d L) 10 1 (I k).referrer (upd I k w))) P') :
    Neat top P' (climbV (bump d L) 10 1 (I k).referrer (upd I k w)) := by
  have ht0 : Tidy (upd I k w) := h.tidy.upd (by rw [w3]; simp) w4 w5
  have hpb : ∀ q, (I k).referrer = some q → (upd I k w q).banished = false := by
    intro q hq
    have : (I q).banished = false := h.forest.parent_in h.tidy.leaf hk hq
    by_cases hqk : q = k
    · subst hqk; rw [upd_self, w3]
    · rw [upd_ne _ _ hqk]; exact this
  have ht := ht0.walk (d := d) hL hpb
  refine ⟨hf, ht, ?_⟩
  intro a x l hl
  have hd := h.sums a x l hl
  have hself : ¬ k ∈ (I k).referrals := by
    intro hm
    exact h.forest.irrefl ((h.forest.mem k k).1 hm).1
  cases hp : (I k).referrer with
  | none =>
    rw [climbV_none, defect_upd h.forest.nodup w2, hd]
    have : k ∉ (I a).referrals := by
      intro hm
      have : (I k).referrer = some a := ((h.forest.mem a k).1 hm).1
      rw [hp] at this; cases this
    rw [if_neg this, w6]
    simp
  | some p =>
    rw [hp] at hf ht hpb
    rw [walk_defect hL hf ht (hpb p rfl) a x l (by omega)]
    have e1 : defect (upd (upd I k w) p (L (upd I k w p))) a x l = defect (upd I k w) a x l := by
      refine defect_congr ?_ ?_ a x l <;> intro q <;> by_cases hq : q = p
      · subst hq; rw [upd_self, hLk]
      · rw [upd_ne _ _ hq]
      · subst hq; rw [upd_self, hL.tot]
      · rw [upd_ne _ _ hq]
    rw [e1, defect_upd h.forest.nodup w2, hd]
    have hm : k ∈ (I a).referrals ↔ a = p := by
      have hmem : k ∈ (I a).referrals ↔ (I k).referrer = some a ∧ (I k).banished = false := h.forest.mem a k
      rw [hmem, hp, hk]
      simp only [Option.some.injEq, and_true]
      exact eq_comm
    simp only [hm, w6]
    by_cases ha : a = p
    · by_cases hl0 : l = 0
      · subst hl0; simp [ha]
      · simp [ha, hl0]
    · simp [ha]

/-! ### Coming and going -/

theorem Sums.leaf {top : Nat} {I : View} (h : Sums top I) {k : Key} (hk : (I k).referrals = []) {w : What} {l : Nat} (h1 : 1 ≤ l) (hl : l ≤ top) :
    (I k).tot w l = 0 := by
  have := h k w (l - 1) (by omega)
  unfold defect kidSum at this
  rw [hk, show l - 1 + 1 = l by omega] at this
  simpa using this

theorem defect_same {I : View} (hn : ∀ a, (I a).referrals.Nodup) {k : Key} {w : Info} (h1 : w.referrals = (I k).referrals) (h2 : w.tot = (I k).tot)
    (a : Key) (x : What) (l : Nat) : defect (upd I k w) a x l = defect I a x l := by
  rw [defect_upd hn h1, h2]; simp

/-- An account whose record has just been written joins the referrals of `p`. -/
theorem Neat.attach {top : Nat} (htop : top ≤ 10) {P P' : Key → Prop} {I : View} (h : Neat top P I) {k : Key} {w : Info} {parent : Option Key} {c d : Int}
    (hp : ∀ q, parent = some q → (upd I k w q).banished = false)
    (hk : ∀ a, k ∉ (I a).referrals) (hr : (I k).referrals = []) (h0 : w.referrals = [])
    (w3 : w.banished = false) (w4 : w.active = false)
    (w5 : ∀ x l, l ≤ top → w.tot x l = if l = 0 then money c d x else 0) (hz : ∀ x l, 1 ≤ l → l ≤ top → (I k).tot x l = 0)
    (hf : Forest (treeOf (climbV (bump (money c d) (addKid k)) 10 1 parent (upd I k w))) P') :
    Neat top P' (climbV (bump (money c d) (addKid k)) 10 1 parent (upd I k w)) := by
  have ht0 : Tidy (upd I k w) := h.tidy.upd (by rw [w3]; simp) (by rw [w4]; simp) (by rw [w4, w5 _ _ (by omega)]; rfl)
  have ht := ht0.walk (d := money c d) (ListsOnly.addKid k) hp
  refine ⟨hf, ht, ?_⟩
  intro a x l hl
  have hd := h.sums a x l hl
  have hI0 : defect (upd I k w) a x l = 0 := by
    rw [defect_upd h.forest.nodup (by rw [h0, hr]), hd, if_neg (hk a), w5 _ _ (by omega), hz _ _ (by omega) (by omega)]
    simp
  cases parent with
  | none => rw [climbV_none]; exact hI0
  | some p =>
    rw [walk_defect (ListsOnly.addKid k) hf ht (hp p rfl) a x l (by omega), defect_kids (v := Referral.addKid k (upd I k w p)) rfl]
    by_cases ha : a = p
    · subst ha
      rw [if_pos rfl]
      have e : (Referral.addKid k (upd I k w a)).referrals = (upd I k w a).referrals ++ [k] := rfl
      rw [e, List.map_append, List.sum_append]
      have : defect (upd I k w) a x l = (upd I k w a).tot x (l + 1) - ((upd I k w a).referrals.map fun c => (upd I k w c).tot x l).sum := rfl
      rw [hI0] at this
      simp only [List.map_cons, List.map_nil, List.sum_cons, List.sum_nil, upd_self]
      rw [w5 _ _ (by omega)]
      by_cases hl0 : l = 0
      · simp only [hl0, if_true, and_self] at this ⊢; linarith
      · simp only [hl0, if_false, and_false] at this ⊢; linarith
    · rw [if_neg ha, hI0]; simp [ha]

/-- An account without referrals leaves. -/
theorem Neat.detach {top : Nat} (htop : top ≤ 10) {P P' : Key → Prop} {I : View} (h : Neat top P I) {k p : Key} {w : Info}
    (hp : (I k).referrer = some p) (hb : (I k).banished = false) (ha0 : (I k).active = false) (hk0 : (I k).referrals = [])
    (w1 : w.referrer = (I k).referrer) (w2 : w.referrals = (I k).referrals) (w3 : w.active = (I k).active) (w4 : w.compressionAt = none)
    (w5 : w.tot = (I k).tot)
    (hf : Forest (treeOf (climbV (bump (money (-(I k).tot .coins 0) (-(I k).tot .delegated 0)) (dropKid k)) 10 1 (some p) (upd I k w))) P') :
    Neat top P' (climbV (bump (money (-(I k).tot .coins 0) (-(I k).tot .delegated 0)) (dropKid k)) 10 1 (some p) (upd I k w)) := by
  have hne : p ≠ k := fun e => h.forest.irrefl (c := k) (by show (I k).referrer = _; rw [hp, e])
  have hpb : (I p).banished = false := h.forest.parent_in h.tidy.leaf hb hp
  have ht0 : Tidy (upd I k w) := h.tidy.upd (fun _ => ⟨by rw [w2, hk0], by rw [w3, ha0], w4, by rw [w1, hp]; simp⟩) (fun _ => w4)
    (by rw [w5, w3]; exact h.tidy.own k)
  have hp' : ∀ q, some p = some q → (upd I k w q).banished = false := by
    intro q hq
    injection hq with hq; subst hq
    rw [upd_ne _ _ hne]; exact hpb
  have ht := ht0.walk (d := money (-(I k).tot .coins 0) (-(I k).tot .delegated 0)) (ListsOnly.dropKid k) hp'
  refine ⟨hf, ht, ?_⟩
  intro a x l hl
  have hd := h.sums a x l hl
  have hI0 : defect (upd I k w) a x l = 0 := by rw [defect_same h.forest.nodup w2 w5, hd]
  rw [walk_defect (ListsOnly.dropKid k) hf ht (hp' p rfl) a x l (by omega), defect_kids (v := Referral.dropKid k (upd I k w p)) rfl]
  by_cases ha : a = p
  · subst ha
    rw [if_pos rfl]
    have e : (Referral.dropKid k (upd I k w a)).referrals = removeFast (I a).referrals k := by
      show removeFast (upd I k w a).referrals k = _
      rw [upd_ne _ _ hne]
    have hm : k ∈ (I a).referrals := (h.forest.mem a k).2 ⟨hp, hb⟩
    have hs := ((removeFast_perm hm).map fun c => (upd I k w c).tot x l).sum_eq
    rw [List.map_cons, List.sum_cons] at hs
    rw [e]
    have : defect (upd I k w) a x l = (upd I k w a).tot x (l + 1) - ((upd I k w a).referrals.map fun c => (upd I k w c).tot x l).sum := rfl
    rw [hI0, upd_ne _ _ hne] at this
    rw [upd_ne _ _ hne]
    have hself : (upd I k w k).tot x l = if l = 0 then - money (-(I k).tot .coins 0) (-(I k).tot .delegated 0) x else 0 := by
      clear hs this hI0 hd
      rw [upd_self, w5]
      by_cases hl0 : l = 0
      · subst hl0
        rw [if_pos rfl]
        cases x with
        | coins => simp [money]
        | delegated => simp [money]
        | active => show (I k).tot .active 0 = _; rw [h.tidy.own k, ha0]; simp [money]
      · rw [if_neg hl0]; exact h.sums.leaf hk0 (by omega) (by omega)
    rw [hself] at hs
    by_cases hl0 : l = 0
    · subst hl0
      simp only [if_true, and_self] at hs ⊢
      linarith
    · simp only [hl0, if_false, and_false] at hs ⊢; linarith
  · rw [if_neg ha, hI0]; simp [ha]

end Verif.Referral
