import Verif.Referral.Rehome2
import Mathlib.Algebra.BigOperators.Group.Finset.Basic
import Mathlib.Algebra.BigOperators.Ring.Finset

/-!
Sums of money per level, in general: what happens to them when amounts are added along a line of referrers.
-/
namespace Verif.Referral

/-- `n` referrers up -/
def up (ref : Key → Option Key) : Nat → Key → Option Key
  | 0, c => some c
  | n + 1, c => (up ref n c).bind ref

theorem up_succ (ref : Key → Option Key) : ∀ (n : Nat) (c : Key), up ref (n + 1) c = (ref c).bind (up ref n) := by
  intro n
  induction n with
  | zero => intro c; unfold up; cases h : ref c <;> simp [up, h]
  | succ n ih =>
    intro c
    rw [up, ih, Option.bind_assoc]
    rfl

theorem up_add (ref : Key → Option Key) (n : Nat) : ∀ (k : Nat) (c : Key), up ref (n + k) c = (up ref n c).bind (up ref k) := by
  intro k
  induction k with
  | zero => intro c; show up ref n c = _; cases up ref n c <;> rfl
  | succ k ih =>
    intro c
    rw [← Nat.add_assoc, up, ih, Option.bind_assoc]
    rfl

/-- Each level is the sum of the level before over those with this referrer. -/
def Balanced (S : Finset Key) (ref : Key → Option Key) (mon : Nat → Key → Int) : Prop :=
  ∀ a ∈ S, ∀ l < 10, mon (l + 1) a = ∑ c ∈ S, if ref c = some a then mon l c else 0

/-- What is added along the line from `b` upwards: the amounts `x`, one level later at each account. -/
def column (ref : Key → Option Key) (x : Nat → Int) (b : Key) (j : Nat) (a : Key) : Int :=
  ∑ i ∈ Finset.range 10, if up ref i b = some a ∧ i + 1 ≤ j then x (j - (i + 1)) else 0

/-- The referrers of `S` are in `S`. -/
def Within (S : Finset Key) (ref : Key → Option Key) : Prop := ∀ c ∈ S, ∀ p, ref c = some p → p ∈ S

theorem up_within {S : Finset Key} {ref : Key → Option Key} (h : Within S ref) : ∀ (n : Nat) (c a : Key), c ∈ S → up ref n c = some a → a ∈ S := by
  intro n
  induction n with
  | zero => intro c a hc e; unfold up at e; cases e; exact hc
  | succ n ih =>
    intro c a hc e
    unfold up at e
    obtain ⟨d, h1, h2⟩ := Option.bind_eq_some_iff.1 e
    exact h d (ih c d hc h1) a h2

/-- Summing over those with referrer `a` -/
theorem sum_at {S : Finset Key} (ref : Key → Option Key) (a : Key) (y : Int) (o : Option Key) (ho : ∀ c, o = some c → c ∈ S) :
    (∑ c ∈ S, if ref c = some a then (if o = some c then y else 0) else 0) = if o.bind ref = some a then y else 0 := by
  cases o with
  | none => simp
  | some d =>
    have hd := ho d rfl
    rw [Finset.sum_eq_single_of_mem d hd]
    · simp
    · intro c _ hc
      have : ¬ (some d = some c) := fun e => hc (by injection e with e; exact e.symm)
      rw [if_neg this, ite_self]

theorem column_step {S : Finset Key} {ref : Key → Option Key} (h : Within S ref) (x : Nat → Int) {b : Key} (hb : b ∈ S) (a : Key) {l : Nat} (hl : l < 10) :
    column ref x b (l + 1) a = (if b = a then x l else 0) + ∑ c ∈ S, if ref c = some a then column ref x b l c else 0 := by
  have e1 : (∑ c ∈ S, if ref c = some a then column ref x b l c else 0) =
      ∑ i ∈ Finset.range 10, if up ref (i + 1) b = some a ∧ i + 1 ≤ l then x (l - (i + 1)) else 0 := by
    have : ∀ c ∈ S, (if ref c = some a then column ref x b l c else 0) =
        ∑ i ∈ Finset.range 10, if ref c = some a then (if up ref i b = some c then (if i + 1 ≤ l then x (l - (i + 1)) else 0) else 0) else 0 := by
      intro c _
      unfold column
      split
      · apply Finset.sum_congr rfl
        intro i _
        by_cases h1 : up ref i b = some c <;> simp [h1]
      · simp
    rw [Finset.sum_congr rfl this, Finset.sum_comm]
    apply Finset.sum_congr rfl
    intro i _
    rw [sum_at ref a _ (up ref i b) fun c hc => up_within h i b c hb hc]
    show (if up ref (i + 1) b = some a then _ else _) = _
    by_cases h1 : up ref (i + 1) b = some a <;> simp [h1]
  rw [e1]
  unfold column
  rw [Finset.sum_range_succ' _ 9, Finset.sum_range_succ _ 9]
  have h9 : ¬ (up ref (9 + 1) b = some a ∧ 9 + 1 ≤ l) := fun e => by omega
  rw [if_neg h9, _root_.add_zero, add_comm]
  congr 1
  · simp [up]
  · apply Finset.sum_congr rfl
    intro i _
    simp only [Nat.add_le_add_iff_right, Nat.add_sub_add_right]

/-- Moving an account whose amounts are `x` from `old` to `new` -/
theorem Balanced.move {S : Finset Key} {ref ref' : Key → Option Key} {mon mon' : Nat → Key → Int} (h : Balanced S ref mon) (hw : Within S ref) {acc old q : Key}
    (ha : acc ∈ S) (ho : old ∈ S) (hq : q ∈ S) (h1 : ref acc = some old) (h2 : ref' acc = some q) (h3 : ∀ c ≠ acc, ref' c = ref c)
    (hm : ∀ c ∈ S, ∀ l ≤ 10, mon' l c = mon l c - column ref (fun j => mon j acc) old l c + column ref (fun j => mon j acc) q l c)
    (hz : ∀ l ≤ 10, mon' l acc = mon l acc) : Balanced S ref' mon' := by
  intro a haS l hl
  have e1 : (∑ c ∈ S, if ref' c = some a then mon' l c else 0) =
      (∑ c ∈ S, if ref c = some a then mon' l c else 0) + ((if q = a then mon l acc else 0) - if old = a then mon l acc else 0) := by
    rw [← Finset.add_sum_erase _ _ ha, ← Finset.add_sum_erase S (fun c => if ref c = some a then mon' l c else 0) ha]
    have : (∑ c ∈ S.erase acc, if ref' c = some a then mon' l c else 0) = ∑ c ∈ S.erase acc, if ref c = some a then mon' l c else 0 := by
      apply Finset.sum_congr rfl
      intro c hc
      rw [h3 c (Finset.ne_of_mem_erase hc)]
    rw [this, h1, h2, hz l (by omega)]
    simp only [Option.some.injEq]
    omega
  have e2 : (∑ c ∈ S, if ref c = some a then mon' l c else 0) = (∑ c ∈ S, if ref c = some a then mon l c else 0) -
      (∑ c ∈ S, if ref c = some a then column ref (fun j => mon j acc) old l c else 0) +
      ∑ c ∈ S, if ref c = some a then column ref (fun j => mon j acc) q l c else 0 := by
    rw [← Finset.sum_sub_distrib, ← Finset.sum_add_distrib]
    apply Finset.sum_congr rfl
    intro c hc
    rw [hm c hc l (by omega)]
    split <;> simp
  rw [e1, e2, ← h a haS l hl, hm a haS (l + 1) (by omega), column_step hw _ ho a hl, column_step hw _ hq a hl]
  omega

/-- An account of which nothing was counted so far and that has nothing below is counted from now on. -/
theorem Balanced.enter {S : Finset Key} {ref : Key → Option Key} {mon mon' : Nat → Key → Int} (h : Balanced S ref mon) (hw : Within S ref) {acc q : Key} {x : Nat → Int}
    (ha : acc ∈ S) (hq : q ∈ S) (h1 : ref acc = some q) (hx : ∀ l, 1 ≤ l → l ≤ 10 → x l = 0)
    (hm : ∀ c ∈ S, ∀ l ≤ 10, mon' l c = mon l c + column ref x q l c + if c = acc then x l else 0) : Balanced S ref mon' := by
  intro a haS l hl
  have e1 : (∑ c ∈ S, if ref c = some a then mon' l c else 0) = (∑ c ∈ S, if ref c = some a then mon l c else 0) +
      (∑ c ∈ S, if ref c = some a then column ref x q l c else 0) + if q = a then x l else 0 := by
    have e2 : (if q = a then x l else 0) = ∑ c ∈ S, if ref c = some a then (if c = acc then x l else 0) else 0 := by
      rw [Finset.sum_eq_single_of_mem acc ha]
      · simp [h1]
      · intro c _ hc
        simp [hc]
    rw [e2, ← Finset.sum_add_distrib, ← Finset.sum_add_distrib]
    apply Finset.sum_congr rfl
    intro c hc
    rw [hm c hc l (by omega)]
    split <;> simp
  rw [e1, ← h a haS l hl, hm a haS (l + 1) (by omega), column_step hw x hq a hl, hx (l + 1) (by omega) (by omega), ite_self]
  omega

/-- An account leaves of which nothing is counted above: all of it is zero, or nobody is above. -/
theorem Balanced.leave {S : Finset Key} {ref ref' : Key → Option Key} {mon mon' : Nat → Key → Int} (h : Balanced S ref mon) {acc : Key}
    (h0 : (∃ p, ref acc = some p) → ∀ l ≤ 10, mon l acc = 0) (h2 : ref' acc = none) (h3 : ∀ c ≠ acc, ref' c = ref c)
    (hm : ∀ c ∈ S, ∀ l ≤ 10, (1 ≤ l ∨ c ≠ acc) → mon' l c = mon l c) : Balanced S ref' mon' := by
  intro a haS l hl
  rw [hm a haS (l + 1) (by omega) (.inl (by omega)), h a haS l hl]
  apply Finset.sum_congr rfl
  intro c hc
  by_cases hca : c = acc
  · rw [hca, if_neg (c := ref' acc = some a) (by rw [h2]; simp)]
    split
    · next e => exact h0 ⟨a, e⟩ l (by omega)
    · rfl
  · rw [h3 c hca, hm c hc l (by omega) (.inr hca)]

/-- The levels are sums over those so many levels below. -/
theorem balanced_iff {S : Finset Key} {ref : Key → Option Key} {mon : Nat → Key → Int} (hw : Within S ref) :
    Balanced S ref mon ↔ ∀ a ∈ S, ∀ l ≤ 10, mon l a = ∑ c ∈ S, if up ref l c = some a then mon 0 c else 0 := by
  have step : ∀ a l, (∑ c ∈ S, if ref c = some a then (∑ d ∈ S, if up ref l d = some c then mon 0 d else 0) else 0) =
      ∑ d ∈ S, if up ref (l + 1) d = some a then mon 0 d else 0 := by
    intro a l
    have : ∀ c ∈ S, (if ref c = some a then (∑ d ∈ S, if up ref l d = some c then mon 0 d else 0) else 0) =
        ∑ d ∈ S, if ref c = some a then (if up ref l d = some c then mon 0 d else 0) else 0 := by
      intro c _
      split
      · rfl
      · simp
    rw [Finset.sum_congr rfl this, Finset.sum_comm]
    apply Finset.sum_congr rfl
    intro d hd
    rw [sum_at ref a _ (up ref l d) fun c hc => up_within hw l d c hd hc]
    rfl
  have zero : ∀ a ∈ S, mon 0 a = ∑ c ∈ S, if up ref 0 c = some a then mon 0 c else 0 := by
    intro a ha
    rw [Finset.sum_eq_single_of_mem a ha]
    · simp [up]
    · intro c _ hc
      simp [up, hc]
  constructor
  · intro h a ha l hl
    induction l generalizing a with
    | zero => exact zero a ha
    | succ l ih =>
      rw [h a ha l (by omega), ← step a l]
      apply Finset.sum_congr rfl
      intro c hc
      rw [ih c hc (by omega)]
  · intro h a ha l hl
    rw [h a ha (l + 1) (by omega), ← step a l]
    apply Finset.sum_congr rfl
    intro c hc
    rw [h c hc l (by omega)]

end Verif.Referral
