import Verif.Referral.Totals2
import Mathlib.Algebra.Order.BigOperators.Group.List

/-! In a structure with right totals, the sums that the status check needs fit. -/
namespace Verif.Referral
open Relation

/-- The sums of delegations that the status check computes can be read as `uint64`. -/
def Affordable (v : Info) : Prop := ∀ n, n ≤ 10 → 0 ≤ v.delegatedUpTo n ∧ v.delegatedUpTo n < 18446744073709551616

theorem Affordable.congr {v w : Info} (h : Affordable v) (e : ∀ l, w.tot .delegated l = v.tot .delegated l) : Affordable w := by
  have : ∀ n, w.delegatedUpTo n = v.delegatedUpTo n := by
    intro n
    induction n with
    | zero => exact e 0
    | succ n ih => show w.delegatedUpTo n + _ = v.delegatedUpTo n + _; rw [ih, e]
  intro n hn
  rw [this]
  exact h n hn

/-- The account `n + 1` steps above -/
def upN (I : View) : Nat → Key → Option Key
  | 0, c => (I c).referrer
  | n + 1, c => (upN I n c).bind fun b => (I b).referrer

theorem upN_add (I : View) (l : Nat) (c : Key) : ∀ j, upN I (l + 1 + j) c = (upN I l c).bind (upN I j) := by
  intro j
  induction j with
  | zero => show (upN I l c).bind _ = _; rfl
  | succ j ih =>
    show (upN I (l + 1 + j) c).bind _ = _
    rw [ih, Option.bind_assoc]; rfl

theorem upN_over {I : View} : ∀ (n : Nat) (c a : Key), upN I n c = some a → TransGen (treeOf I).over a c := by
  intro n
  induction n with
  | zero => intro c a h; exact .single h
  | succ n ih =>
    intro c a h
    unfold upN at h
    rw [Option.bind_eq_some_iff] at h
    obtain ⟨b, hb, h⟩ := h
    exact .head h (ih c b hb)

theorem depth_upN {I : View} {P : Key → Prop} (hf : Forest (treeOf I) P) : ∀ (l : Nat) (a c : Key), c ∈ depth I l a → upN I l c = some a := by
  intro l
  induction l with
  | zero => intro a c h; exact ((hf.mem a c).1 h).1
  | succ l ih =>
    intro a c h
    have h : c ∈ (I a).referrals.flatMap (depth I l) := h
    rw [List.mem_flatMap] at h
    obtain ⟨b, hb, hc⟩ := h
    show (upN I l c).bind _ = _
    rw [ih b c hc]
    exact ((hf.mem a b).1 hb).1

theorem depth_once {I : View} {P : Key → Prop} (hf : Forest (treeOf I) P) : ∀ (l : Nat) (a : Key), (depth I l a).Nodup := by
  intro l
  induction l with
  | zero => intro a; exact hf.nodup a
  | succ l ih =>
    intro a
    show ((I a).referrals.flatMap (depth I l)).Nodup
    rw [List.nodup_flatMap]
    refine ⟨fun b _ => ih b, List.Pairwise.imp_of_mem ?_ (hf.nodup a)⟩
    intro b b' _ _ hne c hc hc'
    have e1 := depth_upN hf l b c hc
    have e2 := depth_upN hf l b' c hc'
    rw [e1] at e2
    injection e2 with e2
    exact hne e2

/-- The account and everybody up to `n` levels below it -/
def reach (I : View) (n : Nat) (a : Key) : List Key := a :: (List.range n).flatMap fun l => depth I l a

theorem reach_once {I : View} {P : Key → Prop} (hf : Forest (treeOf I) P) (n : Nat) (a : Key) : (reach I n a).Nodup := by
  have irr : ∀ x, ¬ TransGen (treeOf I).over x x := fun x h => no_loop hf h .refl
  refine List.nodup_cons.2 ⟨?_, ?_⟩
  · rw [List.mem_flatMap]
    rintro ⟨l, -, h⟩
    exact irr a (upN_over _ _ _ (depth_upN hf l a a h))
  · rw [List.nodup_flatMap]
    refine ⟨fun l _ => depth_once hf l a, ?_⟩
    refine List.Pairwise.imp ?_ (List.pairwise_lt_range (n := n))
    intro l m hlm c hc hc'
    have e1 := depth_upN hf l a c hc
    have e2 := depth_upN hf m a c hc'
    obtain ⟨j, rfl⟩ : ∃ j, m = l + 1 + j := ⟨m - (l + 1), by omega⟩
    rw [upN_add, e1] at e2
    exact irr a (upN_over _ _ _ e2)

theorem sum_reach {I : View} (h : Sums 10 I) (w : What) (a : Key) : ∀ n, n ≤ 10 →
    ((reach I n a).map fun c => (I c).tot w 0).sum = (I a).tot w 0 + ((List.range n).map fun l => (I a).tot w (l + 1)).sum := by
  intro n hn
  unfold reach
  rw [List.map_cons, List.sum_cons]
  congr 1
  induction n with
  | zero => rfl
  | succ n ih =>
    rw [List.range_succ, List.flatMap_append, List.map_append, List.sum_append, List.map_append, List.sum_append, ih (by omega)]
    congr 1
    simp only [List.flatMap_cons, List.flatMap_nil, List.append_nil, List.map_cons, List.map_nil, List.sum_cons, List.sum_nil, _root_.add_zero]
    exact (sum_depth h w n a (by omega)).symm

theorem upTo_eq (v : Info) (n : Nat) : v.delegatedUpTo n = v.tot .delegated 0 + ((List.range n).map fun l => v.tot .delegated (l + 1)).sum := by
  induction n with
  | zero => simp [Info.delegatedUpTo]
  | succ n ih =>
    show v.delegatedUpTo n + _ = _
    rw [ih, List.range_succ, List.map_append, List.sum_append]
    simp
    ring

theorem sum_le_of_support : ∀ (L K : List Key) (f : Key → Int), L.Nodup → (∀ c, 0 ≤ f c) → (∀ c, c ∉ K → f c = 0) →
    (L.map f).sum ≤ (K.map f).sum := by
  intro L
  induction L with
  | nil => intro K f _ h0 _; exact List.sum_nonneg (by simpa using fun c _ => h0 c)
  | cons y L ih =>
    intro K f hL h0 hz
    rw [List.nodup_cons] at hL
    rw [List.map_cons, List.sum_cons]
    by_cases hy : y ∈ K
    · have e1 : L.map f = L.map (fun c => if c = y then 0 else f c) := by
        refine List.map_congr_left fun c hc => ?_
        rw [if_neg]; rintro rfl; exact hL.1 hc
      have h2 := ih (K.erase y) (fun c => if c = y then 0 else f c) hL.2 (fun c => by
        show 0 ≤ if c = y then 0 else f c
        split
        · exact le_rfl
        · exact h0 c) (fun c hc => by
        show (if c = y then 0 else f c) = 0
        split
        · rfl
        · rename_i hcy
          exact hz c fun h => hc ((List.mem_erase_of_ne hcy).2 h))
      have h3 : ((K.erase y).map (fun c => if c = y then 0 else f c)).sum ≤ ((K.erase y).map f).sum := by
        refine List.sum_le_sum fun c _ => ?_
        show (if c = y then 0 else f c) ≤ f c
        split
        · exact h0 c
        · exact le_rfl
      have h4 := ((List.perm_cons_erase hy).map f).sum_eq
      rw [List.map_cons, List.sum_cons] at h4
      rw [h4, e1]
      linarith
    · rw [hz y hy]
      have := ih K f hL.2 h0 hz
      linarith

/-- Right totals and own delegations that are not negative and sum up to less than 2⁶⁴ -/
theorem Neat.affordable {P : Key → Prop} {I : View} (h : Neat 10 P I) {K : List Key} (h0 : ∀ c, 0 ≤ (I c).tot .delegated 0)
    (hz : ∀ c, c ∉ K → (I c).tot .delegated 0 = 0) (hb : (K.map fun c => (I c).tot .delegated 0).sum < 18446744073709551616) (a : Key) :
    Affordable (I a) := by
  intro n hn
  rw [upTo_eq, ← sum_reach h.sums .delegated a n hn]
  refine ⟨List.sum_nonneg (by simpa using fun c _ => h0 c), ?_⟩
  exact (sum_le_of_support _ _ _ (reach_once h.forest n a) h0 hz).trans_lt hb

end Verif.Referral
