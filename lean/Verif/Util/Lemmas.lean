import Verif.Util.Model
import Mathlib.Tactic.Ring
import Mathlib.Tactic.Linarith
import Mathlib.Tactic.FieldSimp
import Mathlib.Data.Rat.Floor
import Mathlib.Algebra.Order.Field.Rat

/-! Helper lemmas about the fraction arithmetic of `Verif.Util.Model`. -/
namespace Verif.Util

/-- The rational number a fraction stands for. -/
def Frac.toRat (x : Frac) : ℚ := (x.num : ℚ) / (x.denom : ℚ)

theorem quo?_ne {a b : Int} (h : b ≠ 0) : quo? a b = some (a.tdiv b) := by simp [quo?, h]

theorem goGcd_pos {x y : Int} (h : x ≠ 0 ∨ y ≠ 0) : 0 < goGcd x y := by
  have := Int.gcd_pos_iff.2 h
  unfold goGcd; omega

theorem goGcd_dvd_left (x y : Int) : goGcd x y ∣ x := Int.gcd_dvd_left ..
theorem goGcd_dvd_right (x y : Int) : goGcd x y ∣ y := Int.gcd_dvd_right ..

theorem lcm?_some {x y : Int} (hx : x ≠ 0) (hy : y ≠ 0) :
    ∃ l, lcm? x y = some l ∧ 0 < l ∧ x ∣ l ∧ y ∣ l ∧ ∀ m, x ∣ m → y ∣ m → l ∣ m := by
  have hg := goGcd_pos (x := x) (y := y) (Or.inl hx)
  obtain ⟨a, ha⟩ := goGcd_dvd_left x y
  obtain ⟨b, hb⟩ := goGcd_dvd_right x y
  have hlcm : ∀ m, x ∣ m → y ∣ m → x * b ∣ m := by
    intro m h1 h2
    have h3 : goGcd x y * (x * b) ∣ goGcd x y * m := by
      have e : goGcd x y * (x * b) = x * y := by conv_rhs => rw [hb]
                                                 ring
      rw [e]
      have : (goGcd x y) * m = Int.gcd x y * m := rfl
      rw [this, Int.gcd_eq_gcd_ab]
      obtain ⟨s, rfl⟩ := h1
      obtain ⟨t, ht⟩ := h2
      refine ⟨Int.gcdA x y * t + Int.gcdB x y * s, ?_⟩
      calc (x * Int.gcdA x y + y * Int.gcdB x y) * (x * s)
          = x * Int.gcdA x y * (x * s) + x * (y * Int.gcdB x y * s) := by ring
        _ = _ := by rw [ht]; ring
    exact Int.dvd_of_mul_dvd_mul_left hg.ne' h3
  have hq : (x * y).tdiv (goGcd x y) = x * b := by
    have : x * y = goGcd x y * (x * b) := by conv_lhs => rw [hb]
                                             ring
    rw [this, Int.mul_tdiv_cancel_left _ hg.ne']
  have hbne : b ≠ 0 := by rintro rfl; simp at hb; exact hy hb
  have hyx : y ∣ x * b := ⟨a, by conv_lhs => rw [ha]
                                 conv_rhs => rw [hb]
                                 ring⟩
  have hne : x * b ≠ 0 := mul_ne_zero hx hbne
  simp only [lcm?, quo?_ne hg.ne', hq]
  by_cases hneg : x * b < 0
  · refine ⟨-(x*b), by simp [hneg], by omega, ?_, ?_, ?_⟩
    · exact (Int.dvd_neg).2 ⟨b, rfl⟩
    · exact (Int.dvd_neg).2 hyx
    · intro m h1 h2; exact (Int.neg_dvd).2 (hlcm m h1 h2)
  · exact ⟨x*b, by simp [hneg], by omega, ⟨b, rfl⟩, hyx, hlcm⟩

namespace Frac

theorem reduce?_spec (x : Frac) (h : x.denom ≠ 0) :
    ∃ z, x.reduce? = some z ∧ 0 < z.denom ∧ Int.gcd z.num z.denom = 1 ∧ z.toRat = x.toRat := by
  obtain ⟨n, d⟩ := x
  simp only at h
  -- the positive case
  have key : ∀ n d : Int, 0 < d → ∃ z : Frac,
      ((do let a ← quo? n (goGcd n d); let b ← quo? d (goGcd n d); pure (⟨a, b⟩ : Frac)) : Option Frac)
        = some z ∧ 0 < z.denom ∧ Int.gcd z.num z.denom = 1 ∧ z.toRat = (⟨n, d⟩ : Frac).toRat := by
    intro n d hd
    have hg := goGcd_pos (x := n) (y := d) (Or.inr hd.ne')
    obtain ⟨a, ha⟩ := goGcd_dvd_left n d
    obtain ⟨b, hb⟩ := goGcd_dvd_right n d
    generalize hgg : goGcd n d = g at *
    have hbp : 0 < b := by
      rcases Int.lt_or_le 0 b with h | h
      · exact h
      · have := Int.mul_nonpos_of_nonneg_of_nonpos hg.le h
        omega
    refine ⟨⟨a, b⟩, ?_, hbp, ?_, ?_⟩
    · rw [quo?_ne hg.ne', quo?_ne hg.ne', ha, hb, Int.mul_tdiv_cancel_left _ hg.ne',
        Int.mul_tdiv_cancel_left _ hg.ne']
      rfl
    · have h1 : (Int.gcd n d : Int) = g := hgg
      rw [ha, hb, Int.gcd_mul_left] at h1
      have h2 : (g.natAbs : Int) = g := Int.natAbs_of_nonneg hg.le
      simp only
      have h3 : g * (Int.gcd a b : Int) = g * 1 := by
        rw [mul_one]; rw [Nat.cast_mul, h2] at h1; exact h1
      have := Int.eq_of_mul_eq_mul_left hg.ne' h3
      omega
    · unfold toRat
      simp only
      have e1 : (n : ℚ) = g * a := by rw [ha]; push_cast; ring
      have e2 : (d : ℚ) = g * b := by rw [hb]; push_cast; ring
      rw [e1, e2]
      have hgq : (g : ℚ) ≠ 0 := by exact_mod_cast hg.ne'
      have hbq : (b : ℚ) ≠ 0 := by exact_mod_cast hbp.ne'
      field_simp
  unfold reduce?
  by_cases hneg : d < 0
  · simp only [hneg, if_true]
    obtain ⟨z, h1, h2, h3, h4⟩ := key (-n) (-d) (by omega)
    refine ⟨z, h1, h2, h3, ?_⟩
    rw [h4]; unfold toRat; push_cast; exact neg_div_neg_eq _ _
  · simp only [hneg, if_false]
    exact key n d (by omega)

theorem mul?_spec (x y : Frac) (hx : x.denom ≠ 0) (hy : y.denom ≠ 0) :
    ∃ z, x.mul? y = some z ∧ 0 < z.denom ∧ Int.gcd z.num z.denom = 1 ∧ z.toRat = x.toRat * y.toRat := by
  obtain ⟨z, h1, h2, h3, h4⟩ := reduce?_spec ⟨x.num * y.num, x.denom * y.denom⟩ (mul_ne_zero hx hy)
  refine ⟨z, h1, h2, h3, ?_⟩
  rw [h4]; unfold toRat; push_cast; rw [mul_div_mul_comm]

theorem div?_spec (x y : Frac) (hx : x.denom ≠ 0) (hy : y.denom ≠ 0) (hn : y.num ≠ 0) :
    ∃ z, x.div? y = some z ∧ 0 < z.denom ∧ Int.gcd z.num z.denom = 1 ∧ z.toRat = x.toRat / y.toRat := by
  obtain ⟨z, h1, h2, h3, h4⟩ := reduce?_spec ⟨x.num * y.denom, x.denom * y.num⟩ (mul_ne_zero hx hn)
  refine ⟨z, h1, h2, h3, ?_⟩
  rw [h4]; unfold toRat; push_cast
  have : (x.denom : ℚ) ≠ 0 := by exact_mod_cast hx
  have : (y.denom : ℚ) ≠ 0 := by exact_mod_cast hy
  have : (y.num : ℚ) ≠ 0 := by exact_mod_cast hn
  field_simp

theorem neg_toRat (x : Frac) : x.neg.toRat = -x.toRat := by
  unfold neg toRat; push_cast; ring

theorem add?_spec (x y : Frac) (hx : x.denom ≠ 0) (hy : y.denom ≠ 0) :
    ∃ z, x.add? y = some z ∧ 0 < z.denom ∧ lcm? x.denom y.denom = some z.denom ∧
      x.denom ∣ z.denom ∧ y.denom ∣ z.denom ∧ z.toRat = x.toRat + y.toRat := by
  obtain ⟨l, h1, h2, ⟨a, ha⟩, ⟨b, hb⟩, -⟩ := lcm?_some hx hy
  refine ⟨⟨x.num * a + y.num * b, l⟩, ?_, h2, h1, ⟨a, ha⟩, ⟨b, hb⟩, ?_⟩
  · simp only [add?, h1, quo?_ne hx, quo?_ne hy]
    have e1 : (x.num * l).tdiv x.denom = x.num * a := by
      rw [ha, show x.num * (x.denom * a) = x.denom * (x.num * a) by ring, Int.mul_tdiv_cancel_left _ hx]
    have e2 : (y.num * l).tdiv y.denom = y.num * b := by
      rw [hb, show y.num * (y.denom * b) = y.denom * (y.num * b) by ring, Int.mul_tdiv_cancel_left _ hy]
    simp [e1, e2]
  · unfold toRat
    have : (x.denom : ℚ) ≠ 0 := by exact_mod_cast hx
    have : (y.denom : ℚ) ≠ 0 := by exact_mod_cast hy
    have hl : (l : ℚ) ≠ 0 := by exact_mod_cast h2.ne'
    have e1 : (l : ℚ) = x.denom * a := by rw [ha]; push_cast; ring
    have e2 : (l : ℚ) = y.denom * b := by rw [hb]; push_cast; ring
    push_cast
    rw [div_add_div _ _ ‹_› ‹_›, div_eq_div_iff hl (mul_ne_zero ‹_› ‹_›)]
    have e3 : (x.num * a + y.num * b : ℚ) * (x.denom * y.denom)
        = x.num * y.denom * (x.denom * a) + x.denom * y.num * (y.denom * b) := by ring
    rw [e3, ← e1, ← e2]; ring

theorem sub?_spec (x y : Frac) (hx : x.denom ≠ 0) (hy : y.denom ≠ 0) :
    ∃ z, x.sub? y = some z ∧ 0 < z.denom ∧ lcm? x.denom y.denom = some z.denom ∧
      x.denom ∣ z.denom ∧ y.denom ∣ z.denom ∧ z.toRat = x.toRat - y.toRat := by
  obtain ⟨z, h1, h2, h3, h4, h5, h6⟩ := add?_spec x y.neg hx hy
  exact ⟨z, h1, h2, h3, h4, h5, by rw [h6, neg_toRat]; ring⟩

theorem toRat_pos_iff (x : Frac) (h : 0 < x.denom) : 0 < x.toRat ↔ 0 < x.num := by
  have hd : (0 : ℚ) < x.denom := by exact_mod_cast h
  unfold toRat
  rw [div_pos_iff_of_pos_right hd]; exact_mod_cast Iff.rfl

theorem isPositive_iff (x : Frac) (h : x.denom ≠ 0) : x.isPositive = true ↔ 0 < x.toRat := by
  unfold isPositive toRat
  simp only [decide_eq_true_eq, gt_iff_lt]
  rcases lt_or_gt_of_ne h with hd | hd
  · have : (x.denom : ℚ) < 0 := by exact_mod_cast hd
    rw [Int.sign_eq_neg_one_of_neg hd, div_pos_iff]
    constructor
    · intro hh; right; refine ⟨?_, this⟩
      have : x.num.sign < 0 := by omega
      exact_mod_cast Int.sign_neg_iff.1 this
    · rintro (⟨-, h2⟩ | ⟨h1, -⟩)
      · linarith
      · have : x.num < 0 := by exact_mod_cast h1
        rw [Int.sign_eq_neg_one_of_neg this]; decide
  · have : (0 : ℚ) < x.denom := by exact_mod_cast hd
    rw [Int.sign_eq_one_of_pos hd, mul_one, Int.sign_pos_iff, div_pos_iff_of_pos_right this]
    exact_mod_cast Iff.rfl

theorem isNegative_iff (x : Frac) (h : x.denom ≠ 0) : x.isNegative = true ↔ x.toRat < 0 := by
  have := isPositive_iff x.neg h
  rw [neg_toRat] at this
  have e : x.neg.isPositive = x.isNegative := by
    unfold isPositive isNegative neg
    simp
  rw [e] at this
  rw [this]; constructor <;> intro <;> linarith

theorem isZero_iff (x : Frac) (h : x.denom ≠ 0) : x.isZero = true ↔ x.toRat = 0 := by
  unfold isZero toRat
  have : (x.denom : ℚ) ≠ 0 := by exact_mod_cast h
  simp [Int.sign_eq_zero_iff_zero, this]

theorem gt?_spec (x y : Frac) (hx : x.denom ≠ 0) (hy : y.denom ≠ 0) :
    x.gt? y = some (decide (x.toRat > y.toRat)) := by
  obtain ⟨z, h1, h2, -, -, -, h6⟩ := sub?_spec x y hx hy
  simp only [gt?, h1]
  have := isPositive_iff z h2.ne'
  rw [h6] at this
  have e : z.isPositive = decide (x.toRat > y.toRat) := by
    rw [Bool.eq_iff_iff, this, decide_eq_true_iff]
    constructor <;> intro <;> linarith
  simp [e]

theorem equal?_spec (x y : Frac) (hx : x.denom ≠ 0) (hy : y.denom ≠ 0) :
    x.equal? y = some (decide (x.toRat = y.toRat)) := by
  obtain ⟨z, h1, h2, -, -, -, h6⟩ := sub?_spec x y hx hy
  simp only [equal?, h1]
  have := isZero_iff z h2.ne'
  rw [h6] at this
  have e : z.isZero = decide (x.toRat = y.toRat) := by
    rw [Bool.eq_iff_iff, this, decide_eq_true_iff]
    constructor <;> intro <;> linarith
  simp [e]

theorem lt?_spec (x y : Frac) (hx : x.denom ≠ 0) (hy : y.denom ≠ 0) :
    x.lt? y = some (decide (x.toRat < y.toRat)) := gt?_spec y x hy hx

theorem gte?_spec (x y : Frac) (hx : x.denom ≠ 0) (hy : y.denom ≠ 0) :
    x.gte? y = some (decide (x.toRat ≥ y.toRat)) := by
  simp only [gte?, lt?_spec x y hx hy]
  simp [← not_lt]

theorem lte?_spec (x y : Frac) (hx : x.denom ≠ 0) (hy : y.denom ≠ 0) :
    x.lte? y = some (decide (x.toRat ≤ y.toRat)) := by
  simp only [lte?, gt?_spec x y hx hy]
  simp [← not_lt]

/-- Truncation of a non-negative fraction is the floor of the rational. -/
theorem bigInt?_floor (x : Frac) (hd : 0 < x.denom) (hn : 0 ≤ x.num) :
    x.bigInt? = some ⌊x.toRat⌋ := by
  unfold bigInt? toRat
  rw [quo?_ne hd.ne', Int.tdiv_eq_ediv_of_nonneg hn]
  congr 1
  have := Rat.floor_intCast_div_natCast x.num x.denom.toNat
  have e : ((x.denom.toNat : Nat) : ℤ) = x.denom := Int.toNat_of_nonneg hd.le
  have e2 : ((x.denom.toNat : Nat) : ℚ) = (x.denom : ℚ) := by
    rw [← Int.cast_natCast, e]
  rw [e, e2] at this
  exact this.symm

theorem int64?_eq (x : Frac) (v : Int) (h : x.bigInt? = some v) (hv : -(2 ^ 63) ≤ v ∧ v < 2 ^ 63) :
    x.int64? = some v := by
  simp only [int64?, h, wrap64, Option.bind_eq_bind, Option.bind_some]
  have : Int.bmod v (2 ^ 64) = v := by
    apply Int.bmod_eq_of_le <;> norm_num at * <;> omega
  rw [this]; rfl

end Frac

theorem isInt64_iff {x : Int} : isInt64 x = true ↔ -(2 ^ 63) ≤ x ∧ x < 2 ^ 63 := by
  simp [isInt64]

theorem sdkInt64?_eq {x : Int} (h : -(2 ^ 63) ≤ x ∧ x < 2 ^ 63) : sdkInt64? x = some x := by
  simp [sdkInt64?, isInt64_iff.2 h]

end Verif.Util
