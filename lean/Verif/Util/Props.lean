import Verif.Util.FeeLemmas
import Verif.Util.TextLemmas

/-! Properties C01 – C05: ratios and transaction fees.

The specification of the arithmetic is ℚ (`Frac.toRat x = num / denom`), the specification of a fee is the
greatest element of a set of integers. -/
namespace Verif.Util
open Frac

/-! ### C01 -/

/-- C01: reading back the text of a ratio gives the same numerator and denominator. -/
theorem C01_text_round_trip (x : Frac) (h : 0 ≤ x.denom) :
    parseFraction (fracText (some x)) = some (some x) := by
  obtain ⟨n, d⟩ := x
  simp only at h
  simp only [fracText]
  generalize hr : (if d = 100 then ['%'] else if d = 1 then [] else '/' :: intText d) = r
  have hne := intText_ne n r
  have hdig : ∀ c cs, r = c :: cs → isDigit c = false := by
    intro c cs hc
    rw [← hr] at hc
    split at hc
    · cases hc; decide
    · split at hc
      · cases hc
      · cases hc; decide
  unfold parseFraction
  rw [if_neg (by simp only [not_or]; exact hne), spanInt_intText n r hdig]
  by_cases h100 : d = 100
  · subst h100; simp only [if_true] at hr; subst hr; simp [scanInt_intText]
  · by_cases h1 : d = 1
    · subst h1; simp at hr; subst hr; simp [scanInt_intText]
    · simp only [h100, h1, if_false] at hr
      subst hr
      have hd : intText d = natText d.natAbs := by unfold intText; rw [if_neg (by omega)]
      simp only [hd, natText_all', List.isEmpty_eq_false_iff.2 (natText_ne_nil d.natAbs), scanNat_natText,
        scanInt_intText]
      simp; omega

/-- C01: the null value round-trips. -/
theorem C01_null_round_trip : parseFraction (fracText none) = some none := by decide

/-- C01: the text of a ratio with a negative denominator is refused. -/
theorem C01_negative_denominator_refused (x : Frac) (h : x.denom < 0) :
    parseFraction (fracText (some x)) = none := by
  obtain ⟨n, d⟩ := x
  simp only at h
  simp only [fracText, if_neg (show ¬ d = 100 by omega), if_neg (show ¬ d = 1 by omega)]
  have hne := intText_ne n ('/' :: intText d)
  unfold parseFraction
  rw [if_neg (by simp only [not_or]; exact hne),
    spanInt_intText n ('/' :: intText d) (by intro c cs hc; cases hc; decide)]
  have : intText d = '-' :: natText d.natAbs := by unfold intText; rw [if_pos h]
  simp [this, show isDigit '-' = false by decide]

/-- C01: no text at all is read as a ratio with a negative denominator. -/
theorem C01_parsed_denominator_nonneg (s : List Char) (x : Frac) (h : parseFraction s = some (some x)) :
    0 ≤ x.denom := by
  unfold parseFraction at h
  split at h
  · simp at h
  · split at h
    · simp at h
    · rcases hh : scanInt ‹_› with _ | v <;> simp [hh] at h; rw [← h]; simp
    · rcases hh : scanInt ‹_› with _ | v <;> simp [hh] at h; rw [← h]; simp
    · split at h
      · simp at h
      · rename_i n d _ _
        rcases h1 : scanNat d with _ | d'
        · simp [h1] at h
        · rcases h2 : scanInt n with _ | n'
          · simp [h1, h2] at h
          · simp [h1, h2] at h; rw [← h]; simp
    · simp at h

/-- Distinct ratios (denominators ≥ 0) have distinct texts. -/
theorem C01_text_injective (x y : Frac) (hx : 0 ≤ x.denom) (hy : 0 ≤ y.denom)
    (h : fracText (some x) = fracText (some y)) : x = y := by
  have h1 := C01_text_round_trip x hx
  rw [h, C01_text_round_trip y hy] at h1
  simpa using h1.symm

-- the three notations, and the octal trap of `big.Int.UnmarshalText`
example : fracText (some ⟨-25, 100⟩) = "-25%".toList ∧ fracText (some ⟨7, 1⟩) = "7".toList ∧
    fracText (some ⟨3, 1000⟩) = "3/1000".toList := by decide +kernel
example : parseFraction "010%".toList = some (some ⟨8, 100⟩) := by decide +kernel

/-! ### C02 -/

/-- C02: arithmetic is exact and never panics on non-zero denominators; products and quotients come out
in lowest terms. -/
theorem C02_arithmetic_exact (x y : Frac) (hx : x.denom ≠ 0) (hy : y.denom ≠ 0) :
    (∃ z, x.add? y = some z ∧ z.denom ≠ 0 ∧ z.toRat = x.toRat + y.toRat) ∧
    (∃ z, x.sub? y = some z ∧ z.denom ≠ 0 ∧ z.toRat = x.toRat - y.toRat) ∧
    (∃ z, x.mul? y = some z ∧ 0 < z.denom ∧ Int.gcd z.num z.denom = 1 ∧ z.toRat = x.toRat * y.toRat) ∧
    (y.toRat ≠ 0 →
      ∃ z, x.div? y = some z ∧ 0 < z.denom ∧ Int.gcd z.num z.denom = 1 ∧ z.toRat = x.toRat / y.toRat) ∧
    (∃ z, x.reduce? = some z ∧ 0 < z.denom ∧ Int.gcd z.num z.denom = 1 ∧ z.toRat = x.toRat) ∧
    x.neg.denom ≠ 0 ∧ x.neg.toRat = - x.toRat := by
  refine ⟨?_, ?_, mul?_spec x y hx hy, ?_, reduce?_spec x hx, hx, neg_toRat x⟩
  · obtain ⟨z, h1, h2, -, -, -, h6⟩ := add?_spec x y hx hy
    exact ⟨z, h1, h2.ne', h6⟩
  · obtain ⟨z, h1, h2, -, -, -, h6⟩ := sub?_spec x y hx hy
    exact ⟨z, h1, h2.ne', h6⟩
  · intro h
    apply div?_spec x y hx hy
    intro h0; apply h; simp [toRat, h0]

/-- C02: the comparisons and sign tests agree with ℚ. -/
theorem C02_comparisons_exact (x y : Frac) (hx : x.denom ≠ 0) (hy : y.denom ≠ 0) :
    x.equal? y = some (decide (x.toRat = y.toRat)) ∧
    x.gt? y = some (decide (x.toRat > y.toRat)) ∧
    x.lt? y = some (decide (x.toRat < y.toRat)) ∧
    x.gte? y = some (decide (x.toRat ≥ y.toRat)) ∧
    x.lte? y = some (decide (x.toRat ≤ y.toRat)) ∧
    (x.isZero = true ↔ x.toRat = 0) ∧ (x.isNegative = true ↔ x.toRat < 0) ∧
    (x.isPositive = true ↔ x.toRat > 0) :=
  ⟨equal?_spec x y hx hy, gt?_spec x y hx hy, lt?_spec x y hx hy, gte?_spec x y hx hy, lte?_spec x y hx hy,
   isZero_iff x hx, isNegative_iff x hx, isPositive_iff x hx⟩

/-- C02: outside the guard – a zero denominator makes the sum panic, a zero divisor makes conversion of the
quotient to an integer panic. -/
theorem C02_zero_denominator_panics (x y : Frac) (h : x.denom = 0 ∨ y.denom = 0) : x.add? y = none := by
  rcases hz : x.add? y with _ | z
  · rfl
  · have := add?_denoms hz; omega

example : (⟨1, -2⟩ : Frac).add? ⟨-5, 6⟩ = some ⟨-8, 6⟩ ∧ (⟨1, -2⟩ : Frac).mul? ⟨-5, 6⟩ = some ⟨5, 12⟩ := by
  decide +kernel

/-! ### C03 -/

/-- `l` is the least common multiple of the denominators of the two ratios: the split granularity. -/
def IsGranularity (p c : Frac) (l : Int) : Prop :=
  0 < l ∧ p.denom ∣ l ∧ c.denom ∣ l ∧ ∀ m, 0 < m → p.denom ∣ m → c.denom ∣ m → l ≤ m

/-- The fees the rule allows for a payment. -/
def AllowedFee (q : FeeParams) (l amount f : Int) : Prop :=
  l ∣ f ∧ (f : ℚ) ≤ q.rate.toRat * amount ∧ (q.maxFee ≠ 0 → f ≤ q.maxFee)

/-- C03 (partial: the full claim speaks of every accepted rate; here the rate has a non-zero denominator and
`rate * amount` fits in 64 bits – see `C03_fee_can_be_negative` for what happens otherwise). -/
theorem C03_fee_is_largest_splittable_partial (q : FeeParams) (amount : Int)
    (hv : validateFeeParams? q = some true) (hr : q.rate.denom ≠ 0)
    (h0 : 0 ≤ amount) (h1 : amount < 2 ^ 63) (hfit : q.rate.toRat * amount < 2 ^ 63) :
    ∃ fee l, IsGranularity q.forProposer q.forCompany l ∧
      calculateFee? amount q.rate q.maxFee q.forProposer q.forCompany = some fee ∧
      AllowedFee q l amount fee ∧ (∀ f, AllowedFee q l amount f → f ≤ fee) ∧ 0 ≤ fee := by
  obtain ⟨v1, v2, v3, v4, -, -, -, -⟩ := validate_accept hv
  have hrate : 0 ≤ q.rate.toRat := by
    by_contra hh
    have := (isNegative_iff _ hr).2 (not_le.1 hh)
    rw [v1] at this; cases this
  obtain ⟨l, g1, g2, g3, g4, g5⟩ := splitLcm?_spec _ _ v3 v4
  have hamt : (0 : ℚ) ≤ amount := by exact_mod_cast h0
  obtain ⟨z, m1, m2⟩ := mulInt_int64 q.rate amount hr (mul_nonneg hrate hamt) hfit
  set fl := ⌊q.rate.toRat * amount⌋ with hfl
  set lim := if q.maxFee ≠ 0 ∧ fl > q.maxFee then q.maxFee else fl with hlim
  have hfl0 : 0 ≤ fl := Int.floor_nonneg.2 (mul_nonneg hrate hamt)
  have hlim0 : 0 ≤ lim := by rw [hlim]; split <;> omega
  have hlimspec : ∀ f : Int, f ≤ lim ↔ ((f : ℚ) ≤ q.rate.toRat * amount ∧ (q.maxFee ≠ 0 → f ≤ q.maxFee)) := by
    intro f
    rw [← Int.le_floor, ← hfl, hlim]
    split <;> omega
  obtain ⟨d1, d2, d3⟩ := largest_multiple lim l g2
  refine ⟨lim - lim % l, l, ⟨g2, g3, g4, ?_⟩, ?_, ⟨d1, ?_⟩, ?_, ?_⟩
  · intro m hm a b; exact Int.le_of_dvd hm (g5 m a b)
  · simp [calculateFee?, sdkInt64?_eq ⟨by omega, h1⟩, m1, m2, splittableFee?, g1, g2.ne', hlim]
  · exact (hlimspec _).1 d2
  · rintro f ⟨f1, f2⟩; exact d3 f f1 ((hlimspec f).2 f2)
  · have := d3 0 (Int.dvd_zero l) hlim0; exact this

/-- C03: for rates between 0 and 1 (all that a governance proposal can set) no size condition is needed, and
the fee never exceeds the amount. -/
theorem C03_fee_within_amount_partial (q : FeeParams) (amount : Int)
    (hv : validateFeeParams? q = some true) (hr : q.rate.denom ≠ 0) (hle : q.rate.toRat ≤ 1)
    (h0 : 0 ≤ amount) (h1 : amount < 2 ^ 63) :
    ∃ fee l, IsGranularity q.forProposer q.forCompany l ∧
      calculateFee? amount q.rate q.maxFee q.forProposer q.forCompany = some fee ∧
      AllowedFee q l amount fee ∧ (∀ f, AllowedFee q l amount f → f ≤ fee) ∧ 0 ≤ fee ∧ fee ≤ amount := by
  have hamt : (0 : ℚ) ≤ amount := by exact_mod_cast h0
  have hx : q.rate.toRat * amount ≤ amount := by nlinarith
  have ha : (amount : ℚ) < 2 ^ 63 := by exact_mod_cast h1
  obtain ⟨fee, l, a, b, c, d, e⟩ :=
    C03_fee_is_largest_splittable_partial q amount hv hr h0 h1 (lt_of_le_of_lt hx ha)
  refine ⟨fee, l, a, b, c, d, e, ?_⟩
  have := c.2.1.trans hx
  exact_mod_cast this

/-- Amounts that do not fit in 64 bits are refused (the conversion panics). -/
theorem C03_huge_amount_refused (q : FeeParams) (amount : Int) (h : 2 ^ 63 ≤ amount) :
    calculateFee? amount q.rate q.maxFee q.forProposer q.forCompany = none := by
  have : sdkInt64? amount = none := by
    unfold sdkInt64?
    have : isInt64 amount = false := by simp [isInt64]; omega
    simp [this]
  simp [calculateFee?, this]

/-- C03 fails for accepted rates above 1: the 64-bit conversion wraps around and the "fee" is negative. -/
theorem C03_fee_can_be_negative :
    ∃ q amount fee, validateFeeParams? q = some true ∧ 0 ≤ amount ∧ amount < 2 ^ 63 ∧
      calculateFee? amount q.rate q.maxFee q.forProposer q.forCompany = some fee ∧ fee < 0 := by
  refine ⟨⟨⟨2, 1⟩, 0, ⟨50, 100⟩, ⟨25, 100⟩⟩, 2 ^ 62, -(2 ^ 63) - (-(2 ^ 63)) % 100, ?_⟩
  decide +kernel

-- the default parameters (0.3 %, cap 10 ARTR, …) are accepted, and a fee is charged
example : validateFeeParams? ⟨⟨3, 1000⟩, 10000000, ⟨1, 2⟩, ⟨3, 10⟩⟩ = some true ∧
    calculateFee? 1234567 ⟨3, 1000⟩ 10000000 ⟨1, 2⟩ ⟨3, 10⟩ = some 3700 := by decide +kernel

/-! ### C04 -/

/-- C04: a fee that is a multiple of the granularity is divided exactly. -/
theorem C04_split_exact (q : FeeParams) (l fee : Int) (hv : validateFeeParams? q = some true)
    (hl : IsGranularity q.forProposer q.forCompany l) (hd : l ∣ fee) (h0 : 0 ≤ fee) (h1 : fee < 2 ^ 63) :
    ∃ a b c, splitFee? fee q.forProposer q.forCompany = some (a, b, c) ∧
      (a : ℚ) = q.forProposer.toRat * fee ∧ (b : ℚ) = q.forCompany.toRat * fee ∧
      (c : ℚ) = (1 - q.forProposer.toRat - q.forCompany.toRat) * fee ∧
      a + b + c = fee ∧ 0 ≤ a ∧ 0 ≤ b ∧ 0 ≤ c := by
  obtain ⟨-, -, v3, v4, v5, v6, v7, -⟩ := validate_accept hv
  obtain ⟨g2, g3, g4, -⟩ := hl
  obtain ⟨bu, b1, b2, b3, -, -, b6⟩ := burning_spec _ _ v3 v4
  have hf : (0 : ℚ) ≤ fee := by exact_mod_cast h0
  have hf1 : (fee : ℚ) < 2 ^ 63 := by exact_mod_cast h1
  have hb0 : 0 ≤ bu.toRat := by rw [b3]; linarith
  have key : ∀ x : Frac, x.denom ≠ 0 → 0 ≤ x.toRat → x.toRat ≤ 1 → x.denom ∣ fee →
      ∃ z k, x.mulInt? fee = some z ∧ z.int64? = some k ∧ (k : ℚ) = x.toRat * fee ∧ 0 ≤ k := by
    intro x hx x0 x1 xd
    have h2 : x.toRat * fee ≤ fee := by nlinarith
    obtain ⟨z, e1, e2⟩ := mulInt_int64 x fee hx (mul_nonneg x0 hf) (lt_of_le_of_lt h2 hf1)
    obtain ⟨k, hk⟩ := mul_int_of_dvd x hx fee xd
    refine ⟨z, k, e1, ?_, hk.symm, ?_⟩
    · rw [e2, hk, Int.floor_intCast]
    · have := mul_nonneg x0 hf; rw [hk] at this; exact_mod_cast this
  obtain ⟨z1, a, p1, p2, p3, p4⟩ := key q.forProposer v3 v5 (by linarith) (g3.trans hd)
  obtain ⟨z2, b, c1, c2, c3, c4⟩ := key q.forCompany v4 v6 (by linarith) (g4.trans hd)
  obtain ⟨z3, c, d1, d2, d3, d4⟩ := key bu b2.ne' hb0 (by rw [b3]; linarith)
    (b6 fee (g3.trans hd) (g4.trans hd))
  refine ⟨a, b, c, ?_, p3, c3, by rw [d3, b3], ?_, p4, c4, d4⟩
  · simp [splitFee?, sdkInt64?_eq (x := fee) ⟨by omega, h1⟩, p1, p2, c1, c2, b1, d1, d2]
  · have : ((a + b + c : Int) : ℚ) = (fee : ℚ) := by
      push_cast; rw [p3, c3, d3, b3]; ring
    exact_mod_cast this

/-- C04: in particular every fee produced by the fee rule is divided without rounding. -/
theorem C04_charged_fee_splits_exactly (q : FeeParams) (amount : Int)
    (hv : validateFeeParams? q = some true) (hr : q.rate.denom ≠ 0) (hle : q.rate.toRat ≤ 1)
    (h0 : 0 ≤ amount) (h1 : amount < 2 ^ 63) :
    ∃ fee a b c, calculateFee? amount q.rate q.maxFee q.forProposer q.forCompany = some fee ∧
      splitFee? fee q.forProposer q.forCompany = some (a, b, c) ∧
      (a : ℚ) = q.forProposer.toRat * fee ∧ (b : ℚ) = q.forCompany.toRat * fee ∧
      a + b + c = fee ∧ 0 ≤ a ∧ 0 ≤ b ∧ 0 ≤ c := by
  obtain ⟨fee, l, g, e, al, -, p, s⟩ := C03_fee_within_amount_partial q amount hv hr hle h0 h1
  obtain ⟨a, b, c, s1, s2, s3, -, s5, s6, s7, s8⟩ := C04_split_exact q l fee hv g al.1 p (by omega)
  exact ⟨fee, a, b, c, e, s1, s2, s3, s5, s6, s7, s8⟩

/-- C04: for an arbitrary amount in the pool each part is its ratio rounded down, so nothing is created and at
most two base units are left over. -/
theorem C04_split_never_creates (q : FeeParams) (fee : Int) (hv : validateFeeParams? q = some true)
    (h0 : 0 ≤ fee) (h1 : fee < 2 ^ 63) :
    ∃ a b c, splitFee? fee q.forProposer q.forCompany = some (a, b, c) ∧
      a = ⌊q.forProposer.toRat * fee⌋ ∧ b = ⌊q.forCompany.toRat * fee⌋ ∧
      0 ≤ a ∧ 0 ≤ b ∧ 0 ≤ c ∧ a + b + c ≤ fee ∧ fee ≤ a + b + c + 2 := by
  obtain ⟨-, -, v3, v4, v5, v6, v7, -⟩ := validate_accept hv
  obtain ⟨bu, b1, b2, b3, -, -, -⟩ := burning_spec _ _ v3 v4
  have hf : (0 : ℚ) ≤ fee := by exact_mod_cast h0
  have hf1 : (fee : ℚ) < 2 ^ 63 := by exact_mod_cast h1
  have hb0 : 0 ≤ bu.toRat := by rw [b3]; linarith
  have key : ∀ x : Frac, x.denom ≠ 0 → 0 ≤ x.toRat → x.toRat ≤ 1 →
      ∃ z, x.mulInt? fee = some z ∧ z.int64? = some ⌊x.toRat * fee⌋ ∧ 0 ≤ ⌊x.toRat * fee⌋ := by
    intro x hx x0 x1
    have h2 : x.toRat * fee ≤ fee := by nlinarith
    obtain ⟨z, e1, e2⟩ := mulInt_int64 x fee hx (mul_nonneg x0 hf) (lt_of_le_of_lt h2 hf1)
    exact ⟨z, e1, e2, Int.floor_nonneg.2 (mul_nonneg x0 hf)⟩
  obtain ⟨z1, p1, p2, p3⟩ := key q.forProposer v3 v5 (by linarith)
  obtain ⟨z2, c1, c2, c3⟩ := key q.forCompany v4 v6 (by linarith)
  obtain ⟨z3, d1, d2, d3⟩ := key bu b2.ne' hb0 (by rw [b3]; linarith)
  refine ⟨_, _, ⌊bu.toRat * fee⌋, ?_, rfl, rfl, p3, c3, d3, ?_, ?_⟩
  · simp [splitFee?, sdkInt64?_eq (x := fee) ⟨by omega, h1⟩, p1, p2, c1, c2, b1, d1, d2]
  · have e1 := Int.floor_le (q.forProposer.toRat * fee)
    have e2 := Int.floor_le (q.forCompany.toRat * fee)
    have e3 := Int.floor_le (bu.toRat * fee)
    have : ((⌊q.forProposer.toRat * fee⌋ + ⌊q.forCompany.toRat * fee⌋ + ⌊bu.toRat * fee⌋ : Int) : ℚ) ≤ fee := by
      push_cast
      have : q.forProposer.toRat * fee + q.forCompany.toRat * fee + bu.toRat * fee = fee := by rw [b3]; ring
      linarith
    exact_mod_cast this
  · have e1 := Int.lt_floor_add_one (q.forProposer.toRat * fee)
    have e2 := Int.lt_floor_add_one (q.forCompany.toRat * fee)
    have e3 := Int.lt_floor_add_one (bu.toRat * fee)
    have : (fee : ℚ) < ((⌊q.forProposer.toRat * fee⌋ + ⌊q.forCompany.toRat * fee⌋ + ⌊bu.toRat * fee⌋ + 3 : Int) : ℚ) := by
      push_cast
      have : q.forProposer.toRat * fee + q.forCompany.toRat * fee + bu.toRat * fee = fee := by rw [b3]; ring
      linarith
    have h3 := Int.cast_lt.1 this
    omega

example : splitFee? 3700 ⟨1, 2⟩ ⟨3, 10⟩ = some (1850, 1110, 740) ∧
    splitFee? 3 ⟨1, 2⟩ ⟨3, 10⟩ = some (1, 0, 0) := by decide +kernel

/-! ### C05 -/

/-- C05 (partial): the split ratios of an accepted parameter set have non-zero denominators (positive ones if they
were read from text, `C01_parsed_denominator_nonneg`), lie in [0,1], sum to at most 1 and have granularity 1 … 100;
splitting never aborts.  Missing from the full claim: the *rate* may have a zero denominator, see
`C05_accepted_rate_can_abort`. -/
theorem C05_accepted_params_sound_partial (q : FeeParams) (hv : validateFeeParams? q = some true)
    (hp : 0 ≤ q.forProposer.denom) (hc : 0 ≤ q.forCompany.denom) :
    0 < q.forProposer.denom ∧ 0 < q.forCompany.denom ∧
    0 ≤ q.forProposer.toRat ∧ 0 ≤ q.forCompany.toRat ∧ q.forProposer.toRat + q.forCompany.toRat ≤ 1 ∧
    (∃ l, IsGranularity q.forProposer q.forCompany l ∧ 1 ≤ l ∧ l ≤ 100) ∧
    (∀ fee, 0 ≤ fee → fee < 2 ^ 63 → (splitFee? fee q.forProposer q.forCompany).isSome) ∧
    (q.rate.denom ≠ 0 → ∀ amount, 0 ≤ amount → amount < 2 ^ 63 →
      (calculateFee? amount q.rate q.maxFee q.forProposer q.forCompany).isSome) := by
  obtain ⟨v1, v2, v3, v4, v5, v6, v7, l0, v8, v9⟩ := validate_accept hv
  obtain ⟨l, g1, g2, g3, g4, g5⟩ := splitLcm?_spec _ _ v3 v4
  rw [v8] at g1; cases g1
  refine ⟨by omega, by omega, v5, v6, v7, ⟨_, ⟨g2, g3, g4, fun m hm a b => Int.le_of_dvd hm (g5 m a b)⟩,
    by omega, v9⟩, ?_, ?_⟩
  · intro fee h0 h1
    obtain ⟨a, b, c, h, -⟩ := C04_split_never_creates q fee hv h0 h1
    simp [h]
  · intro hr amount h0 h1
    obtain ⟨z, m1, m2, -, -⟩ := mul?_spec q.rate (ofInt amount) hr (by simp [ofInt])
    have m1' : q.rate.mulInt? amount = some z := m1
    simp [calculateFee?, sdkInt64?_eq ⟨by omega, h1⟩, m1', int64?, bigInt?, quo?_ne m2.ne',
      splittableFee?, v8, g2.ne']

/-- C05 fails: the rate `1/0` (which `ParseFraction` reads without complaint) passes validation, and then charging a
fee panics for every payment. -/
theorem C05_accepted_rate_can_abort :
    ∃ q : FeeParams, parseFraction "1/0".toList = some (some q.rate) ∧ validateFeeParams? q = some true ∧
      ∀ amount, calculateFee? amount q.rate q.maxFee q.forProposer q.forCompany = none := by
  refine ⟨⟨⟨1, 0⟩, 0, ⟨50, 100⟩, ⟨25, 100⟩⟩, by decide +kernel, by decide +kernel, ?_⟩
  intro amount
  simp only [calculateFee?]
  rcases sdkInt64? amount with _ | a
  · rfl
  · simp only [Option.bind_eq_bind, Option.bind_some]
    rcases hz : mulInt? ⟨1, 0⟩ a with _ | z
    · rfl
    · have : z.denom = 0 := by
        simp only [mulInt?, mul?, ofInt, reduce?, quo?] at hz
        simp at hz
        split at hz
        · simp at hz
        · simp at hz; rw [← hz]
      simp [int64?, bigInt?, quo?, this]

end Verif.Util
