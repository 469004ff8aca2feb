import Verif.Util.Lemmas

/-! Helper lemmas about fees (`/repo/util/fee.go` and the bank fee parameters). -/
namespace Verif.Util
open Frac

theorem add?_denoms {x y z : Frac} (h : x.add? y = some z) : x.denom ≠ 0 ∧ y.denom ≠ 0 := by
  simp only [add?, quo?] at h
  rcases h1 : lcm? x.denom y.denom with _ | l
  · simp [h1] at h
  · rw [h1] at h
    by_cases hx : x.denom = 0
    · simp [hx] at h
    · by_cases hy : y.denom = 0
      · simp [hy] at h
      · exact ⟨hx, hy⟩

/-- What acceptance by `validateFeeParams?` gives. -/
theorem validate_accept {q : FeeParams} (h : validateFeeParams? q = some true) :
    q.rate.isNegative = false ∧ 0 ≤ q.maxFee ∧ q.forProposer.denom ≠ 0 ∧ q.forCompany.denom ≠ 0 ∧
    0 ≤ q.forProposer.toRat ∧ 0 ≤ q.forCompany.toRat ∧ q.forProposer.toRat + q.forCompany.toRat ≤ 1 ∧
    ∃ l, splitLcm? q.forProposer q.forCompany = some l ∧ l ≤ 100 := by
  unfold validateFeeParams? at h
  by_cases h1 : q.rate.isNegative = true
  · simp [h1] at h
  by_cases h2 : q.maxFee < 0
  · simp [h1, h2] at h
  by_cases h3 : q.forProposer.isNegative = true
  · simp [h1, h2, h3] at h
  by_cases h4 : q.forCompany.isNegative = true
  · simp [h1, h2, h3, h4] at h
  simp only [h1, h2, h3, h4, if_false] at h
  rcases h5 : q.forProposer.add? q.forCompany with _ | s
  · simp [h5] at h
  obtain ⟨hp, hc⟩ := add?_denoms h5
  obtain ⟨z, hz, hz1, -, -, -, hz2⟩ := add?_spec _ _ hp hc
  rw [h5] at hz; cases hz
  rw [h5] at h
  simp only [Option.bind_eq_bind, Option.bind_some] at h
  rw [gt?_spec s (ofInt 1) hz1.ne' (by simp [ofInt])] at h
  have e1 : (ofInt 1).toRat = 1 := by simp [ofInt, toRat]
  simp only [Option.bind_some, e1] at h
  by_cases h6 : s.toRat > 1
  · simp [h6] at h
  rcases h7 : splitLcm? q.forProposer q.forCompany with _ | l
  · simp [h6, h7] at h
  by_cases h8 : l > splitRatiosMaxLcm
  · simp [h6, h7, h8] at h
  refine ⟨by simpa using h1, by omega, hp, hc, ?_, ?_, ?_, l, rfl, by simpa [splitRatiosMaxLcm] using h8⟩
  · by_contra hh; exact h3 ((isNegative_iff _ hp).2 (not_le.1 hh))
  · by_contra hh; exact h4 ((isNegative_iff _ hc).2 (not_le.1 hh))
  · rw [← hz2]; exact not_lt.1 h6

theorem burning_spec (p c : Frac) (hp : p.denom ≠ 0) (hc : c.denom ≠ 0) :
    ∃ b, burningFraction? p c = some b ∧ 0 < b.denom ∧ b.toRat = 1 - p.toRat - c.toRat ∧
      p.denom ∣ b.denom ∧ c.denom ∣ b.denom ∧ ∀ m, p.denom ∣ m → c.denom ∣ m → b.denom ∣ m := by
  obtain ⟨x, h1, h2, h3, h4, h5, h6⟩ := sub?_spec (ofInt 1) p (by simp [ofInt]) hp
  obtain ⟨b, g1, g2, g3, g4, g5, g6⟩ := sub?_spec x c h2.ne' hc
  obtain ⟨l, e1, -, -, -, e5⟩ := lcm?_some (x := (ofInt 1).denom) (y := p.denom) (by simp [ofInt]) hp
  obtain ⟨l', k1, -, -, -, k5⟩ := lcm?_some (x := x.denom) (y := c.denom) h2.ne' hc
  rw [h3] at e1; cases e1
  rw [g3] at k1; cases k1
  refine ⟨b, by simp [burningFraction?, h1, g1], g2, ?_, h5.trans g4, g5, ?_⟩
  · rw [g6, h6]; simp [ofInt, toRat]
  · intro m m1 m2
    exact k5 m (e5 m (by simp [ofInt]) m1) m2

/-- The granularity is the least common multiple of the two denominators. -/
theorem splitLcm?_spec (p c : Frac) (hp : p.denom ≠ 0) (hc : c.denom ≠ 0) :
    ∃ l, splitLcm? p c = some l ∧ 0 < l ∧ p.denom ∣ l ∧ c.denom ∣ l ∧
      ∀ m, p.denom ∣ m → c.denom ∣ m → l ∣ m := by
  obtain ⟨a, h1, h2, h3, h4, h5⟩ := lcm?_some hp hc
  obtain ⟨b, g1, g2, -, -, -, g6⟩ := burning_spec p c hp hc
  obtain ⟨l, k1, k2, k3, k4, k5⟩ := lcm?_some h2.ne' g2.ne'
  refine ⟨l, by simp [splitLcm?, h1, g1, k1], k2, h3.trans k3, h4.trans k3, ?_⟩
  intro m m1 m2
  exact k5 m (h5 m m1 m2) (g6 m m1 m2)

/-- Multiplying a fraction by an integer and truncating gives the floor when the product is in range. -/
theorem mulInt_int64 (x : Frac) (a : Int) (hx : x.denom ≠ 0) (h0 : 0 ≤ x.toRat * a)
    (h1 : x.toRat * a < 2 ^ 63) :
    ∃ z, x.mulInt? a = some z ∧ z.int64? = some ⌊x.toRat * a⌋ := by
  obtain ⟨z, e1, e2, -, e4⟩ := mul?_spec x (ofInt a) hx (by simp [ofInt])
  have e : (ofInt a).toRat = a := by simp [ofInt, toRat]
  rw [e] at e4
  refine ⟨z, e1, ?_⟩
  have hn : 0 ≤ z.num := by
    have h := h0
    rw [← e4] at h
    have hd : (0 : ℚ) < z.denom := by exact_mod_cast e2
    unfold toRat at h
    rw [div_nonneg_iff] at h
    rcases h with h | h
    · exact_mod_cast h.1
    · exact absurd h.2 (not_le.2 hd)
  have := bigInt?_floor z e2 hn
  rw [e4] at this
  refine int64?_eq z _ this ⟨?_, ?_⟩
  · have : 0 ≤ ⌊x.toRat * a⌋ := Int.floor_nonneg.2 h0
    norm_num; omega
  · rw [Int.floor_lt]; push_cast; exact h1

/-- The largest multiple of `l` not above `x`. -/
theorem largest_multiple (x l : Int) (hl : 0 < l) :
    l ∣ x - x % l ∧ x - x % l ≤ x ∧ ∀ m, l ∣ m → m ≤ x → m ≤ x - x % l := by
  refine ⟨Int.dvd_self_sub_emod, ?_, ?_⟩
  · have := Int.emod_nonneg x hl.ne'; omega
  · rintro m ⟨k, rfl⟩ hm
    have h1 : x - x % l = l * (x / l) := by have := Int.mul_ediv_add_emod x l; omega
    rw [h1]
    apply Int.mul_le_mul_of_nonneg_left _ hl.le
    exact (Int.le_ediv_iff_mul_le hl).2 (by rw [mul_comm]; exact hm)

/-- A denominator dividing `m` makes the product with `m` an integer. -/
theorem mul_int_of_dvd (x : Frac) (hx : x.denom ≠ 0) (m : Int) (h : x.denom ∣ m) :
    ∃ k : Int, x.toRat * m = k := by
  obtain ⟨k, rfl⟩ := h
  refine ⟨x.num * k, ?_⟩
  have : (x.denom : ℚ) ≠ 0 := by exact_mod_cast hx
  unfold toRat; push_cast; field_simp

end Verif.Util
