import Verif.Delegating.Model
import Verif.Util.Props
import Mathlib.Algebra.Order.BigOperators.Group.List

/-! Lemmas about the interest table, shares and parts of a day. -/
namespace Verif.Delegating
open Verif.Util Verif.Bank

/-- `r` is the row of the table that applies to `d`: the one with the greatest start not above `d`. -/
def Applies (table : List Row) (d : Int) (r : Row) : Prop :=
  r ∈ table ∧ (r.start : Int) ≤ d ∧ ∀ r' ∈ table, (r'.start : Int) ≤ d → r'.start ≤ r.start

theorem rows_start_gt {p : Nat} {rows : List Row} (h : validateRows (some p) rows = true) : ∀ r ∈ rows, p < r.start := by
  induction rows generalizing p with
  | nil => simp
  | cons r rs ih =>
    simp only [validateRows, Bool.and_eq_true, decide_eq_true_eq] at h
    intro r' hr'
    rcases List.mem_cons.1 hr' with rfl | hr'
    · exact h.1.2
    · have := ih h.2 r' hr'; omega

theorem rows_len {prev : Option Nat} {rows : List Row} (h : validateRows prev rows = true) :
    ∀ r ∈ rows, r.list.length = 5 ∧ ∀ b ∈ r.list, b.isNegative = false := by
  induction rows generalizing prev with
  | nil => simp
  | cons r rs ih =>
    simp only [validateRows, Bool.and_eq_true] at h
    intro r' hr'
    rcases List.mem_cons.1 hr' with rfl | hr'
    · have hv := h.1.1
      simp only [Row.validate, Bool.and_eq_true, decide_eq_true_eq, List.all_eq_true, Bool.not_eq_true'] at hv
      exact hv
    · exact ih h.2 r' hr'

theorem bonusAt_spec {d : Int} {rows : List Row} {r0 : Row} (hv : validateRows (some r0.start) rows = true)
    (h0 : (r0.start : Int) ≤ d) :
    ∃ r, Applies (r0 :: rows) d r ∧
      ∀ i b0, i < 5 → r0.list[i]? = some b0 → bonusAt? d i b0 rows = r.list[i]? := by
  induction rows generalizing r0 with
  | nil =>
    refine ⟨r0, ⟨by simp, h0, by simp⟩, ?_⟩
    intro i b0 _ hb
    rw [hb]; rfl
  | cons r1 rs ih =>
    have hv' := hv
    simp only [validateRows, Bool.and_eq_true, decide_eq_true_eq] at hv
    by_cases hd : (r1.start : Int) ≤ d
    · obtain ⟨r, ⟨hm, hle, hmax⟩, hb⟩ := ih hv.2 hd
      refine ⟨r, ⟨by simp only [List.mem_cons] at hm ⊢; exact Or.inr hm, hle, ?_⟩, ?_⟩
      · intro r' hr' hle'
        rcases List.mem_cons.1 hr' with rfl | hr'
        · have h1 := hmax r1 (by simp) hd
          have h2 := hv.1.2
          omega
        · exact hmax r' hr' hle'
      · intro i b0 hi _
        have hlen := (rows_len hv' r1 (by simp)).1
        have hlt : i < r1.list.length := by omega
        have hget : r1.list[i]? = some (r1.list[i]) := List.getElem?_eq_getElem hlt
        simp only [bonusAt?, if_pos hd, hget]
        exact hb i _ hi hget
    · refine ⟨r0, ⟨by simp, h0, ?_⟩, ?_⟩
      · intro r' hr' hle'
        rcases List.mem_cons.1 hr' with rfl | hr'
        · exact Nat.le_refl _
        · exfalso
          rcases List.mem_cons.1 hr' with rfl | hr''
          · exact hd hle'
          · have := rows_start_gt hv.2 r' hr''; omega
      · intro i b0 _ hb
        simp only [bonusAt?]
        rw [if_neg (by omega), hb]

/-- Sum of the percentages selected by the flags. -/
def flagSum : List Frac → List Bool → ℚ
  | [], _ => 0
  | _, [] => 0
  | b :: bs, v :: vs => (if v then b.toRat else 0) + flagSum bs vs

theorem sumBonuses_spec {d : Int} {table : List Row} {l : List Frac} (hl : ∀ i, i < l.length →
    bonusAt? d i ⟨0, 1⟩ table = l[i]?) (hd : ∀ b ∈ l, b.denom ≠ 0) (flags : List Bool) (i : Nat) (acc : Frac)
    (hacc : acc.denom ≠ 0) (hlen : i + flags.length ≤ l.length) :
    ∃ z, sumBonuses? d table i flags acc = some z ∧ z.denom ≠ 0 ∧ z.toRat = acc.toRat + flagSum (l.drop i) flags := by
  induction flags generalizing i acc with
  | nil =>
    refine ⟨acc, rfl, hacc, ?_⟩
    cases l.drop i <;> simp [flagSum]
  | cons v vs ih =>
    simp only [List.length_cons] at hlen
    have hi : i < l.length := by omega
    have hdrop : l.drop i = l[i] :: l.drop (i + 1) := List.drop_eq_getElem_cons hi
    cases v with
    | false =>
      obtain ⟨z, h1, h2, h3⟩ := ih (i + 1) acc hacc (by omega)
      refine ⟨z, by simpa [sumBonuses?] using h1, h2, ?_⟩
      rw [h3, hdrop]; simp [flagSum]
    | true =>
      have hb : bonusAt? d i ⟨0, 1⟩ table = some l[i] := by rw [hl i hi, List.getElem?_eq_getElem hi]
      obtain ⟨z0, a1, a2, -, -, -, a6⟩ := Frac.add?_spec acc l[i] hacc (hd _ (List.getElem_mem hi))
      obtain ⟨z, h1, h2, h3⟩ := ih (i + 1) z0 a2.ne' (by omega)
      refine ⟨z, by simp [sumBonuses?, hb, a1, h1], h2, ?_⟩
      rw [h3, hdrop, a6]; simp [flagSum]; ring

theorem table_bonus {table : List Row} (hv : validateTable table = true) {d : Int} (hd : 0 ≤ d) :
    ∃ r, Applies table d r ∧ ∀ i, i < 5 → bonusAt? d i ⟨0, 1⟩ table = r.list[i]? := by
  unfold validateTable at hv
  rw [Bool.and_eq_true] at hv
  cases table with
  | nil => simp at hv
  | cons r0 rows =>
    have hlen := (rows_len hv.2 r0 (by simp)).1
    have h2 := hv.2
    simp only [validateRows, Bool.and_eq_true, decide_eq_true_eq] at h2
    have h0 : (r0.start : Int) ≤ d := by rw [h2.1.2]; simpa using hd
    obtain ⟨r, ha, hb⟩ := bonusAt_spec h2.2 h0
    refine ⟨r, ha, fun i hi => ?_⟩
    have hlt : i < r0.list.length := by omega
    have hget : r0.list[i]? = some (r0.list[i]) := List.getElem?_eq_getElem hlt
    simp only [bonusAt?, ge_iff_le, if_pos h0, hget]
    exact hb i _ hi hget

theorem percent_spec {dust d : Int} {table : List Row} (hv : validateTable table = true)
    (hden : ∀ r ∈ table, ∀ b ∈ r.list, b.denom ≠ 0) (h0 : 0 ≤ d) (h1 : d < 2 ^ 63) (p v n st : Bool) :
    ∃ q r, percent? dust table d p v n st = some q ∧ 0 < q.denom ∧ Applies table d r ∧
      q.toRat = if d ≤ dust then 0 else flagSum r.list [true, v, p, n, st] / 30 := by
  obtain ⟨r, ha, hb⟩ := table_bonus hv h0
  have hlen : r.list.length = 5 := by
    unfold validateTable at hv
    rw [Bool.and_eq_true] at hv
    exact (rows_len hv.2 r ha.1).1
  by_cases hdust : d ≤ dust
  · refine ⟨⟨0, 1⟩, r, ?_, by simp, ha, ?_⟩
    · simp [percent?, sdkInt64?_eq ⟨by omega, h1⟩, hdust]
    · simp [hdust, Frac.toRat]
  · obtain ⟨z, z1, z2, z3⟩ := sumBonuses_spec (l := r.list) (fun i hi => hb i (by omega)) (hden r ha.1)
      [true, v, p, n, st] 0 ⟨0, 1⟩ (by simp) (by simp [hlen])
    obtain ⟨q0, q1, q2, -, q4⟩ := Frac.div?_spec z ⟨30, 1⟩ z2 (by simp) (by simp)
    obtain ⟨q, w1, w2, -, w4⟩ := Frac.reduce?_spec q0 q2.ne'
    refine ⟨q, r, ?_, w2, ha, ?_⟩
    · simp [percent?, sdkInt64?_eq ⟨by omega, h1⟩, hdust, z1, q1, w1]
    · rw [w4, q4, z3, if_neg hdust]
      simp [Frac.toRat]

/-! Integer part of a product, both signs. -/

theorem mulInt_int64_nonpos (x : Frac) (a : Int) (hx : x.denom ≠ 0) (h0 : x.toRat * a ≤ 0) (h1 : -(2 ^ 63) ≤ x.toRat * a) :
    ∃ z v, x.mulInt? a = some z ∧ z.int64? = some v ∧ v ≤ 0 := by
  obtain ⟨z, e1, e2, -, e4⟩ := Frac.mul?_spec x (Frac.ofInt a) hx (by simp [Frac.ofInt])
  have e : (Frac.ofInt a).toRat = a := by simp [Frac.ofInt, Frac.toRat]
  rw [e] at e4
  have hzd : (0 : ℚ) < z.denom := by exact_mod_cast e2
  have hn : z.num ≤ 0 := by
    rw [← e4] at h0
    unfold Frac.toRat at h0
    by_contra hh
    have : (0 : ℚ) < z.num := by exact_mod_cast not_le.1 hh
    exact absurd h0 (not_le.2 (div_pos this hzd))
  have hlow : -(2 ^ 63) * z.denom ≤ z.num := by
    rw [← e4] at h1
    unfold Frac.toRat at h1
    rw [le_div_iff₀ hzd] at h1
    exact_mod_cast h1
  have hb : z.bigInt? = some (z.num.tdiv z.denom) := by unfold Frac.bigInt?; rw [quo?_ne e2.ne']
  have hv : z.num.tdiv z.denom ≤ 0 := by
    have h : 0 ≤ (-z.num).tdiv z.denom := Int.tdiv_nonneg (by omega) e2.le
    rw [Int.neg_tdiv] at h; omega
  have hl : -(2 ^ 63) ≤ z.num.tdiv z.denom := by
    have h : (-z.num).tdiv z.denom ≤ 2 ^ 63 := by
      rw [Int.tdiv_eq_ediv_of_nonneg (by omega)]
      apply Int.ediv_le_of_le_mul e2
      nlinarith
    rw [Int.neg_tdiv] at h; omega
  refine ⟨z, z.num.tdiv z.denom, e1, ?_, hv⟩
  exact Frac.int64?_eq z _ hb ⟨hl, by norm_num; omega⟩

/-! Shares of beneficiaries. -/

/-- Ratios as the referral module delivers them (C25): well-formed, non-negative, together at most 30. -/
def RatiosOk (l : List (Addr × Frac)) : Prop :=
  (∀ x ∈ l, x.2.denom ≠ 0 ∧ 0 ≤ x.2.toRat) ∧ (l.map (fun x => x.2.toRat)).sum ≤ 30

theorem share_spec {r : Frac} {u : Int} (hr : r.denom ≠ 0) (h0 : 0 ≤ r.toRat) (h30 : r.toRat ≤ 30)
    (hu : -(2 ^ 63) ≤ u ∧ u < 2 ^ 63) :
    ∃ x, share? r u = some x ∧ (0 ≤ u → x = ⌊r.toRat / 30 * u⌋) ∧ (u < 0 → x ≤ 0) := by
  obtain ⟨q0, q1, q2, -, q4⟩ := Frac.div?_spec r ⟨30, 1⟩ hr (by simp) (by simp)
  obtain ⟨q, w1, w2, -, w4⟩ := Frac.reduce?_spec q0 q2.ne'
  have hq : q.toRat = r.toRat / 30 := by rw [w4, q4]; simp [Frac.toRat]
  have hq0 : 0 ≤ q.toRat := by rw [hq]; positivity
  have hq1 : q.toRat ≤ 1 := by rw [hq]; linarith
  have hu1 : (-(2 ^ 63) : ℚ) ≤ u := by exact_mod_cast hu.1
  have hu2 : (u : ℚ) < 2 ^ 63 := by exact_mod_cast hu.2
  by_cases hn : 0 ≤ u
  · have hun : (0 : ℚ) ≤ u := by exact_mod_cast hn
    obtain ⟨z, m1, m2⟩ := mulInt_int64 q u w2.ne' (mul_nonneg hq0 hun) (by nlinarith)
    refine ⟨⌊q.toRat * u⌋, by simp [share?, q1, w1, m1, m2], fun _ => by rw [hq], fun h => by omega⟩
  · have hun : (u : ℚ) < 0 := by exact_mod_cast not_le.1 hn
    obtain ⟨z, v, m1, m2, m3⟩ := mulInt_int64_nonpos q u w2.ne' (by nlinarith) (by nlinarith)
    exact ⟨v, by simp [share?, q1, w1, m1, m2], fun h => absurd h hn, fun _ => m3⟩

/-- What each beneficiary is due: the integer part of `ratio / 30 * u`, nothing if that is zero. -/
def dueShares (u : Int) (l : List (Addr × Frac)) : List (Addr × Int) :=
  (l.map (fun x => (x.1, ⌊x.2.toRat / 30 * (u : ℚ)⌋))).filter (fun x => decide (x.2 ≠ 0))

theorem ratios_tail {x : Addr × Frac} {l : List (Addr × Frac)} (h : RatiosOk (x :: l)) : RatiosOk l := by
  refine ⟨fun y hy => h.1 y (by simp [hy]), ?_⟩
  have h1 := h.2
  have h2 := (h.1 x (by simp)).2
  simp only [List.map_cons, List.sum_cons] at h1
  linarith

theorem ratios_sum_nonneg {l : List (Addr × Frac)} (h : RatiosOk l) : 0 ≤ (l.map (fun x => x.2.toRat)).sum := by
  apply List.sum_nonneg
  intro q hq
  obtain ⟨y, hy, rfl⟩ := List.mem_map.1 hq
  exact (h.1 y hy).2

/-- The sum of the shares is bounded by the sum of the ratios. -/
theorem dueShares_bound {u : Int} (hu : 0 ≤ u) {l : List (Addr × Frac)} (h : RatiosOk l) :
    (∀ x ∈ dueShares u l, 0 < x.2) ∧ 0 ≤ ((dueShares u l).map Prod.snd).sum ∧
    ((((dueShares u l).map Prod.snd).sum : Int) : ℚ) ≤ (l.map (fun x => x.2.toRat)).sum / 30 * u := by
  have hun : (0 : ℚ) ≤ u := by exact_mod_cast hu
  induction l with
  | nil => simp [dueShares]
  | cons y l ih =>
    obtain ⟨i1, i2, i3⟩ := ih (ratios_tail h)
    have hy := (h.1 y (by simp)).2
    have hf0 : 0 ≤ ⌊y.2.toRat / 30 * u⌋ := Int.floor_nonneg.2 (mul_nonneg (by positivity) hun)
    have hfl : ((⌊y.2.toRat / 30 * u⌋ : Int) : ℚ) ≤ y.2.toRat / 30 * u := Int.floor_le _
    have hsum : ((y :: l).map (fun x => x.2.toRat)).sum / 30 * u =
        y.2.toRat / 30 * u + (l.map (fun x => x.2.toRat)).sum / 30 * u := by
      simp only [List.map_cons, List.sum_cons]; ring
    by_cases hz : ⌊y.2.toRat / 30 * u⌋ = 0
    · have : dueShares u (y :: l) = dueShares u l := by simp [dueShares, hz]
      rw [this, hsum]
      refine ⟨i1, i2, ?_⟩
      have : 0 ≤ y.2.toRat / 30 * u := mul_nonneg (by positivity) hun
      linarith
    · have : dueShares u (y :: l) = (y.1, ⌊y.2.toRat / 30 * u⌋) :: dueShares u l := by simp [dueShares, hz]
      rw [this, hsum]
      simp only [List.map_cons, List.sum_cons, List.mem_cons]
      refine ⟨?_, by omega, by push_cast; linarith⟩
      rintro x (rfl | hx)
      · simp only; omega
      · exact i1 x hx

theorem wrap64_eq {x : Int} (h : -(2 ^ 63) ≤ x ∧ x < 2 ^ 63) : wrap64 x = x := by
  unfold wrap64
  rw [Int.bmod_eq_of_le] <;> omega

theorem shares_spec {u : Int} (hu : 0 ≤ u) (hu' : u < 2 ^ 63) {l : List (Addr × Frac)} (h : RatiosOk l) :
    shares? u l = some (dueShares u l, ((dueShares u l).map Prod.snd).sum) := by
  induction l with
  | nil => simp [shares?, dueShares]
  | cons y l ih =>
    obtain ⟨hd, h0⟩ := h.1 y (by simp)
    have hs := ratios_sum_nonneg (ratios_tail h)
    have hsum := h.2
    simp only [List.map_cons, List.sum_cons] at hsum
    obtain ⟨x, s1, s2, -⟩ := share_spec hd h0 (by linarith) ⟨by omega, hu'⟩
    have hx := s2 hu
    have hun : (0 : ℚ) ≤ u := by exact_mod_cast hu
    have hx0 : 0 ≤ x := by rw [hx]; exact Int.floor_nonneg.2 (mul_nonneg (by positivity) hun)
    have ih' := ih (ratios_tail h)
    obtain ⟨yb, yr⟩ := y
    by_cases hz : x = 0
    · have : dueShares u ((yb, yr) :: l) = dueShares u l := by
        rw [hx] at hz; simp [dueShares, hz]
      rw [this]
      simp only [shares?, s1, Option.bind_eq_bind, Option.bind_some, if_pos hz]
      exact ih'
    · have : dueShares u ((yb, yr) :: l) = (yb, x) :: dueShares u l := by
        rw [hx] at hz; simp [dueShares, hz, hx]
      rw [this]
      have hb := dueShares_bound hu h
      rw [this] at hb
      have hlt : (((x :: (dueShares u l).map Prod.snd).sum : Int) : ℚ) < 2 ^ 63 := by
        have h3 := hb.2.2
        have h4 := h.2
        have h5 := ratios_sum_nonneg h
        have : (u : ℚ) < 2 ^ 63 := by exact_mod_cast hu'
        simp only [List.map_cons] at h3 h4 h5 ⊢
        nlinarith
      have hlt' : (x :: (dueShares u l).map Prod.snd).sum < 2 ^ 63 := by exact_mod_cast hlt
      have h2 := hb.2.1
      simp only [List.map_cons, List.sum_cons] at h2 hlt'
      simp only [shares?, s1, Option.bind_eq_bind, Option.bind_some, if_neg hz, if_neg (not_lt.2 hx0), ih',
        List.map_cons, List.sum_cons]
      rw [wrap64_eq ⟨by omega, hlt'⟩]
      rfl

/-- A negative base gives no positive share: either nothing is due or the computation panics. -/
theorem shares_neg {u : Int} (hu : u < 0) (hu' : -(2 ^ 63) ≤ u) {l : List (Addr × Frac)} (h : RatiosOk l) :
    shares? u l = none ∨ shares? u l = some ([], 0) := by
  induction l with
  | nil => simp [shares?]
  | cons y l ih =>
    obtain ⟨hd, h0⟩ := h.1 y (by simp)
    have hs := ratios_sum_nonneg (ratios_tail h)
    have hsum := h.2
    simp only [List.map_cons, List.sum_cons] at hsum
    obtain ⟨x, s1, -, s3⟩ := share_spec hd h0 (by linarith) ⟨hu', by omega⟩
    have hx := s3 hu
    obtain ⟨yb, yr⟩ := y
    by_cases hz : x = 0
    · simp only [shares?, s1, Option.bind_eq_bind, Option.bind_some, if_pos hz]
      exact ih (ratios_tail h)
    · left
      simp only [shares?, s1, Option.bind_eq_bind, Option.bind_some, if_neg hz, if_pos (show x < 0 by omega)]

end Verif.Delegating
